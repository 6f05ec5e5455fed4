import Verif.Spec.SolverIneq

/-!
# Specification: solutions at which the active constraints can be told
-/

namespace Aligator.Link.Spec

open Matrix

variable {nx nu : ℕ → ℕ} {N : ℕ}

/-- The constraint is kept at its value by its multiplier: an equality, or an inequality whose multiplier is not zero. -/
def SetKind.Held : SetKind → ℝ → Prop
  | .eq, _ => True
  | _, v => v ≠ 0

/-- The number is on that side of the boundaries where the multiplier says the constraint is: beyond the bound the multiplier
belongs to, or between the bounds if it is zero. -/
def SetKind.OnSide : SetKind → ℝ → ℝ → Prop
  | .eq, _, _ => True
  | .nonpos, v, z => (v ≠ 0 → 0 < z) ∧ (v = 0 → z ≤ 0)
  | .box l u, v, z => (0 < v → u < z) ∧ (v < 0 → z < l) ∧ (v = 0 → l ≤ z ∧ z ≤ u)

/-- The rows of the path constraints that the multipliers `vb` hold. -/
def held (sk : ℕ → List SetKind) (vb : ℕ → List ℝ) (i k : ℕ) : Prop := ((sk i).getD k .eq).Held ((vb i).getD k 0)

open Classical in
/-- Differences of the constraint values of two trajectories, zero for the rows that are not held. -/
noncomputable def devs (P : Prob nx nu N) (hd : ℕ → ℕ → Prop) (y : ∀ i, Fin (nx i) → ℝ) (w : ∀ i, Fin (nu i) → ℝ)
    (x : ∀ i, Fin (nx i) → ℝ) (u : ∀ i, Fin (nu i) → ℝ) (i : ℕ) : List ℝ :=
  (List.range (cstr P x u i).length).map fun k => if hd i k then (cstr P x u i).getD k 0 - (cstr P y w i).getD k 0 else 0

/-- An error bound: a trajectory that satisfies initial condition and dynamics, with any multipliers of the rows that are held, is
as close to `(y, w, vb)` as the values of these rows and the derivatives `(rx, ru)` of its Lagrangian tell. -/
def ErrorBoundOn (P : Prob nx nu N) (fixed : Prop) (hd : ℕ → ℕ → Prop) (K : ℝ) (y : ∀ i, Fin (nx i) → ℝ) (w : ∀ i, Fin (nu i) → ℝ)
    (vb : ℕ → List ℝ) : Prop :=
  ∀ (x : ∀ i, Fin (nx i) → ℝ) (u : ∀ i, Fin (nu i) → ℝ) (lam0 : Fin P.nc0 → ℝ) (lam : ∀ i, Fin (nx (i + 1)) → ℝ) (v : ℕ → List ℝ)
    (rx : ∀ i, Fin (nx i) → ℝ) (ru : ∀ i, Fin (nu i) → ℝ), Feasible P x u →
    (∀ i, i ≤ N → (v i).length = (cstr P x u i).length) →
    (∀ i, i ≤ N → ∀ k, k < (cstr P x u i).length → ¬ hd i k → (v i).getD k 0 = 0) → (fixed → rx 0 = 0) →
    (∀ (ex : ∀ i, Fin (nx i) → ℝ) (eu : ∀ i, Fin (nu i) → ℝ), (fixed → ex 0 = 0) →
      HasDerivAt (fun t : ℝ => lagrangian P lam0 lam v (fun i => x i + t • ex i) (fun i => u i + t • eu i))
        ((∑ i ∈ Finset.range (N + 1), rx i ⬝ᵥ ex i) + ∑ i ∈ Finset.range N, ru i ⬝ᵥ eu i) 0) →
    dist2 N x u y w + vdist2 N (fun i => (cstr P x u i).length) v vb ≤
      K * (vdist2 N (fun i => (cstr P x u i).length) (devs P hd y w x u) (fun _ => []) + dist2 N rx ru 0 0)

/-- The active constraints can be told within `D`: every trajectory within (squared) distance `D` satisfies the constraints that are
not held, and the multipliers of the inequalities that are held are so far from zero that those within `D` of them have their
signs, with a margin that depends on the factor of the penalty parameter. -/
structure Told (P : Prob nx nu N) (sk : ℕ → List SetKind) (theta D : ℝ) (y : ∀ i, Fin (nx i) → ℝ) (w : ∀ i, Fin (nu i) → ℝ)
    (vb : ℕ → List ℝ) : Prop where
  inactive : ∀ (x : ∀ i, Fin (nx i) → ℝ) (u : ∀ i, Fin (nu i) → ℝ), dist2 N x u y w ≤ D → ∀ i, i ≤ N → ∀ k, k < (cstr P x u i).length →
    ¬ held sk vb i k → (cstr P x u i).getD k 0 ∈ ((sk i).getD k .eq).set
  active : ∀ i, i ≤ N → ∀ k, k < (cstr P y w i).length → (sk i).getD k .eq ≠ .eq → (vb i).getD k 0 ≠ 0 →
    (2 + theta) * Real.sqrt D < theta * |(vb i).getD k 0|

/-- The number satisfies the constraint with room on all sides. -/
def SetKind.Inside : SetKind → ℝ → Prop
  | .eq, _ => True
  | .nonpos, c => c < 0
  | .box l u, c => l < c ∧ c < u

/-- Strict complementarity: every inequality whose multiplier is zero holds with room. -/
def StrictlyComplementary (P : Prob nx nu N) (sk : ℕ → List SetKind) (y : ∀ i, Fin (nx i) → ℝ) (w : ∀ i, Fin (nu i) → ℝ)
    (vb : ℕ → List ℝ) : Prop :=
  ∀ i, i ≤ N → ∀ k, k < (cstr P y w i).length → (vb i).getD k 0 = 0 → ((sk i).getD k .eq).Inside ((cstr P y w i).getD k 0)

/-- No other trajectory and no other multipliers of the path constraints are first-order optimal. -/
def UniqueKKTI (P : Prob nx nu N) (sk : ℕ → List SetKind) (fixed : Prop) (y : ∀ i, Fin (nx i) → ℝ) (w : ∀ i, Fin (nu i) → ℝ)
    (vb : ℕ → List ℝ) : Prop :=
  ∀ (x : ∀ i, Fin (nx i) → ℝ) (u : ∀ i, Fin (nu i) → ℝ) (lam0 : Fin P.nc0 → ℝ) (lam : ∀ i, Fin (nx (i + 1)) → ℝ) (v : ℕ → List ℝ),
    KKTPointI P sk fixed x u lam0 lam v → (∀ i, i ≤ N → x i = y i) ∧ (∀ i, i < N → u i = w i) ∧ ∀ i, i ≤ N → v i = vb i

end Aligator.Link.Spec
