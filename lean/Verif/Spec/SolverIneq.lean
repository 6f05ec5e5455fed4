import Verif.Spec.SolverEq

/-!
# Specification: linear-quadratic problems with equality and inequality path constraints
-/

namespace Aligator.Link.Spec

open Matrix

variable {nx nu : ℕ → ℕ} {N : ℕ}

/-- What a path constraint asks of one component. -/
inductive SetKind
  | eq | nonpos | box (l u : ℝ)

/-- The values allowed. -/
def SetKind.set : SetKind → Set ℝ
  | .eq => {0}
  | .nonpos => Set.Iic 0
  | .box l u => Set.Icc l u

/-- The second number is on the same side of the boundaries as the first, or on the boundary. -/
def SetKind.sameSide : SetKind → ℝ → ℝ → Prop
  | .eq, _, _ => True
  | .nonpos, z, z' => (0 < z → 0 ≤ z') ∧ (z ≤ 0 → z' ≤ 0)
  | .box l u, z, z' => (u < z → u ≤ z') ∧ (z < l → z' ≤ l) ∧ (l ≤ z → z ≤ u → l ≤ z' ∧ z' ≤ u)

/-- Not a single point written as a box. -/
def SetKind.Proper : SetKind → Prop
  | .box l u => l < u
  | _ => True

/-- Normal cone of a set of numbers. -/
def Normal (C : Set ℝ) (c v : ℝ) : Prop := c ∈ C ∧ ∀ y ∈ C, v * (y - c) ≤ 0

/-- First-order optimality of a trajectory with multipliers: initial condition and dynamics hold, the path constraints hold with
multipliers in the normal cones, and the Lagrangian is stationary; with `fixed` only the variations that keep the first state
count. -/
structure KKTPointI (P : Prob nx nu N) (sk : ℕ → List SetKind) (fixed : Prop) (x : ∀ i, Fin (nx i) → ℝ) (u : ∀ i, Fin (nu i) → ℝ)
    (lam0 : Fin P.nc0 → ℝ) (lam : ∀ i, Fin (nx (i + 1)) → ℝ) (v : ℕ → List ℝ) : Prop where
  feasible : Feasible P x u
  sizes : ∀ i, i ≤ N → (v i).length = (cstr P x u i).length
  normal : ∀ i, i ≤ N → ∀ k, k < (cstr P x u i).length →
    Normal ((sk i).getD k .eq).set ((cstr P x u i).getD k 0) ((v i).getD k 0)
  stationary : ∀ (ex : ∀ i, Fin (nx i) → ℝ) (eu : ∀ i, Fin (nu i) → ℝ), (fixed → ex 0 = 0) →
    HasDerivAt (fun t : ℝ => lagrangian P lam0 lam v (fun i => x i + t • ex i) (fun i => u i + t • eu i)) 0 0

/-- Every constraint value is within `b` of a value allowed at which its multiplier is in the normal cone. -/
def NearNormal (P : Prob nx nu N) (sk : ℕ → List SetKind) (b : ℝ) (x : ∀ i, Fin (nx i) → ℝ) (u : ∀ i, Fin (nu i) → ℝ)
    (v : ℕ → List ℝ) : Prop :=
  ∀ i, i ≤ N → ∀ k, k < (cstr P x u i).length →
    ∃ y, Normal ((sk i).getD k .eq).set y ((v i).getD k 0) ∧ |(cstr P x u i).getD k 0 - y| ≤ b

end Aligator.Link.Spec
