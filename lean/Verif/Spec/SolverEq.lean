import Verif.Spec.SolverLQ
import Verif.Spec.Lagrangian

/-!
# Specification: linear-quadratic problems with equality path constraints
-/

namespace Aligator.Link.Spec

open Matrix

variable {nx nu : ℕ → ℕ} {N : ℕ}

/-- An affine constraint function; the callback returns the right Jacobians. -/
structure AffineFun {n m : ℕ} (c : CFun n m) : Prop where
  g : ∀ x u d e, c.g (x + d) (u + e) = c.g x u + (c.Jx x u *ᵥ d + c.Ju x u *ᵥ e)
  Jx : ∀ x u d e, c.Jx (x + d) (u + e) = c.Jx x u
  Ju : ∀ x u d e, c.Ju (x + d) (u + e) = c.Ju x u

/-- The problem without its path constraints. -/
abbrev free (P : Prob nx nu N) : Prob nx nu N := { P with c := fun _ => [], cN := [] }

/-- A linear-quadratic problem with affine path constraints. -/
structure IsLQE (P : Prob nx nu N) (H : LQ.Hess nx nu N) : Prop where
  free : IsLQ (free P) H
  c : ∀ i, i < N → ∀ c ∈ P.c i, AffineFun c
  cN : ∀ c ∈ P.cN, AffineFun c

/-- Values of the path constraints of stage `i`, stacked. -/
def cstr (P : Prob nx nu N) (x : ∀ i, Fin (nx i) → ℝ) (u : ∀ i, Fin (nu i) → ℝ) (i : ℕ) : List ℝ :=
  if i < N then (P.c i).flatMap fun c => List.ofFn (c.g (x i) (u i)) else P.cN.flatMap fun c => List.ofFn (c.g (x N) 0)

/-- The Lagrangian. -/
def lagrangian (P : Prob nx nu N) (lam0 : Fin P.nc0 → ℝ) (lam : ∀ i, Fin (nx (i + 1)) → ℝ) (v : ℕ → List ℝ)
    (x : ∀ i, Fin (nx i) → ℝ) (u : ∀ i, Fin (nu i) → ℝ) : ℝ :=
  cost P x u + lam0 ⬝ᵥ P.h (x 0) + (∑ i ∈ Finset.range N, lam i ⬝ᵥ (P.f i (x i) (u i) - x (i + 1))) +
    ∑ i ∈ Finset.range (N + 1), Lag.Spec.ldot (v i) (cstr P x u i)

/-- First-order optimality of a trajectory with multipliers, all path constraints being equalities; with `fixed` only the
variations that keep the first state count. -/
structure KKTPoint (P : Prob nx nu N) (fixed : Prop) (x : ∀ i, Fin (nx i) → ℝ) (u : ∀ i, Fin (nu i) → ℝ)
    (lam0 : Fin P.nc0 → ℝ) (lam : ∀ i, Fin (nx (i + 1)) → ℝ) (v : ℕ → List ℝ) : Prop where
  feasible : Feasible P x u
  constraints : ∀ i, i ≤ N → ∀ a ∈ cstr P x u i, a = 0
  sizes : ∀ i, i ≤ N → (v i).length = (cstr P x u i).length
  stationary : ∀ (ex : ∀ i, Fin (nx i) → ℝ) (eu : ∀ i, Fin (nu i) → ℝ), (fixed → ex 0 = 0) →
    HasDerivAt (fun t : ℝ => lagrangian P lam0 lam v (fun i => x i + t • ex i) (fun i => u i + t • eu i)) 0 0

/-- Sum of squares of the differences of two trajectories. -/
def dist2 (N : ℕ) (x : ∀ i, Fin (nx i) → ℝ) (u : ∀ i, Fin (nu i) → ℝ) (y : ∀ i, Fin (nx i) → ℝ) (w : ∀ i, Fin (nu i) → ℝ) : ℝ :=
  (∑ i ∈ Finset.range (N + 1), ∑ k, (x i k - y i k) ^ 2) + ∑ i ∈ Finset.range N, ∑ k, (u i k - w i k) ^ 2

/-- Sum of squares of the differences of two families of vectors with `nc i` components. -/
def vdist2 (N : ℕ) (nc : ℕ → ℕ) (v w : ℕ → List ℝ) : ℝ :=
  ∑ i ∈ Finset.range (N + 1), ∑ k ∈ Finset.range (nc i), ((v i).getD k 0 - (w i).getD k 0) ^ 2

/-- The largest constraint value. -/
def MaxViolation (P : Prob nx nu N) (x : ∀ i, Fin (nx i) → ℝ) (u : ∀ i, Fin (nu i) → ℝ) (b : ℝ) : Prop :=
  ∀ i, i ≤ N → ∀ a ∈ cstr P x u i, |a| ≤ b

/-- An error bound: a trajectory that satisfies initial condition and dynamics, with any multipliers, is as close to
`(y, w, vb)` as its constraint values and the derivatives `(rx, ru)` of its Lagrangian tell. -/
def ErrorBound (P : Prob nx nu N) (fixed : Prop) (K : ℝ) (y : ∀ i, Fin (nx i) → ℝ) (w : ∀ i, Fin (nu i) → ℝ) (vb : ℕ → List ℝ) :
    Prop :=
  ∀ (x : ∀ i, Fin (nx i) → ℝ) (u : ∀ i, Fin (nu i) → ℝ) (lam0 : Fin P.nc0 → ℝ) (lam : ∀ i, Fin (nx (i + 1)) → ℝ) (v : ℕ → List ℝ)
    (rx : ∀ i, Fin (nx i) → ℝ) (ru : ∀ i, Fin (nu i) → ℝ), Feasible P x u →
    (∀ i, i ≤ N → (v i).length = (cstr P x u i).length) → (fixed → rx 0 = 0) →
    (∀ (ex : ∀ i, Fin (nx i) → ℝ) (eu : ∀ i, Fin (nu i) → ℝ), (fixed → ex 0 = 0) →
      HasDerivAt (fun t : ℝ => lagrangian P lam0 lam v (fun i => x i + t • ex i) (fun i => u i + t • eu i))
        ((∑ i ∈ Finset.range (N + 1), rx i ⬝ᵥ ex i) + ∑ i ∈ Finset.range N, ru i ⬝ᵥ eu i) 0) →
    dist2 N x u y w + vdist2 N (fun i => (cstr P x u i).length) v vb ≤
      K * (vdist2 N (fun i => (cstr P x u i).length) (cstr P x u) (fun _ => []) + dist2 N rx ru 0 0)

/-- No other trajectory and no other multipliers of the path constraints are first-order optimal. -/
def UniqueKKT (P : Prob nx nu N) (fixed : Prop) (y : ∀ i, Fin (nx i) → ℝ) (w : ∀ i, Fin (nu i) → ℝ) (vb : ℕ → List ℝ) : Prop :=
  ∀ (x : ∀ i, Fin (nx i) → ℝ) (u : ∀ i, Fin (nu i) → ℝ) (lam0 : Fin P.nc0 → ℝ) (lam : ∀ i, Fin (nx (i + 1)) → ℝ) (v : ℕ → List ℝ),
    KKTPoint P fixed x u lam0 lam v → (∀ i, i ≤ N → x i = y i) ∧ (∀ i, i < N → u i = w i) ∧ ∀ i, i ≤ N → v i = vb i

end Aligator.Link.Spec
