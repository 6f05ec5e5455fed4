import Verif.Model.Solver

/-!
# Specification: linear-quadratic problems
-/

namespace Aligator.Link.Spec

open Matrix

variable {nx nu : ℕ → ℕ} {N : ℕ}

/-- An affine initial condition, affine dynamics, quadratic costs with Hessians `H`, no path constraints; the callbacks return the
right derivatives. -/
structure IsLQ (P : Prob nx nu N) (H : LQ.Hess nx nu N) : Prop where
  h : ∀ x d, P.h (x + d) = P.h x + P.hx x *ᵥ d
  hx : ∀ x d, P.hx (x + d) = P.hx x
  f : ∀ i x u d e, P.f i (x + d) (u + e) = P.f i x u + (P.fx i x u *ᵥ d + P.fu i x u *ᵥ e)
  fx : ∀ i x u d e, P.fx i (x + d) (u + e) = P.fx i x u
  fu : ∀ i x u d e, P.fu i (x + d) (u + e) = P.fu i x u
  l : ∀ i x u d e, P.l i (x + d) (u + e) = P.l i x u + (d ⬝ᵥ P.lx i x u + e ⬝ᵥ P.lu i x u) +
    1 / 2 * (d ⬝ᵥ (H.Lxx i *ᵥ d) + 2 * (d ⬝ᵥ (H.Lxu i *ᵥ e)) + e ⬝ᵥ (H.Luu i *ᵥ e))
  lx : ∀ i x u d e, P.lx i (x + d) (u + e) = P.lx i x u + (H.Lxx i *ᵥ d + H.Lxu i *ᵥ e)
  lu : ∀ i x u d e, P.lu i (x + d) (u + e) = P.lu i x u + ((H.Lxu i)ᵀ *ᵥ d + H.Luu i *ᵥ e)
  lN : ∀ x d, P.lN (x + d) = P.lN x + d ⬝ᵥ P.lNx x + 1 / 2 * (d ⬝ᵥ (H.termLxx *ᵥ d))
  lNx : ∀ x d, P.lNx (x + d) = P.lNx x + H.termLxx *ᵥ d
  c : ∀ i, P.c i = []
  cN : P.cN = []
  /-- the dynamics and the initial condition have no curvature -/
  flat : (∀ i, H.Hxx i = 0) ∧ (∀ i, H.Hxu i = 0) ∧ (∀ i, H.Huu i = 0) ∧ H.initHxx = 0

/-- The costs are convex. -/
structure Convex (N : ℕ) (H : LQ.Hess nx nu N) : Prop where
  stage : ∀ i, i < N → ∀ d e, 0 ≤ d ⬝ᵥ (H.Lxx i *ᵥ d) + 2 * (d ⬝ᵥ (H.Lxu i *ᵥ e)) + e ⬝ᵥ (H.Luu i *ᵥ e)
  term : ∀ d, 0 ≤ d ⬝ᵥ (H.termLxx *ᵥ d)

/-- Total cost of a trajectory. -/
def cost (P : Prob nx nu N) (x : ∀ i, Fin (nx i) → ℝ) (u : ∀ i, Fin (nu i) → ℝ) : ℝ :=
  (∑ i ∈ Finset.range N, P.l i (x i) (u i)) + P.lN (x N)

/-- The trajectory satisfies the initial condition and the dynamics. -/
structure Feasible (P : Prob nx nu N) (x : ∀ i, Fin (nx i) → ℝ) (u : ∀ i, Fin (nu i) → ℝ) : Prop where
  init : P.h (x 0) = 0
  dynamics : ∀ i, i < N → P.f i (x i) (u i) = x (i + 1)

/-- No feasible trajectory has a lower cost. -/
def Optimal (P : Prob nx nu N) (x : ∀ i, Fin (nx i) → ℝ) (u : ∀ i, Fin (nu i) → ℝ) : Prop :=
  Feasible P x u ∧ ∀ y w, Feasible P y w → cost P x u ≤ cost P y w

end Aligator.Link.Spec
