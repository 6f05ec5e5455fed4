import Verif.Spec.Lqr
import Mathlib.Algebra.Order.Field.Basic

/-!
# Specification: objective, feasibility and convexity of LQ problems
-/

namespace Aligator.Gar

open Matrix

variable {𝕜 : Type*} [Field 𝕜] {nth : ℕ}

/-- Stage objective: the quadratic cost of the knot documentation (gar/lqr-problem.hpp:16-33) with its
parametric terms, plus the quadratic penalty `|Cx+Du+d+Gvθ|²/(2 mu)` of the proximal problem. -/
def stageCost {nx nu nc nx2 : ℕ} (k : Knot 𝕜 nth nx nu nc nx2) (mu : 𝕜) (θ : Vec 𝕜 nth)
    (x : Vec 𝕜 nx) (u : Vec 𝕜 nu) : 𝕜 :=
  (1/2) * (x ⬝ᵥ k.Q *ᵥ x) + x ⬝ᵥ k.S *ᵥ u + (1/2) * (u ⬝ᵥ k.R *ᵥ u) + k.q ⬝ᵥ x + k.r ⬝ᵥ u
  + x ⬝ᵥ k.Gx *ᵥ θ + u ⬝ᵥ k.Gu *ᵥ θ + (1/2) * (θ ⬝ᵥ k.Gth *ᵥ θ) + k.gamma ⬝ᵥ θ
  + (1/(2*mu)) * ((k.C *ᵥ x + k.D *ᵥ u + k.d + k.Gv *ᵥ θ) ⬝ᵥ
      (k.C *ᵥ x + k.D *ᵥ u + k.d + k.Gv *ᵥ θ))

/-- Total objective of the states and controls of a trajectory (multipliers are ignored). -/
def cost (mu : 𝕜) (θ : Vec 𝕜 nth) : {nx : ℕ} → (ch : Chain 𝕜 nth nx) → Traj ch → 𝕜
  | _, .last k, .last n => stageCost k mu θ n.x n.u
  | _, .cons k tl, .cons n _ t => stageCost k mu θ n.x n.u + cost mu θ tl t

/-- The trajectory satisfies the dynamics `x' = Ax + Bu + f`. -/
def Dyn : {nx : ℕ} → (ch : Chain 𝕜 nth nx) → Traj ch → Prop
  | _, .last _, .last _ => True
  | _, .cons k tl, .cons n _ t => k.A *ᵥ n.x + k.B *ᵥ n.u + k.f = t.x0 ∧ Dyn tl t

/-- Feasible for the problem: dynamics and initial condition. -/
def Feasible {nc0 nx : ℕ} (P : Problem 𝕜 nth nc0 nx) (t : Traj P.stages) : Prop :=
  P.G0 *ᵥ t.x0 + P.g0 = 0 ∧ Dyn P.stages t

/-- Every stage Hessian `[Q S; Sᵀ R]` is positive semidefinite. -/
def Chain.Convex [LinearOrder 𝕜] {nx : ℕ} (ch : Chain 𝕜 nth nx) : Prop :=
  ch.All (fun {nx nu _ _} k => ∀ (x : Vec 𝕜 nx) (u : Vec 𝕜 nu),
    0 ≤ x ⬝ᵥ k.Q *ᵥ x + 2 * (x ⬝ᵥ k.S *ᵥ u) + u ⬝ᵥ k.R *ᵥ u)

/-- Every control Hessian `R` is positive definite. -/
def Chain.RPos [LinearOrder 𝕜] {nx : ℕ} (ch : Chain 𝕜 nth nx) : Prop :=
  ch.All (fun {_ nu _ _} k => ∀ u : Vec 𝕜 nu, u ≠ 0 → 0 < u ⬝ᵥ k.R *ᵥ u)

/-- The quadratic form of the first knot is positive at `(x, u)` for this `x` and every `u`. -/
def Chain.HeadPos [LinearOrder 𝕜] : {nx : ℕ} → Chain 𝕜 nth nx → Vec 𝕜 nx → Prop
  | _, .last k, x => ∀ u, 0 < x ⬝ᵥ k.Q *ᵥ x + 2 * (x ⬝ᵥ k.S *ᵥ u) + u ⬝ᵥ k.R *ᵥ u
  | _, .cons k _, x => ∀ u, 0 < x ⬝ᵥ k.Q *ᵥ x + 2 * (x ⬝ᵥ k.S *ᵥ u) + u ⬝ᵥ k.R *ᵥ u

/-- The parameter Hessians are symmetric. -/
def Chain.GthSymm {nx : ℕ} (ch : Chain 𝕜 nth nx) : Prop := ch.All (fun k => k.Gth.IsSymm)

end Aligator.Gar
