import Verif.Spec.Lqr
import Mathlib.Algebra.Order.Field.Basic

/-!
# Specifications for the LQ problem utilities
-/

namespace Aligator.Gar

open Matrix

variable {𝕜 : Type*} [Field 𝕜] {nth : ℕ}

/-- Every entry has absolute value at most `ε`. -/
def Within [LinearOrder 𝕜] {n : ℕ} (ε : 𝕜) (v : Vec 𝕜 n) : Prop := ∀ i, |v i| ≤ ε

/-- The KKT conditions of the tail hold up to the tolerances `εd` (dynamics), `εc` (constraints) and `εg`
(stationarity). -/
def TailKKTWithin [LinearOrder 𝕜] (εd εc εg mu : 𝕜) (θ : Vec 𝕜 nth) :
    {nx : ℕ} → (ch : Chain 𝕜 nth nx) → Vec 𝕜 nx → Traj ch → Prop
  | _, .last k, p, .last n =>
      Within εg (gradX k θ n - p) ∧ Within εg (gradU k θ n) ∧ Within εc (gradV k mu θ n)
  | _, .cons k tl, p, .cons n lam t =>
      Within εg (gradX k θ n + k.Aᵀ *ᵥ lam - p) ∧
      Within εg (gradU k θ n + k.Bᵀ *ᵥ lam) ∧
      Within εc (gradV k mu θ n) ∧
      Within εd (k.A *ᵥ n.x + k.B *ᵥ n.u + k.f - t.x0) ∧
      TailKKTWithin εd εc εg mu θ tl lam t

/-- The KKT conditions of the problem hold up to the given tolerances. -/
def KKTWithin [LinearOrder 𝕜] {nc0 nx : ℕ} (P : Problem 𝕜 nth nc0 nx) (εd εc εg mu : 𝕜)
    (θ : Vec 𝕜 nth) (lam0 : Vec 𝕜 nc0) (t : Traj P.stages) : Prop :=
  Within εd (P.G0 *ᵥ t.x0 + P.g0) ∧ TailKKTWithin εd εc εg mu θ P.stages (-(P.G0ᵀ *ᵥ lam0)) t

/-- KKT conditions of the (non-parametric) tail problem whose dynamics read `A x + B u + f + σ x' = 0`; the
problem of the documentation (gar/lqr-problem.hpp:24-28) is `σ = -1`. -/
def TailKKTE (σ mu : 𝕜) : {nx : ℕ} → (ch : Chain 𝕜 nth nx) → Vec 𝕜 nx → Traj ch → Prop
  | _, .last k, p, .last n =>
      gradX k 0 n = p ∧ gradU k 0 n = 0 ∧ gradV k mu 0 n = 0
  | _, .cons k tl, p, .cons n lam t =>
      gradX k 0 n + k.Aᵀ *ᵥ lam = p ∧
      gradU k 0 n + k.Bᵀ *ᵥ lam = 0 ∧
      gradV k mu 0 n = 0 ∧
      k.A *ᵥ n.x + k.B *ᵥ n.u + k.f + σ • t.x0 = 0 ∧
      TailKKTE σ mu tl (-(σ • lam)) t

/-- The components of a trajectory one after the other: `x, u, v` of the first knot, the costate, and so on. -/
def Traj.flatten : {nx : ℕ} → {ch : Chain 𝕜 nth nx} → Traj ch → List 𝕜
  | _, _, .last n => List.ofFn n.x ++ (List.ofFn n.u ++ List.ofFn n.v)
  | _, _, .cons n lam t => List.ofFn n.x ++ (List.ofFn n.u ++ (List.ofFn n.v ++ (List.ofFn lam ++ t.flatten)))

/-- Quadratic objective of a knot with its parametric terms (gar/lqr-problem.hpp:16-33, 53-57). -/
def knotObjective {nx nu nc nx2 : ℕ} (k : Knot 𝕜 nth nx nu nc nx2) (θ : Vec 𝕜 nth) (x : Vec 𝕜 nx)
    (u : Vec 𝕜 nu) : 𝕜 :=
  (1/2) * (x ⬝ᵥ k.Q *ᵥ x) + x ⬝ᵥ k.S *ᵥ u + (1/2) * (u ⬝ᵥ k.R *ᵥ u) + k.q ⬝ᵥ x + k.r ⬝ᵥ u
  + x ⬝ᵥ k.Gx *ᵥ θ + u ⬝ᵥ k.Gu *ᵥ θ + (1/2) * (θ ⬝ᵥ k.Gth *ᵥ θ) + k.gamma ⬝ᵥ θ

/-- Sum of the objectives of all knots. -/
def objective (θ : Vec 𝕜 nth) : {nx : ℕ} → (ch : Chain 𝕜 nth nx) → Traj ch → 𝕜
  | _, .last k, .last n => knotObjective k θ n.x n.u
  | _, .cons k tl, .cons n _ t => knotObjective k θ n.x n.u + objective θ tl t

/-- The objective of the terminal control: `xᵀSu + ½uᵀRu + rᵀu + uᵀGuθ` of the last knot. -/
def terminalControlTerms (θ : Vec 𝕜 nth) : {nx : ℕ} → (ch : Chain 𝕜 nth nx) → Traj ch → 𝕜
  | _, .last k, .last n =>
      n.x ⬝ᵥ k.S *ᵥ n.u + (1/2) * (n.u ⬝ᵥ k.R *ᵥ n.u) + k.r ⬝ᵥ n.u + n.u ⬝ᵥ k.Gu *ᵥ θ
  | _, .cons _ tl, .cons _ _ t => terminalControlTerms θ tl t

end Aligator.Gar
