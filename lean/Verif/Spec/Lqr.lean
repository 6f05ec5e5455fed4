import Verif.Model.Lqr

/-!
# Specification: the KKT conditions of a (parametric, proximal) LQ problem

Written directly from the problem statement in the documentation of `LqrKnotTpl`
(gar/lqr-problem.hpp:14-33): stage Lagrangian

`1/2 xᵀQx + xᵀSu + 1/2 uᵀRu + qᵀx + rᵀu + vᵀ(Cx+Du+d) - mu/2 vᵀv + λ'ᵀ(Ax+Bu+f - x')
 + xᵀGxθ + uᵀGuθ + vᵀGvθ + 1/2 θᵀGthθ + γᵀθ`.
-/

namespace Aligator.Gar

open Matrix

variable {𝕜 : Type*} [Field 𝕜] {nth : ℕ}

/-- Gradient of the stage Lagrangian with respect to `x` (without the dynamics coupling). -/
def gradX {nx nu nc nx2 : ℕ} (k : Knot 𝕜 nth nx nu nc nx2) (θ : Vec 𝕜 nth) (n : Node 𝕜 nx nu nc) :
    Vec 𝕜 nx :=
  k.Q *ᵥ n.x + k.S *ᵥ n.u + k.q + k.Cᵀ *ᵥ n.v + k.Gx *ᵥ θ

/-- Gradient of the stage Lagrangian with respect to `u` (without the dynamics coupling). -/
def gradU {nx nu nc nx2 : ℕ} (k : Knot 𝕜 nth nx nu nc nx2) (θ : Vec 𝕜 nth) (n : Node 𝕜 nx nu nc) :
    Vec 𝕜 nu :=
  k.Sᵀ *ᵥ n.x + k.R *ᵥ n.u + k.r + k.Dᵀ *ᵥ n.v + k.Gu *ᵥ θ

/-- Proximal constraint residual `Cx + Du + d + Gv θ - mu v`. -/
def gradV {nx nu nc nx2 : ℕ} (k : Knot 𝕜 nth nx nu nc nx2) (mu : 𝕜) (θ : Vec 𝕜 nth)
    (n : Node 𝕜 nx nu nc) : Vec 𝕜 nc :=
  k.C *ᵥ n.x + k.D *ᵥ n.u + k.d + k.Gv *ᵥ θ - mu • n.v

/-- KKT conditions of the tail problem: `p` is the costate at the first state of the tail, i.e. the
gradient of the tail's Lagrangian with respect to its first state. -/
def TailKKT (mu : 𝕜) (θ : Vec 𝕜 nth) : {nx : ℕ} → (ch : Chain 𝕜 nth nx) → Vec 𝕜 nx → Traj ch → Prop
  | _, .last k, p, .last n =>
      gradX k θ n = p ∧ gradU k θ n = 0 ∧ gradV k mu θ n = 0
  | _, .cons k tl, p, .cons n lam t =>
      gradX k θ n + k.Aᵀ *ᵥ lam = p ∧
      gradU k θ n + k.Bᵀ *ᵥ lam = 0 ∧
      gradV k mu θ n = 0 ∧
      k.A *ᵥ n.x + k.B *ᵥ n.u + k.f = t.x0 ∧
      TailKKT mu θ tl lam t

/-- KKT conditions of the whole problem; `lam0` is the multiplier of the initial condition. -/
def KKT {nc0 nx : ℕ} (P : Problem 𝕜 nth nc0 nx) (mu : 𝕜) (θ : Vec 𝕜 nth) (lam0 : Vec 𝕜 nc0)
    (t : Traj P.stages) : Prop :=
  P.G0 *ᵥ t.x0 + P.g0 = 0 ∧ TailKKT mu θ P.stages (-(P.G0ᵀ *ᵥ lam0)) t

/-- Every knot satisfies `φ`. -/
def Chain.All (φ : ∀ {nx nu nc nx2 : ℕ}, Knot 𝕜 nth nx nu nc nx2 → Prop) :
    {nx : ℕ} → Chain 𝕜 nth nx → Prop
  | _, .last k => φ k
  | _, .cons k tl => φ k ∧ tl.All φ

/-- The Hessian blocks `Q`, `R` of every knot are symmetric. -/
def Chain.Symm {nx : ℕ} (ch : Chain 𝕜 nth nx) : Prop :=
  ch.All (fun k => k.Q.IsSymm ∧ k.R.IsSymm)

/-- No knot has a multiplier-parameter term `vᵀ Gv θ`. -/
def Chain.NoGv {nx : ℕ} (ch : Chain 𝕜 nth nx) : Prop := ch.All (fun k => k.Gv = 0)

/-- Partial derivative of the Lagrangian with respect to the parameter, summed over the knots. -/
def thetaGrad (θ : Vec 𝕜 nth) : {nx : ℕ} → (ch : Chain 𝕜 nth nx) → Traj ch → Vec 𝕜 nth
  | _, .last k, .last n => k.gamma + k.Gxᵀ *ᵥ n.x + k.Guᵀ *ᵥ n.u + k.Gvᵀ *ᵥ n.v + k.Gth *ᵥ θ
  | _, .cons k tl, .cons n _ t =>
      (k.gamma + k.Gxᵀ *ᵥ n.x + k.Guᵀ *ᵥ n.u + k.Gvᵀ *ᵥ n.v + k.Gth *ᵥ θ) + thetaGrad θ tl t

end Aligator.Gar
