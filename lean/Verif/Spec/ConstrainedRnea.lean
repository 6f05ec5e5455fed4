import Verif.Model.ConstrainedRnea
import Mathlib.Algebra.Order.BigOperators.Ring.Finset

/-!
# Specification: constrained equations of motion (C66)
-/

namespace Aligator.InvDyn.Spec

open Matrix Aligator.InvDyn

variable {nv nu d : ℕ}

/-- Least-squares solutions, as Eigen's QR promises (exact arithmetic). -/
def LeastSquares (solve : Mat nv (nu + d) → Vec nv → Vec (nu + d)) : Prop :=
  ∀ A b y, ∑ i, ((A *ᵥ solve A b) i - b i) ^ 2 ≤ ∑ i, ((A *ᵥ y) i - b i) ^ 2

/-- Accelerations and constraint forces under given torques: `M a + nle = B τ + Jᵀ f`, and the constraints stay satisfied,
`J a + drift = 0`, where `drift` is the acceleration of the constraints due to the velocity. -/
structure Motion (M : Mat nv nv) (nle : Vec nv) (B : Mat nv nu) (J : Mat d nv) (drift : Vec d) (τ : Vec nu) (acc : Vec nv)
    (f : Vec d) : Prop where
  dynamics : M *ᵥ acc + nle = B *ᵥ τ + Jᵀ *ᵥ f
  constraints : J *ᵥ acc + drift = 0

/-- Some torques and constraint forces balance the nonlinear effects. -/
def CanHold (nle : Vec nv) (B : Mat nv nu) (J : Mat d nv) : Prop := ∃ (τ : Vec nu) (f : Vec d), nle = B *ᵥ τ + Jᵀ *ᵥ f

/-- The joints that move a constraint; the other columns of its Jacobian vanish. -/
def Supports (sup : Fin d → Fin nv → Bool) (J : Mat d nv) : Prop := ∀ k i, sup k i = false → J k i = 0

end Aligator.InvDyn.Spec
