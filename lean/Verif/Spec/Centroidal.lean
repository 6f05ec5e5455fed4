import Verif.Spec.Derivatives
import Mathlib.LinearAlgebra.CrossProduct
import Mathlib.Analysis.SpecialFunctions.Trigonometric.Deriv
import Mathlib.Analysis.Real.Sqrt

/-!
# Specification: mechanics of the centroidal model and of the wheeled inverted pendulum
-/

namespace Aligator.Centroidal.Spec

open Matrix Aligator.Deriv

variable {n m r nk : ℕ}

/-- The matrices `Jx`, `Ju` are the partial Jacobians of `F` at `(x, u)`. -/
def IsJac (F : (Fin n → ℝ) → (Fin m → ℝ) → Fin r → ℝ) (Jx : Matrix (Fin r) (Fin n) ℝ) (Ju : Matrix (Fin r) (Fin m) ℝ)
    (x : Fin n → ℝ) (u : Fin m → ℝ) : Prop :=
  IsJacobian (stacked F) (fun i => Fin.append (Jx i) (Ju i)) (Fin.append x u)

/-- A coordinate of a vector, by its number. -/
def get (v : Fin m → ℝ) (k : ℕ) : ℝ := if h : k < m then v ⟨k, h⟩ else 0

/-- Three consecutive coordinates. -/
def three (v : Fin m → ℝ) (k : ℕ) : Fin 3 → ℝ := ![get v k, get v (k + 1), get v (k + 2)]

/-- The force at contact `i`, for forces of size `fs`. -/
def force (fs : ℕ) (u : Fin m → ℝ) (i : Fin nk) : Fin 3 → ℝ := three u (i * fs)

/-- The moment at contact `i`: present for wrenches of size six only. -/
def moment (fs : ℕ) (u : Fin m → ℝ) (i : Fin nk) : Fin 3 → ℝ := if fs = 6 then three u (i * fs + 3) else 0

/-- The resultant of the active contact forces. -/
def resultant (active : Fin nk → Bool) (fs : ℕ) (u : Fin m → ℝ) : Fin 3 → ℝ :=
  ∑ i with active i = true, force fs u i

/-- The total moment of the active contact wrenches about the centre of mass `c`. -/
def totalMoment (active : Fin nk → Bool) (pose : Fin nk → Fin 3 → ℝ) (fs : ℕ) (c : Fin 3 → ℝ) (u : Fin m → ℝ) :
    Fin 3 → ℝ :=
  ∑ i with active i = true, ((pose i - c) ⨯₃ force fs u i + moment fs u i)

/-- Newton and Euler: the time derivative of (centre of mass, linear momentum, angular momentum). -/
noncomputable def centroidal (active : Fin nk → Bool) (pose : Fin nk → Fin 3 → ℝ) (fs : ℕ) (mass : ℝ)
    (gravity : Fin 3 → ℝ) (x : Fin 9 → ℝ) (u : Fin m → ℝ) : Fin 9 → ℝ :=
  Fin.append (Fin.append (mass⁻¹ • three x 3) (mass • gravity + resultant active fs u) : Fin 6 → ℝ)
    (totalMoment active pose fs (three x 0) u)

/-- The friction cone, with a minimal normal force. -/
def InFrictionCone (mu eps : ℝ) (f : Fin 3 → ℝ) : Prop := eps ≤ f 2 ∧ Real.sqrt (f 0 ^ 2 + f 1 ^ 2) ≤ mu * f 2

/-- The contact wrench cone of a rectangular foot of half length `X` and half width `Y` (Caron, Pham and Nakamura, 2015):
pyramid friction, centre of pressure in the foot, yaw torque between its bounds. -/
def InWrenchCone (mu X Y : ℝ) (f t : Fin 3 → ℝ) : Prop :=
  0 ≤ f 2 ∧ |f 0| ≤ mu * f 2 ∧ |f 1| ≤ mu * f 2 ∧ |t 0| ≤ Y * f 2 ∧ |t 1| ≤ X * f 2 ∧
  -mu * (X + Y) * f 2 + |Y * f 0 - mu * t 0| + |X * f 1 - mu * t 1| ≤ t 2 ∧
  t 2 ≤ mu * (X + Y) * f 2 - |Y * f 0 + mu * t 0| - |X * f 1 + mu * t 1|

/-- The wheeled inverted pendulum, state (speed, yaw rate, pitch, pitch rate, yaw, position). -/
noncomputable def pendulum (g l : ℝ) (x : Fin 7 → ℝ) (u : Fin 2 → ℝ) : Fin 7 → ℝ :=
  ![u 0, u 1, x 3, (g * Real.sin (x 2) - u 0 * Real.cos (x 2)) / l, x 1, x 0 * Real.cos (x 4), x 0 * Real.sin (x 4)]

end Aligator.Centroidal.Spec
