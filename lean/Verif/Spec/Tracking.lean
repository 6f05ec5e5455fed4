import Verif.Model.Tracking
import Verif.Spec.Derivatives

/-!
# Specification: errors to a target and tracking costs

Nothing here refers to the data objects.
-/

namespace Aligator.Track.Spec

open Matrix Aligator.Wrap Aligator.Deriv

variable {a n m r b : ℕ}

/-- The laws of a manifold, at its points: a zero step stays, the difference leads from the target to the point, and the
Jacobian is the derivative of the difference along steps from the second point. -/
structure Lawful (S : Space a n) (pt : Vec a → Prop) : Prop where
  integrate_zero : ∀ x, pt x → S.integrate x 0 = x
  integrate_difference : ∀ t x, pt t → pt x → S.integrate t (S.difference t x) = x
  difference_self : ∀ t, pt t → S.difference t t = 0
  jacobian : ∀ t x, pt t → pt x → IsJacobian (fun v => S.difference t (S.integrate x v)) (S.Jdifference1 t x) 0

/-- Half the weighted square of an error. -/
noncomputable def half (W : Mat r r) (e : Vec r) : ℝ := 1 / 2 * ∑ i, ∑ j, e i * W i j * e j

/-- The cost of a state near `x`, as a function of the steps in state and control. -/
noncomputable def stateCost (S : Space a n) (W : Mat n n) (t x : Vec a) (z : Vec (n + m)) : ℝ :=
  half W (S.difference t (S.integrate x (fst z)))

/-- The cost of a control near `u`. -/
noncomputable def controlCost (n : ℕ) (S : Space b b) (W : Mat b b) (t u : Vec b) (z : Vec (n + b)) : ℝ :=
  half W (S.difference t (S.integrate u (snd z)))

/-- The target in force after some calls. -/
def lastTarget (t : List ℝ) : List (Call a m) → List ℝ
  | [] => t
  | .target t' :: cs => lastTarget t' cs
  | .value _ _ :: cs | .grad _ _ :: cs | .hess _ _ :: cs => lastTarget t cs

/-- Calls that neither evaluate nor change the target. -/
def Quiet : Call a m → Prop
  | .grad _ _ | .hess _ _ => True
  | .value _ _ | .target _ => False

/-- Calls of the Hessian only. -/
def OnlyHess : Call a m → Prop
  | .hess _ _ => True
  | .grad _ _ | .value _ _ | .target _ => False

end Aligator.Track.Spec
