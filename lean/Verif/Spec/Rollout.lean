import Mathlib.Data.List.Basic

/-!
# Specification: rollouts
-/

namespace Aligator.Roll.Spec

variable {X U : Type}

/-- `xs` has one state more than there are controls, starts at `x0`, and consecutive states are related by the
dynamics of their index. -/
structure IsRollout (step : ℕ → X → U → X → Prop) (x0 : X) (us : List U) (xs : List X) : Prop where
  length : xs.length = us.length + 1
  first : xs[0]? = some x0
  next : ∀ i u x y, us[i]? = some u → xs[i]? = some x → xs[i + 1]? = some y → step i x u y

end Aligator.Roll.Spec
