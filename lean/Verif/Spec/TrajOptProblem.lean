import Mathlib.Data.List.Basic

/-! # What a call of a callback does to its data object -/

namespace Aligator.Prob

/-- The content of a data object after a sequence of elementary updates. -/
def after {D : Type*} (steps : List (D → D)) (o : D) : D := steps.foldl (fun o g => g o) o

end Aligator.Prob
