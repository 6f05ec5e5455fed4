import Mathlib.Data.EReal.Operations
import Mathlib.Data.EReal.Inv
import Verif.Model.Linesearch

/-!
# What the numbers of the line searches should be

Extended reals of Mathlib, with "not a number" outside.
-/

namespace Aligator.Linesearch

/-- The number meant; `none`: not a number. -/
noncomputable def Fl.val : Fl → Option EReal
  | .nan => Option.none
  | .inf b => Option.some (if b then ⊥ else ⊤)
  | .fin x => Option.some (x : EReal)

/-- Sums of infinities of opposite signs have no value. -/
def SumDefined (x y : EReal) : Prop := ¬ (x = ⊤ ∧ y = ⊥) ∧ ¬ (x = ⊥ ∧ y = ⊤)

/-- Products of zero and an infinity have no value. -/
def ProdDefined (x y : EReal) : Prop :=
  ¬ (x = 0 ∧ (y = ⊤ ∨ y = ⊥)) ∧ ¬ (y = 0 ∧ (x = ⊤ ∨ x = ⊥))

/-- Quotients by zero are not values of the extended reals; quotients of infinities have no value. -/
def QuotDefined (x y : EReal) : Prop := y ≠ 0 ∧ ¬ ((x = ⊤ ∨ x = ⊥) ∧ (y = ⊤ ∨ y = ⊥))

end Aligator.Linesearch
