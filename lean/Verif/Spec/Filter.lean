import Mathlib.Order.Defs.LinearOrder
import Mathlib.Order.Basic
import Mathlib.Data.List.Basic

/-!
# Specification: Pareto dominance of pairs
-/

namespace Aligator.Filter

/-- `e` dominates `f`: it is at least as good (small) in both coordinates. -/
def Dominates {R : Type*} [LE R] (e f : R × R) : Prop := e.1 ≤ f.1 ∧ e.2 ≤ f.2

/-- `e` belongs to the Pareto front of the candidates `cs`: it is one of them and nothing in `cs` other
than itself dominates it. -/
def ParetoMinimal {R : Type*} [LE R] (cs : List (R × R)) (e : R × R) : Prop :=
  e ∈ cs ∧ ∀ c ∈ cs, Dominates c e → c = e

end Aligator.Filter
