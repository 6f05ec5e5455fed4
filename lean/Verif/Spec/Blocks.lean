import Mathlib.Data.List.Basic

/-!
# Specification: intervals that tile a range
-/

namespace Aligator.Blocks.Spec

/-- The `k`-th interval of the given lengths laid end to end starts after the previous ones. -/
def start (dims : List ℕ) (k : ℕ) : ℕ := (dims.take k).sum

/-- Intervals given by starts and lengths tile `[0, total)`: every position below `total` is in exactly one of them, and
no interval reaches beyond. -/
def Tiles (starts dims : List ℕ) (total : ℕ) : Prop :=
  starts.length = dims.length ∧
  (∀ p, p < total → ∃ k : ℕ, (∃ s d, starts[k]? = some s ∧ dims[k]? = some d ∧ s ≤ p ∧ p < s + d) ∧
    ∀ k' : ℕ, (∃ s d, starts[k']? = some s ∧ dims[k']? = some d ∧ s ≤ p ∧ p < s + d) → k' = k) ∧
  ∀ k s d : ℕ, starts[k]? = some s → dims[k]? = some d → s + d ≤ total

/-- The elements pushed since the last clearing. -/
def sinceClear {A : Type} : List (Option A) → List A → List A
  | [], acc => acc
  | none :: l, _ => sinceClear l []
  | some a :: l, acc => sinceClear l (acc ++ [a])

end Aligator.Blocks.Spec
