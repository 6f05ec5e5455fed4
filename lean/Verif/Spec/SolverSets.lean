import Mathlib.Data.List.Basic

/-!
# Specification: the sets in use

Every stage carries two values: its sets now, and its sets when the solver last took note of it.
-/

namespace Aligator.SSets.Spec

variable {S : Type}

/-- What a client of a set-up solver does; `shift` replaces the first stage by a new last one in the problem and the
solver. -/
inductive Call (S : Type)
  | setup
  | edit (i : ℕ) (s : S)
  | editTerm (s : S)
  | shift (s : S)
  | run

/-- The stages and the terminal node: sets now, sets in use. -/
structure Book (S : Type) where
  stages : List (S × S)
  term : S × S

/-- The effect of a call on the book. -/
def Book.call (b : Book S) : Call S → Book S
  | .setup => ⟨b.stages.map fun p => (p.1, p.1), (b.term.1, b.term.1)⟩
  | .edit i s => { b with stages := b.stages.modify i fun p => (s, p.2) }
  | .editTerm s => { b with term := (s, b.term.2) }
  | .shift s => { b with stages := b.stages.tail ++ [(s, s)] }
  | .run => b

/-- The entries of the book at every run. -/
def Book.runs (b : Book S) : List (Call S) → List (List (S × S))
  | [] => []
  | .run :: cs => (b.stages ++ [b.term]) :: b.runs cs
  | c :: cs => (b.call c).runs cs

/-- Edits of existing stages only. -/
def Valid (n : ℕ) (cs : List (Call S)) : Prop := ∀ c ∈ cs, ∀ i s, c = .edit i s → i < n

/-- Between an edit and the next run there is a set up (`dirty`: an edit since the last one). -/
def Careful : Bool → List (Call S) → Prop
  | _, [] => True
  | _, .setup :: cs => Careful false cs
  | _, .edit _ _ :: cs => Careful true cs
  | _, .editTerm _ :: cs => Careful true cs
  | d, .shift _ :: cs => Careful d cs
  | d, .run :: cs => d = false ∧ Careful d cs

end Aligator.SSets.Spec
