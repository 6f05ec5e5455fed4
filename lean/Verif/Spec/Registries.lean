import Mathlib.Data.List.Basic

/-!
# Specification: contact maps and callbacks
-/

namespace Aligator.Reg.Spec

/-- One contact. -/
structure Contact (P : Type) where
  name : String
  state : Bool
  pose : P

variable {P : Type}

/-- What the user does to the collection of contacts. -/
inductive Req (P : Type)
  | add (c : Contact P)
  | remove (i : ℕ)
  | setPose (name : String) (pose : P)

/-- Change the first contact with the name. -/
def setFirst (name : String) (pose : P) : List (Contact P) → List (Contact P)
  | [] => []
  | c :: cs => if c.name = name then { c with pose := pose } :: cs else c :: setFirst name pose cs

/-- The effect of a request; removing from an empty collection and unknown names have none. -/
def step (l : List (Contact P)) : Req P → List (Contact P)
  | .add c => l ++ [c]
  | .remove i => l.eraseIdx i
  | .setPose n p => setFirst n p l

/-- The first contact with the name. -/
def lookup (name : String) (l : List (Contact P)) : Option (Contact P) := l.find? fun c => decide (c.name = name)

/-- A removal addresses a contact of the collection, or the collection is empty. -/
def Req.Ok (l : List (Contact P)) : Req P → Prop
  | .remove i => l = [] ∨ i < l.length
  | _ => True

/-- The requests stay inside the collection. -/
def InRange : List (Contact P) → List (Req P) → Prop
  | _, [] => True
  | l, r :: rs => r.Ok l ∧ InRange (step l r) rs

/-! ## Callbacks: the last word on a name decides -/

/-- What is said about callbacks. -/
inductive Word (C : Type)
  | register (name : String) (cb : C)
  | remove (name : String)
  | clear

/-- The callback that is live under a name after a history (the most recent word first). -/
def live {C : Type} (name : String) : List (Word C) → Option C
  | [] => none
  | .register n c :: ws => if n = name then some c else live name ws
  | .remove n :: ws => if n = name then none else live name ws
  | .clear :: _ => none

end Aligator.Reg.Spec
