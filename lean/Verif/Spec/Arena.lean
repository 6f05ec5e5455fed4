import Verif.Model.Arena

/-!
# Specification: a disciplined client of arena matrices

The client's own bookkeeping: for every variable the allocator, the size of its memory, and whether it was moved from.
It says which operations a careful client performs; it knows nothing about addresses and blocks.
-/

namespace Aligator.Arena.Spec

/-- What the client remembers: the matrix can be used; it was the argument of a move constructor; it was the argument
of a move assignment. -/
inductive Tag
  | usable
  | movedByConstruction
  | movedByAssignment
  deriving DecidableEq

/-- What the client remembers about a variable. -/
structure Abs where
  alloc : ℕ
  size : ℕ
  tag : Tag

/-- What the client remembers. -/
abbrev View := ℕ → Option Abs

/-- A careful operation and the bookkeeping after it. -/
inductive Step : View → Op → View → Prop
  | empty (v i a) : v i = none → Step v (.empty i a) (Function.update v i (some ⟨a, 0, .usable⟩))
  | construct (v i r c a) : v i = none → Step v (.construct i r c a) (Function.update v i (some ⟨a, r * c, .usable⟩))
  /-- Copies are made of usable matrices. -/
  | copy (v i j a b n) : v i = none → v j = some ⟨b, n, .usable⟩ →
      Step v (.copy i j a) (Function.update v i (some ⟨a, n, .usable⟩))
  | move (v i j b n) : v i = none → v j = some ⟨b, n, .usable⟩ →
      Step v (.move i j) (Function.update (Function.update v j (some ⟨b, 0, .movedByConstruction⟩)) i
        (some ⟨b, n, .usable⟩))
  /-- The allocator is the one of the argument. -/
  | moveAlloc (v i j b n) : v i = none → v j = some ⟨b, n, .usable⟩ →
      Step v (.moveAlloc i j b) (Function.update (Function.update v j (some ⟨b, 0, .movedByConstruction⟩)) i
        (some ⟨b, n, .usable⟩))
  /-- The target is not the argument of an earlier move assignment. -/
  | assign (v i r c b n t) : v i = some ⟨b, n, t⟩ → t ≠ .movedByAssignment →
      Step v (.assign i r c) (Function.update v i (some ⟨b, r * c, .usable⟩))
  | copyAssign (v i j b n t b' n') : v i = some ⟨b, n, t⟩ → t ≠ .movedByAssignment → v j = some ⟨b', n', .usable⟩ →
      Step v (.copyAssign i j) (Function.update v i (some ⟨b, n', .usable⟩))
  /-- The allocators agree; the target may be in any state. -/
  | moveAssign (v i j b n t n') : i ≠ j → v i = some ⟨b, n, t⟩ → v j = some ⟨b, n', .usable⟩ →
      Step v (.moveAssign i j) (Function.update (Function.update v j (some ⟨b, n', .movedByAssignment⟩)) i
        (some ⟨b, n', .usable⟩))
  | moveSelf (v i x) : v i = some x → Step v (.moveAssign i i) v
  | resize (v i r c b n t) : v i = some ⟨b, n, t⟩ → t ≠ .movedByAssignment →
      Step v (.resize i r c) (Function.update v i (some ⟨b, r * c, .usable⟩))
  /-- The matrix does not shrink. -/
  | conservativeResize (v i r c b n t) : v i = some ⟨b, n, t⟩ → t ≠ .movedByAssignment → n ≤ r * c →
      Step v (.conservativeResize i r c) (Function.update v i (some ⟨b, r * c, .usable⟩))
  | destroy (v i x) : v i = some x → Step v (.destroy i) (Function.update v i none)

/-- A careful program. -/
inductive Run : View → List Op → View → Prop
  | nil (v) : Run v [] v
  | cons (v v' v'' o os) : Step v o v' → Run v' os v'' → Run v (o :: os) v''

/-- What the memory looks like: every non-empty usable matrix owns a live block of its allocated size, from its
allocator; no two matrices share a block; every live block belongs to a matrix. -/
structure Sound (v : View) (s : State) : Prop where
  /-- The variables are those of the client. -/
  same : ∀ i, (s.vars i).isSome = (v i).isSome
  owns : ∀ i m n b, s.vars i = some m → v i = some ⟨b, n, .usable⟩ → n ≠ 0 →
    m.size = n ∧ ∃ p, m.data = some p ∧ s.heap.blocks p = some (b, n)
  distinct : ∀ i j m m' p, s.vars i = some m → s.vars j = some m' → m.data = some p → m'.data = some p → i = j
  noLeak : ∀ p, s.heap.blocks p ≠ none → ∃ i m, s.vars i = some m ∧ m.data = some p

/-- Rows and columns of every variable after an operation.  The argument of a move keeps its dimensions. -/
def shapes (v : ℕ → Option (ℕ × ℕ)) : Op → ℕ → Option (ℕ × ℕ)
  | .empty i _ => Function.update v i (some (0, 0))
  | .construct i r c _ => Function.update v i (some (r, c))
  | .copy i j _ => Function.update v i (v j)
  | .move i j => Function.update v i (v j)
  | .moveAlloc i j _ => Function.update v i (v j)
  | .assign i r c => Function.update v i (some (r, c))
  | .copyAssign i j => Function.update v i (v j)
  | .moveAssign i j => Function.update v i (v j)
  | .resize i r c => Function.update v i (some (r, c))
  | .conservativeResize i r c => Function.update v i (some (r, c))
  | .destroy i => Function.update v i none

end Aligator.Arena.Spec
