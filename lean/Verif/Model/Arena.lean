import Mathlib.Logic.Function.Basic
import Mathlib.Data.Nat.Notation

/-!
# Model: arena matrices

Memory resources hand out blocks of scalars and take them back; handing a block back needs the right resource and the
size it was allocated with.  Contents are not modelled, only which memory is read, written, allocated and freed.
Matrices are dynamic in both dimensions (`get_rows` and `get_cols` are then `rows` and `cols`; a vector is a matrix with
one column).  Sizes are natural numbers.
-/

namespace Aligator.Arena

/-- The live blocks: address ↦ (resource, number of scalars); `next` is an address that was never used. -/
structure Heap where
  blocks : ℕ → Option (ℕ × ℕ)
  next : ℕ

/-- The fields of an `ArenaMatrix` (core/arena-matrix.hpp:244-245 and the base `Eigen::Map`). -/
structure Mat where
  data : Option ℕ
  rows : ℕ
  cols : ℕ
  alloc : ℕ
  allocSize : ℕ
  deriving DecidableEq

/-- `size()` of the base class. -/
def Mat.size (m : Mat) : ℕ := m.rows * m.cols

/-- Errors: a block is freed with a wrong size or resource or is not live; memory is accessed through a null pointer;
the program uses a variable that does not exist or constructs one that does (no such C++ program compiles). -/
inductive Err
  | badFree
  | nullAccess
  | illTyped
  deriving DecidableEq

/-- `_allocate` (core/arena-matrix.hpp:234-236, core/allocator.hpp:32-36): the memory resource returns a new, non-null
address, also for size 0. -/
def Heap.allocate (h : Heap) (res n : ℕ) : ℕ × Heap :=
  (h.next, ⟨Function.update h.blocks h.next (some (res, n)), h.next + 1⟩)

/-- `polymorphic_allocator::deallocate` (core/allocator.hpp:38-42). -/
def Heap.free (h : Heap) (res p n : ℕ) : Except Err Heap :=
  if h.blocks p = some (res, n) then .ok { h with blocks := Function.update h.blocks p none } else .error .badFree

/-- `ArenaMatrix::deallocate` (core/arena-matrix.hpp:238-241): the size that is passed is `size()`. -/
def deallocate (h : Heap) (m : Mat) : Except Err Heap :=
  match m.data with
  | some p => h.free m.alloc p m.size
  | none => .ok h

/-- The constructors without coefficients (core/arena-matrix.hpp:37-49). -/
def Mat.empty (alloc : ℕ) : Mat := ⟨none, 0, 0, alloc, 0⟩

/-- The constructors with a size, and from an Eigen expression (core/arena-matrix.hpp:55-72). -/
def construct (h : Heap) (r c alloc : ℕ) : Mat × Heap :=
  (⟨some (h.allocate alloc (r * c)).1, r, c, alloc, r * c⟩, (h.allocate alloc (r * c)).2)

/-- Reading or writing all coefficients (`Base::operator=`): undefined on a null pointer unless there are none. -/
def touch (m : Mat) : Except Err Unit := if m.data = none ∧ m.size ≠ 0 then .error .nullAccess else .ok ()

/-- `resize(rows, cols)` (core/arena-matrix.hpp:159-170; `resize(size)` :146-156 is the case of one column). -/
def resize (h : Heap) (m : Mat) (r c : ℕ) : Except Err (Heap × Mat) :=
  if m.allocSize ≠ r * c then do
    let h ← deallocate h m
    let (p, h) := h.allocate m.alloc (r * c)
    .ok (h, { m with allocSize := r * c, data := some p, rows := r, cols := c })
  else .ok (h, { m with rows := r, cols := c })

/-- `conservativeResize(rows, cols)` (core/arena-matrix.hpp:185-196; :173-183 is the case of one column): `copy_n` reads
`m_alloc_size` scalars. -/
def conservativeResize (h : Heap) (m : Mat) (r c : ℕ) : Except Err (Heap × Mat) :=
  if m.allocSize < r * c then do
    let (p, h) := h.allocate m.alloc (r * c)
    if m.data = none ∧ m.allocSize ≠ 0 then .error .nullAccess
    let h ← deallocate h m
    .ok (h, { m with allocSize := r * c, data := some p, rows := r, cols := c })
  else .ok (h, { m with rows := r, cols := c })

/-- Assignment from an expression with `r` rows and `c` columns (core/arena-matrix.hpp:106-110; `setZero` and
`setIdentity` :204-218 use it). -/
def assign (h : Heap) (m : Mat) (r c : ℕ) : Except Err (Heap × Mat) := do
  let (h, m) ← resize h m r c
  touch m
  .ok (h, m)

/-- The state of a program: the heap and the matrices by variable. -/
structure State where
  heap : Heap
  vars : ℕ → Option Mat

/-- The start of a program. -/
def State.init : State := ⟨⟨fun _ => none, 0⟩, fun _ => none⟩

/-- What a program can do. -/
inductive Op
  | empty (i alloc : ℕ)
  | construct (i r c alloc : ℕ)
  | copy (i j alloc : ℕ)
  | move (i j : ℕ)
  | moveAlloc (i j alloc : ℕ)
  | assign (i r c : ℕ)
  | copyAssign (i j : ℕ)
  | moveAssign (i j : ℕ)
  | resize (i r c : ℕ)
  | conservativeResize (i r c : ℕ)
  | destroy (i : ℕ)

/-- The matrix of a variable. -/
def State.get (s : State) (i : ℕ) : Except Err Mat :=
  match s.vars i with
  | some m => .ok m
  | none => .error .illTyped

/-- The variable can be constructed. -/
def State.absent (s : State) (i : ℕ) : Except Err Unit :=
  match s.vars i with
  | some _ => .error .illTyped
  | none => .ok ()

/-- A new value for a variable. -/
def State.put (s : State) (h : Heap) (i : ℕ) (m : Mat) : State := ⟨h, Function.update s.vars i (some m)⟩

/-- One operation. -/
def State.step (s : State) : Op → Except Err State
  | .empty i alloc => do
    s.absent i
    .ok (s.put s.heap i (Mat.empty alloc))
  | .construct i r c alloc => do
    s.absent i
    .ok (s.put (construct s.heap r c alloc).2 i (construct s.heap r c alloc).1)
  -- core/arena-matrix.hpp:74-79
  | .copy i j alloc => do
    s.absent i
    let o ← s.get j
    touch o
    .ok (s.put (construct s.heap o.rows o.cols alloc).2 i (construct s.heap o.rows o.cols alloc).1)
  -- core/arena-matrix.hpp:81-87
  | .move i j => do
    s.absent i
    let o ← s.get j
    .ok ((s.put s.heap j { o with data := none, allocSize := 0 }).put s.heap i o)
  -- core/arena-matrix.hpp:90-103
  | .moveAlloc i j alloc => do
    s.absent i
    let o ← s.get j
    if alloc = o.alloc then
      .ok ((s.put s.heap j { o with data := none, allocSize := 0 }).put s.heap i { o with alloc := alloc })
    else
      let (h, m) ← resize s.heap (Mat.empty alloc) o.rows o.cols
      touch o
      .ok ((s.put h j { o with data := none, allocSize := 0 }).put h i m)
  | .assign i r c => do
    let m ← s.get i
    let (h, m) ← assign s.heap m r c
    .ok (s.put h i m)
  -- core/arena-matrix.hpp:115-119
  | .copyAssign i j => do
    let m ← s.get i
    let o ← s.get j
    let (h, m) ← resize s.heap m o.rows o.cols
    touch (if i = j then m else o)
    touch m
    .ok (s.put h i m)
  -- core/arena-matrix.hpp:123-137
  | .moveAssign i j => do
    let m ← s.get i
    let o ← s.get j
    if i = j then .ok s
    else if m.alloc = o.alloc then
      let h ← deallocate s.heap m
      .ok ((s.put h j { o with data := none }).put h i { o with alloc := m.alloc })
    else
      let (h, m) ← resize s.heap m o.rows o.cols
      touch o
      touch m
      .ok ((s.put h j { o with data := none }).put h i m)
  | .resize i r c => do
    let m ← s.get i
    let (h, m) ← resize s.heap m r c
    .ok (s.put h i m)
  | .conservativeResize i r c => do
    let m ← s.get i
    let (h, m) ← conservativeResize s.heap m r c
    .ok (s.put h i m)
  -- core/arena-matrix.hpp:143
  | .destroy i => do
    let m ← s.get i
    let h ← deallocate s.heap m
    .ok ⟨h, Function.update s.vars i none⟩

/-- A sequence of operations. -/
def State.run : State → List Op → Except Err State
  | s, [] => .ok s
  | s, o :: os => do
    let s' ← s.step o
    State.run s' os

end Aligator.Arena
