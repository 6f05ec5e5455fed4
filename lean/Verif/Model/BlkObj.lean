import Verif.Model.Blocks

/-!
# Model: block matrices as objects

`BlkMatrix` over a plain dynamic-size matrix, with all its members: construction, copies, moves, assignment, `swap`, access to the
blocks.  An entry is `none` while nothing was stored in it.  Simplifications: column-major storage; matrices known to be vectors
at compile time are not told apart (the default one has a column and no rows instead of neither).
-/

namespace Aligator.BlkObj

open Blocks (Plain View initLoop)

/-- The template arguments `N`, `M` (core/blk-matrix.hpp:19, :25-26); `none` is `-1`. -/
structure Tpl where
  N : Option ℕ
  M : Option ℕ

/-- A default-initialised `RowDimsType` (core/blk-matrix.hpp:31-34): zeros in an array, an empty vector. -/
def dims0 : Option ℕ → List ℕ
  | some n => List.replicate n 0
  | none => []

/-- What a move leaves in such a member: an array keeps its numbers, a vector is emptied. -/
def movedDims : Option ℕ → List ℕ → List ℕ
  | some _, l => l
  | none, _ => []

/-- The members (core/blk-matrix.hpp:226-232). -/
structure Obj (K : Type) where
  data : Plain (Option K)
  rowDims : List ℕ
  colDims : List ℕ
  rowIdx : List ℕ
  colIdx : List ℕ
  totalRows : ℕ
  totalCols : ℕ

variable {K : Type}

/-- The default constructor (core/blk-matrix.hpp:43-50). -/
def Obj.default (T : Tpl) : Obj K := ⟨⟨0, 0, []⟩, dims0 T.N, dims0 T.M, dims0 T.N, dims0 T.M, 0, 0⟩

/-- `initialize` (core/blk-matrix.hpp:234-246); memory that `resize` allocates has no values yet. -/
def Obj.initialize (o : Obj K) : Obj K :=
  let r := initLoop o.rowDims 0
  let c := initLoop o.colDims 0
  { o with
    rowIdx := r.1, totalRows := r.2, colIdx := c.1, totalCols := c.2
    data := o.data.resize r.2 c.2 fun n => List.replicate n none }

/-- The constructors from data and dimensions (core/blk-matrix.hpp:63-87). -/
def Obj.ofData (M : Plain (Option K)) (rd cd : List ℕ) : Obj K := Obj.initialize ⟨M, rd, cd, rd, cd, 0, 0⟩

/-- The constructor from dimensions (core/blk-matrix.hpp:52-61). -/
def Obj.ofDims (rd cd : List ℕ) : Obj K := Obj.ofData ⟨0, 0, []⟩ rd cd

/-- `operator()` (core/blk-matrix.hpp:110-119) on the data: reading the arrays out of range, or a block that does not lie inside
the data, is undefined (assertions of the standard library and of Eigen). -/
def Obj.block (o : Obj K) (i j : ℕ) : Option View := do
  let r ← o.rowIdx[i]?
  let c ← o.colIdx[j]?
  let m ← o.rowDims[i]?
  let n ← o.colDims[j]?
  if r + m ≤ o.data.rows ∧ c + n ≤ o.data.cols then some ⟨r, c, m, n, o.data.rows⟩ else none

/-- Reading an entry of a block. -/
def Obj.read (o : Obj K) (i j a b : ℕ) : Option (Option K) := do
  let V ← o.block i j
  if a < V.rows ∧ b < V.cols then V.read o.data.buf a b else none

/-- Assigning a block. -/
def Obj.write (o : Obj K) (i j : ℕ) (X : ℕ → ℕ → K) : Option (Obj K) := do
  let V ← o.block i j
  some { o with data := { o.data with buf := V.write o.data.buf fun a b => some (X a b) } }

/-- `setZero` (core/blk-matrix.hpp:160). -/
def Obj.setZero [Zero K] (o : Obj K) : Obj K :=
  { o with data := { o.data with buf := o.data.buf.map fun _ => some 0 } }

/-- The implicit move constructor: what it leaves in its argument.  The storage of a plain matrix is taken away. -/
def Obj.movedFrom (T : Tpl) (o : Obj K) : Obj K :=
  { data := ⟨0, 0, []⟩
    rowDims := movedDims T.N o.rowDims, colDims := movedDims T.M o.colDims
    rowIdx := movedDims T.N o.rowIdx, colIdx := movedDims T.M o.colIdx
    totalRows := o.totalRows, totalCols := o.totalCols }

/-- The implicit move assignment `t = std::move(o)`: what it leaves in `o`.  Eigen exchanges the storages. -/
def Obj.movedInto (T : Tpl) (o t : Obj K) : Obj K := { o.movedFrom T with data := t.data }

/-- `swap` (core/blk-matrix.hpp:169-171): only the data. -/
def Obj.swap (o t : Obj K) : Obj K × Obj K := ({ o with data := t.data }, { t with data := o.data })

/-- Statements of a client about block matrices of one type; objects have numbers. -/
inductive Op (K : Type)
  | create (n : ℕ)
  | dims (n : ℕ) (rd cd : List ℕ)
  | data (n : ℕ) (M : Plain (Option K)) (rd cd : List ℕ)
  | copy (n m : ℕ)
  | move (n m : ℕ)
  | assign (n m : ℕ)
  | moveAssign (n m : ℕ)
  | destroy (n : ℕ)
  | setZero (n : ℕ)
  | zero (n : ℕ) (rd cd : List ℕ)
  | setMat (n : ℕ) (M : Plain (Option K))
  | swap (n m : ℕ)
  | read (n i j a b : ℕ)
  | write (n i j : ℕ) (X : ℕ → ℕ → K)
  | sizes (n : ℕ)
  | dimsOf (n : ℕ)

/-- What a statement shows. -/
inductive Out (K : Type)
  | unit
  | entry (x : Option K)
  | sizes (r c : ℕ)
  | dims (rd cd : List ℕ)

/-- Results of a statement. -/
inductive Res (W K : Type)
  | ok (w : W) (o : Out K)
  | aborts
  | ub

/-- The objects. -/
abbrev World (K : Type) := ℕ → Option (Obj K)

/-- One statement.  Using an object that does not exist, or constructing one that does, is not C++ and counts as undefined.  A
move of an object into itself is not modelled and counts as undefined, too.  `ndebug`: the assertions of `operator=`
(core/blk-matrix.hpp:154-155) are compiled out. -/
def step [Zero K] (T : Tpl) (ndebug : Bool) (w : World K) : Op K → Res (World K) K
  | .create n => match w n with
    | none => .ok (Function.update w n (some (Obj.default T))) .unit
    | some _ => .ub
  | .dims n rd cd => match w n with
    | none => .ok (Function.update w n (some (Obj.ofDims rd cd))) .unit
    | some _ => .ub
  | .data n M rd cd => match w n with
    | none => .ok (Function.update w n (some (Obj.ofData M rd cd))) .unit
    | some _ => .ub
  | .copy n m => match w n, w m with
    | none, some o => .ok (Function.update w n (some o)) .unit
    | _, _ => .ub
  | .move n m => match w n, w m with
    | none, some o => .ok (Function.update (Function.update w n (some o)) m (some (o.movedFrom T))) .unit
    | _, _ => .ub
  | .assign n m => match w n, w m with
    | some _, some o => .ok (Function.update w n (some o)) .unit
    | _, _ => .ub
  | .moveAssign n m => if n = m then .ub else match w n, w m with
    | some t, some o => .ok (Function.update (Function.update w n (some o)) m (some (o.movedInto T t))) .unit
    | _, _ => .ub
  | .destroy n => match w n with
    | some _ => .ok (Function.update w n none) .unit
    | none => .ub
  | .setZero n => match w n with
    | some o => .ok (Function.update w n (some o.setZero)) .unit
    | none => .ub
  -- `Zero` (core/blk-matrix.hpp:161-167)
  | .zero n rd cd => match w n with
    | none => .ok (Function.update w n (some (Obj.ofDims rd cd).setZero)) .unit
    | some _ => .ub
  -- `operator=` (core/blk-matrix.hpp:151-158)
  | .setMat n M => match w n with
    | some o =>
      if (M.rows = o.data.rows ∧ M.cols = o.data.cols) ∨ ndebug then
        .ok (Function.update w n (some { o with data := M })) .unit
      else .aborts
    | none => .ub
  | .swap n m => match w n, w m with
    | some o, some t => .ok (Function.update (Function.update w n (some (o.swap t).1)) m (some (o.swap t).2)) .unit
    | _, _ => .ub
  | .read n i j a b => match w n with
    | some o => match o.read i j a b with
      | some x => .ok w (.entry x)
      | none => .ub
    | none => .ub
  | .write n i j X => match w n with
    | some o => match o.write i j X with
      | some o => .ok (Function.update w n (some o)) .unit
      | none => .ub
    | none => .ub
  -- `rows`, `cols` (core/blk-matrix.hpp:195-196)
  | .sizes n => match w n with
    | some o => .ok w (.sizes o.totalRows o.totalCols)
    | none => .ub
  -- `rowDims`, `colDims` (core/blk-matrix.hpp:190, :192)
  | .dimsOf n => match w n with
    | some o => .ok w (.dims o.rowDims o.colDims)
    | none => .ub

/-- A program and what it shows. -/
def run [Zero K] (T : Tpl) (ndebug : Bool) : World K → List (Op K) → Res (World K) K × List (Out K)
  | w, [] => (.ok w .unit, [])
  | w, o :: os => match step T ndebug w o with
    | .ok w x => let r := run T ndebug w os; (r.1, x :: r.2)
    | .aborts => (.aborts, [])
    | .ub => (.ub, [])

end Aligator.BlkObj
