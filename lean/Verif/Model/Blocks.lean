import Mathlib.Data.List.Basic

/-!
# Model: constraint stacks and block matrices

Dimensions and indices (`long`, `Eigen::Index`) are natural numbers.
-/

namespace Aligator.Blocks

/-! ## `ConstraintStackTpl` -/

/-- The fields of a constraint stack (core/constraint.hpp:66-72); `F` and `S` stand for the polymorphic functions and
sets. -/
structure Stack (F S : Type) where
  funcs : List F
  sets : List S
  indices : List ℕ
  dims : List ℕ
  total : ℕ

variable {F S : Type}

/-- Default constructor (core/constraint.hpp:19-20, :72). -/
def Stack.empty : Stack F S := ⟨[], [], [0], [], 0⟩

/-- `addDim` (core/constraint.hpp:75-80); `none` is the undefined `back()` of an empty vector. -/
def Stack.addDim (st : Stack F S) (nr : ℕ) : Option (Stack F S) :=
  match st.indices.getLast? with
  | none => none
  | some last => some { st with indices := st.indices ++ [last + nr]
                                dims := st.dims ++ [nr]
                                total := st.total + nr }

/-- `pushBack` (core/constraint.hpp:40-48; the deprecated overload :30-38 does the same with the two fields of its
argument).  `nr f` is the output dimension of the function `f`. -/
def Stack.pushBack (nr : F → ℕ) (st : Stack F S) (f : F) (s : S) : Option (Stack F S) :=
  Stack.addDim { st with funcs := st.funcs ++ [f], sets := st.sets ++ [s] } (nr f)

/-- `clear` (core/constraint.hpp:83-89). -/
def Stack.clear (_ : Stack F S) : Stack F S :=
  { funcs := [], sets := [], indices := [0], dims := [], total := 0 }

/-- What the defaulted move constructor and move assignment leave in their argument (core/constraint.hpp:23-24): the
vectors are emptied, the integer is copied. -/
def Stack.movedFrom (st : Stack F S) : Stack F S :=
  { funcs := [], sets := [], indices := [], dims := [], total := st.total }

/-- Operations of a client. -/
inductive Op (F S : Type)
  | push (f : F) (s : S)
  | clear

/-- One operation. -/
def Stack.step (nr : F → ℕ) (st : Stack F S) : Op F S → Option (Stack F S)
  | .push f s => st.pushBack nr f s
  | .clear => some st.clear

/-- A sequence of operations. -/
def Stack.run (nr : F → ℕ) : Stack F S → List (Op F S) → Option (Stack F S)
  | st, [] => some st
  | st, o :: os => (st.step nr o).bind fun st' => Stack.run nr st' os

/-! ## `BlkMatrix` -/

/-- The first two loops of `initialize` (core/blk-matrix.hpp:237-240, :241-244): writes the start of every block in the
array of indices (which was copied from the dimensions) and returns the total. -/
def initLoop : List ℕ → ℕ → List ℕ × ℕ
  | [], tot => ([], tot)
  | d :: ds, tot => let r := initLoop ds (tot + d); (tot :: r.1, r.2)

/-- The layout of a block matrix (core/blk-matrix.hpp:226-232) without its buffer: block dimensions, block starts, totals,
and the outer stride of the underlying column-major Eigen object (equal to the number of rows for a plain matrix). -/
structure Layout where
  rowDims : List ℕ
  colDims : List ℕ
  rowIdx : List ℕ
  colIdx : List ℕ
  totalRows : ℕ
  totalCols : ℕ
  stride : ℕ

/-- `initialize` (core/blk-matrix.hpp:234-246), layout part. -/
def mkLayout (rowDims colDims : List ℕ) (stride : ℕ → ℕ) : Layout :=
  let r := initLoop rowDims 0
  let c := initLoop colDims 0
  { rowDims := rowDims, colDims := colDims, rowIdx := r.1, colIdx := c.1
    totalRows := r.2, totalCols := c.2, stride := stride r.2 }

/-- A plain Eigen matrix: shape and column-major buffer. -/
structure Plain (α : Type) where
  rows : ℕ
  cols : ℕ
  buf : List α

variable {α : Type}

/-- `m_data.resize` on a plain matrix (called at core/blk-matrix.hpp:245).  Eigen keeps the buffer when the number of
coefficients is unchanged and otherwise allocates a new one, whose content is arbitrary: `garbage`. -/
def Plain.resize (M : Plain α) (rows cols : ℕ) (garbage : ℕ → List α) : Plain α :=
  { rows := rows, cols := cols
    buf := if rows * cols = M.rows * M.cols then M.buf else garbage (rows * cols) }

/-- Constructor from a plain matrix (core/blk-matrix.hpp:63-87).  The constructor from dimensions (:52-61) is the case of
an empty matrix. -/
def ofPlain (M : Plain α) (rowDims colDims : List ℕ) (garbage : ℕ → List α) : Layout × Plain α :=
  let L := mkLayout rowDims colDims id
  (L, M.resize L.totalRows L.totalCols garbage)

/-- A rectangular view of a buffer: `m_data.block`, `middleRows`, `middleCols`, `segment`, `topRows`. -/
structure View where
  row : ℕ
  col : ℕ
  rows : ℕ
  cols : ℕ
  stride : ℕ

/-- Address of an entry of a view in the column-major buffer. -/
def View.addr (V : View) (a b : ℕ) : ℕ := (V.row + a) + (V.col + b) * V.stride

/-- Reading an entry through a view. -/
def View.read (V : View) (buf : List α) (a b : ℕ) : Option α := buf[V.addr a b]?

/-- Writing an entry through a view. -/
def View.writeEntry (V : View) (buf : List α) (a b : ℕ) (x : α) : List α := buf.set (V.addr a b) x

/-- Assigning a whole block, `view = X`: column by column, row by row. -/
def View.write (V : View) (buf : List α) (X : ℕ → ℕ → α) : List α :=
  (List.range V.cols).foldl (fun buf b =>
    (List.range V.rows).foldl (fun buf a => V.writeEntry buf a b (X a b)) buf) buf

/-- `operator()` (core/blk-matrix.hpp:110-119); `none` is an out-of-range access to the arrays. -/
def Layout.block (L : Layout) (i j : ℕ) : Option View := do
  let r ← L.rowIdx[i]?
  let c ← L.colIdx[j]?
  let m ← L.rowDims[i]?
  let n ← L.colDims[j]?
  pure ⟨r, c, m, n, L.stride⟩

/-- `blockRow` (core/blk-matrix.hpp:121-127): all the columns. -/
def Layout.blockRow (L : Layout) (i : ℕ) : Option View := do
  let r ← L.rowIdx[i]?
  let m ← L.rowDims[i]?
  pure ⟨r, 0, m, L.totalCols, L.stride⟩

/-- `blockCol` (core/blk-matrix.hpp:129-135): all the rows. -/
def Layout.blockCol (L : Layout) (j : ℕ) : Option View := do
  let c ← L.colIdx[j]?
  let n ← L.colDims[j]?
  pure ⟨0, c, L.totalRows, n, L.stride⟩

/-- `topBlkRows` (core/blk-matrix.hpp:199-206, :210-219): a block matrix over `Eigen::Ref` of the top rows, with the same
buffer and the same outer stride.  `copy_n` past the end of the dimensions is undefined: `none`.  (The sum is accumulated in
an `int`; that truncation is not modelled.)  The `resize` of the reference only asserts that the shape is unchanged: the
shapes compared are the sum and the totals of the new layout, equal by construction. -/
def Layout.topBlkRows (L : Layout) (n : ℕ) : Option Layout :=
  if n ≤ L.rowDims.length then some (mkLayout (L.rowDims.take n) L.colDims fun _ => L.stride) else none

end Aligator.Blocks
