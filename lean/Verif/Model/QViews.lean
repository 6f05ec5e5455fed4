import Mathlib.Logic.Function.Basic
import Mathlib.Data.List.Basic
import Mathlib.Tactic.TypeStar

/-!
# Model: Q-function and cost data objects with named blocks

`include/aligator/solvers/value-function.hpp` (`QFunctionTpl`) and `include/aligator/core/cost-abstract.hpp`
(`CostDataAbstractTpl`): a gradient, a Hessian, and members (`Eigen::Ref`) that are views of their blocks.

Memory is explicit: a buffer is a cell of the heap, a view is an address, an offset and a stride.  A result `none` is
undefined behaviour: a freed or foreign cell, an index out of range, a name that holds no object, an Eigen size
assertion.  Simplifications: an empty matrix also owns a cell (Eigen: the null pointer); `std::swap` of two matrices
exchanges the cells; coefficients are of any type with a zero.  What fresh memory holds is the argument `j`
(address, index).
-/

namespace Aligator.QView

variable {K : Type}

/-- The heap: next unused address, contents of the cells (`none`: not allocated, or freed). -/
structure Mem (K : Type) where
  next : ℕ
  cell : ℕ → Option (List K)

/-- Allocation of `n` coefficients. -/
def Mem.alloc (j : ℕ → ℕ → K) (h : Mem K) (n : ℕ) : ℕ × Mem K :=
  (h.next, ⟨h.next + 1, Function.update h.cell h.next (some ((List.range n).map (j h.next)))⟩)

/-- Deallocation. -/
def Mem.free (h : Mem K) (a : ℕ) : Mem K := { h with cell := Function.update h.cell a none }

/-- Reading coefficient `i` of cell `a`. -/
def Mem.load (h : Mem K) (a i : ℕ) : Option K :=
  match h.cell a with
  | none => none
  | some l => l[i]?

/-- Writing coefficient `i` of cell `a`. -/
def Mem.store (h : Mem K) (a i : ℕ) (x : K) : Option (Mem K) :=
  match h.cell a with
  | none => none
  | some l => if i < l.length then some { h with cell := Function.update h.cell a (some (l.set i x)) } else none

/-- Overwriting the whole of cell `a` (an Eigen assignment whose sizes agree). -/
def Mem.fill (h : Mem K) (a : ℕ) (l : List K) : Option (Mem K) :=
  match h.cell a with
  | none => none
  | some l0 => if l0.length = l.length then some { h with cell := Function.update h.cell a (some l) } else none

/-- `MatrixXs`, column-major (a vector has one column). -/
structure Dense where
  addr : ℕ
  rows : ℕ
  cols : ℕ

/-- `MatrixRef`, `VectorRef`: coefficient `(r, c)` is at `off + r + c * stride` of the cell. -/
structure View where
  addr : ℕ
  off : ℕ
  rows : ℕ
  cols : ℕ
  stride : ℕ

/-- `m.block(r0, c0, nr, nc)` bound to a `Ref`; Eigen asserts that the block lies inside the matrix. -/
def Dense.block (m : Dense) (r0 c0 nr nc : ℕ) : Option View :=
  if r0 + nr ≤ m.rows ∧ c0 + nc ≤ m.cols then some ⟨m.addr, r0 + c0 * m.rows, nr, nc, m.rows⟩ else none

/-- Reading through a view. -/
def View.load (h : Mem K) (v : View) (r c : ℕ) : Option K :=
  if r < v.rows ∧ c < v.cols then h.load v.addr (v.off + r + c * v.stride) else none

/-- Writing through a view. -/
def View.store (h : Mem K) (v : View) (r c : ℕ) (x : K) : Option (Mem K) :=
  if r < v.rows ∧ c < v.cols then h.store v.addr (v.off + r + c * v.stride) x else none

/-- Reading a coefficient of a matrix. -/
def Dense.load (h : Mem K) (m : Dense) (r c : ℕ) : Option K :=
  if r < m.rows ∧ c < m.cols then h.load m.addr (r + c * m.rows) else none

/-- Writing a coefficient of a matrix. -/
def Dense.store (h : Mem K) (m : Dense) (r c : ℕ) (x : K) : Option (Mem K) :=
  if r < m.rows ∧ c < m.cols then h.store m.addr (r + c * m.rows) x else none

/-- Copy assignment of a matrix: the buffer is kept if the number of coefficients is the same, else replaced; then
the coefficients are copied. -/
def Dense.assign (j : ℕ → ℕ → K) (h : Mem K) (m o : Dense) : Option (Dense × Mem K) :=
  if m.rows * m.cols = o.rows * o.cols then
    match h.cell o.addr with
    | none => none
    | some l => (h.fill m.addr l).map fun h' => (⟨m.addr, o.rows, o.cols⟩, h')
  else
    let p := (h.free m.addr).alloc j (o.rows * o.cols)
    match p.2.cell o.addr with
    | none => none
    | some l => (p.2.fill p.1 l).map fun h' => (⟨p.1, o.rows, o.cols⟩, h')

/-- `QFunctionTpl` (solvers/value-function.hpp:48-66). -/
structure QFun (K : Type) where
  ndx : ℕ
  nu : ℕ
  ndy : ℕ
  q : K
  grad : Dense
  hess : Dense
  Qx : View
  Qu : View
  Qxx : View
  Qxu : View
  Qxy : View
  Quu : View
  Quy : View
  Qyy : View

/-- `ntot` (solvers/value-function.hpp:51). -/
def QFun.ntot (o : QFun K) : ℕ := o.ndx + o.nu + o.ndy

/-- `redef_refs` (solvers/value-function.hpp:147-160). -/
def QFun.redefRefs (o : QFun K) : Option (QFun K) := do
  let Qx ← o.grad.block 0 0 o.ndx 1
  let Qu ← o.grad.block o.ndx 0 o.nu 1
  let Qxx ← o.hess.block 0 0 o.ndx o.ndx
  let Qxu ← o.hess.block 0 o.ndx o.ndx o.nu
  let Qxy ← o.hess.block 0 (o.hess.cols - o.ndy) o.ndx o.ndy
  let Quu ← o.hess.block o.ndx o.ndx o.nu o.nu
  let Quy ← o.hess.block o.ndx (o.ndx + o.nu) o.nu o.ndy
  let Qyy ← o.hess.block (o.hess.rows - o.ndy) (o.hess.cols - o.ndy) o.ndy o.ndy
  some { o with Qx := Qx, Qu := Qu, Qxx := Qxx, Qxu := Qxu, Qxy := Qxy, Quu := Quu, Quy := Quy, Qyy := Qyy }

/-- `QFunctionTpl(ndx, nu, ndy)` (solvers/value-function.hpp:68-86). -/
def QFun.new [Zero K] (j : ℕ → ℕ → K) (h : Mem K) (ndx nu ndy : ℕ) : Option (QFun K × Mem K) := do
  let n := ndx + nu + ndy
  let p := h.alloc j (ndx + nu)
  let grad : Dense := ⟨p.1, ndx + nu, 1⟩
  let p' := p.2.alloc j (n * n)
  let hess : Dense := ⟨p'.1, n, n⟩
  let Qx ← grad.block 0 0 ndx 1
  let Qu ← grad.block ndx 0 nu 1
  let Qxx ← hess.block 0 0 ndx ndx
  let Qxu ← hess.block 0 ndx ndx nu
  let Qxy ← hess.block 0 (hess.cols - ndy) ndx ndy
  let Quu ← hess.block ndx ndx nu nu
  let Quy ← hess.block ndx (ndx + nu) nu ndy
  let Qyy ← hess.block (hess.rows - ndy) (hess.cols - ndy) ndy ndy
  let h1 ← p'.2.fill grad.addr (List.replicate (ndx + nu) 0)
  let h2 ← h1.fill hess.addr (List.replicate (n * n) 0)
  some (⟨ndx, nu, ndy, 0, grad, hess, Qx, Qu, Qxx, Qxu, Qxy, Quu, Quy, Qyy⟩, h2)

/-- Copy assignment (solvers/value-function.hpp:110-120). -/
def QFun.assign (j : ℕ → ℕ → K) (h : Mem K) (o p : QFun K) : Option (QFun K × Mem K) := do
  let (g, h1) ← o.grad.assign j h p.grad
  let (H, h2) ← o.hess.assign j h1 p.hess
  let o' ← QFun.redefRefs { o with ndx := p.ndx, nu := p.nu, ndy := p.ndy, q := p.q, grad := g, hess := H }
  some (o', h2)

/-- Copy constructor (solvers/value-function.hpp:88-98): the assignments of its body are those of :110-120. -/
def QFun.copy [Zero K] (j : ℕ → ℕ → K) (h : Mem K) (p : QFun K) : Option (QFun K × Mem K) := do
  let (o, h1) ← QFun.new j h p.ndx p.nu p.ndy
  QFun.assign j h1 o p

/-- `swap` of two distinct objects (solvers/value-function.hpp:131-143). -/
def QFun.swap (o p : QFun K) : Option (QFun K × QFun K) := do
  let o' ← QFun.redefRefs
    { o with ndx := p.ndx, nu := p.nu, ndy := p.ndy, q := p.q, grad := p.grad, hess := p.hess }
  let p' ← QFun.redefRefs
    { p with ndx := o.ndx, nu := o.nu, ndy := o.ndy, q := o.q, grad := o.grad, hess := o.hess }
  some (o', p')

/-- Move constructor (solvers/value-function.hpp:100-103): the new object and what is left of the source. -/
def QFun.move [Zero K] (j : ℕ → ℕ → K) (h : Mem K) (p : QFun K) : Option (QFun K × QFun K × Mem K) := do
  let (o, h1) ← QFun.new j h 0 0 0
  let (o', p') ← QFun.swap o p
  some (o', p', h1)

/-- The named blocks (solvers/value-function.hpp:58-66). -/
inductive Blk
  | Qx | Qu | Qxx | Qxu | Qxy | Quu | Quy | Qyy

/-- The member of that name. -/
def QFun.view (o : QFun K) : Blk → View
  | .Qx => o.Qx
  | .Qu => o.Qu
  | .Qxx => o.Qxx
  | .Qxu => o.Qxu
  | .Qxy => o.Qxy
  | .Quu => o.Quu
  | .Quy => o.Quy
  | .Qyy => o.Qyy

/-- The objects of a program, by name, and the heap. -/
structure St (K : Type) where
  mem : Mem K
  objs : ℕ → Option (QFun K)

/-- Nothing constructed yet. -/
def St.init : St K := ⟨⟨0, fun _ => none⟩, fun _ => none⟩

/-- What a program can do with the objects (solvers/value-function.hpp:68-143), plus writes of single coefficients
through the members. -/
inductive Op (K : Type)
  | new (a ndx nu ndy : ℕ)
  | copy (a b : ℕ)
  | move (a b : ℕ)
  | assign (a b : ℕ)
  | moveAssign (a b : ℕ)
  | swap (a b : ℕ)
  | del (a : ℕ)
  | setQ (a : ℕ) (x : K)
  | setGrad (a i : ℕ) (x : K)
  | setHess (a r c : ℕ) (x : K)
  | setView (a : ℕ) (b : Blk) (r c : ℕ) (x : K)

/-- `swap(a, b)` (solvers/value-function.hpp:131-143); with itself nothing is exchanged but the views are made
again. -/
def St.swap (s : St K) (a b : ℕ) : Option (St K) :=
  match s.objs a, s.objs b with
  | some o, some p =>
    if a = b then o.redefRefs.map fun o' => { s with objs := Function.update s.objs a (some o') }
    else (QFun.swap o p).map fun r =>
      { s with objs := Function.update (Function.update s.objs a (some r.1)) b (some r.2) }
  | _, _ => none

/-- One operation.  `new`, `copy` and `move` construct a new object `a`; the move assignment is `swap`
(solvers/value-function.hpp:105-108); the destructor is the implicit one. -/
def St.step [Zero K] (j : ℕ → ℕ → K) (s : St K) : Op K → Option (St K)
  | .new a ndx nu ndy =>
    match s.objs a with
    | some _ => none
    | none => (QFun.new j s.mem ndx nu ndy).map fun r => ⟨r.2, Function.update s.objs a (some r.1)⟩
  | .copy a b =>
    match s.objs a, s.objs b with
    | none, some p => (QFun.copy j s.mem p).map fun r => ⟨r.2, Function.update s.objs a (some r.1)⟩
    | _, _ => none
  | .move a b =>
    match s.objs a, s.objs b with
    | none, some p => (QFun.move j s.mem p).map fun r =>
        ⟨r.2.2, Function.update (Function.update s.objs a (some r.1)) b (some r.2.1)⟩
    | _, _ => none
  | .assign a b =>
    match s.objs a, s.objs b with
    | some o, some p => (QFun.assign j s.mem o p).map fun r => ⟨r.2, Function.update s.objs a (some r.1)⟩
    | _, _ => none
  | .moveAssign a b => s.swap a b
  | .swap a b => s.swap a b
  | .del a =>
    match s.objs a with
    | none => none
    | some o => some ⟨(s.mem.free o.grad.addr).free o.hess.addr, Function.update s.objs a none⟩
  | .setQ a x =>
    match s.objs a with
    | none => none
    | some o => some { s with objs := Function.update s.objs a (some { o with q := x }) }
  | .setGrad a i x =>
    match s.objs a with
    | none => none
    | some o => (o.grad.store s.mem i 0 x).map fun h => { s with mem := h }
  | .setHess a r c x =>
    match s.objs a with
    | none => none
    | some o => (o.hess.store s.mem r c x).map fun h => { s with mem := h }
  | .setView a b r c x =>
    match s.objs a with
    | none => none
    | some o => ((o.view b).store s.mem r c x).map fun h => { s with mem := h }

/-- A program. -/
def St.run [Zero K] (j : ℕ → ℕ → K) (s : St K) : List (Op K) → Option (St K)
  | [] => some s
  | op :: ops =>
    match s.step j op with
    | none => none
    | some s' => s'.run j ops

/-- `std::rotate(first, first + 1, last)` on `n` objects (utils/mpc-util.hpp:16-22), as the sequence of `iter_swap`
of the standard library for random access iterators. -/
def rotateOps (K : Type) : ℕ → List (Op K)
  | 0 => []
  | 1 => []
  | n + 2 => rotateOps K (n + 1) ++ [.swap n (n + 1)]

/-! ### Cost data -/

/-- `CostDataAbstractTpl` (core/cost-abstract.hpp:76-92), with the gradient blocks only. -/
structure CostData (K : Type) where
  ndx : ℕ
  nu : ℕ
  value : K
  grad : Dense
  Lx : View
  Lu : View

/-- `CostDataAbstractTpl(ndx, nu)` (core/cost-abstract.hpp:94-108), the gradient part. -/
def CostData.new [Zero K] (j : ℕ → ℕ → K) (h : Mem K) (ndx nu : ℕ) : Option (CostData K × Mem K) := do
  let p := h.alloc j (ndx + nu)
  let grad : Dense := ⟨p.1, ndx + nu, 1⟩
  let Lx ← grad.block 0 0 ndx 1
  let Lu ← grad.block (grad.rows - nu) 0 nu 1
  let h1 ← p.2.fill grad.addr (List.replicate (ndx + nu) 0)
  some (⟨ndx, nu, 0, grad, Lx, Lu⟩, h1)

/-- The implicit copy constructor (core/cost-abstract.hpp:71-113 declares none): member by member, and the copy of
an `Eigen::Ref` refers to the same memory. -/
def CostData.copy (j : ℕ → ℕ → K) (h : Mem K) (o : CostData K) : Option (CostData K × Mem K) :=
  let p := h.alloc j (o.grad.rows * o.grad.cols)
  match p.2.cell o.grad.addr with
  | none => none
  | some l => (p.2.fill p.1 l).map fun h' => ({ o with grad := ⟨p.1, o.grad.rows, o.grad.cols⟩ }, h')

end Aligator.QView
