import Mathlib.Logic.Function.Basic
import Mathlib.Data.List.Count
import Verif.Model.Blocks
import Verif.Model.Registries

/-!
# Model: arrays and elements handed to Python

The first part models the accessors of the bindings that take an index or a key.  The second part models which arrays
returned by the bindings keep the C++ object whose memory they show alive.

Trusted, and not in /repo: Boost.Python and eigenpy.  An accessor which returns an `Eigen::Ref` makes a numpy array over the
memory of the object (eigenpy's shared memory, which the classes written in Python rely on when they fill their data);
`with_custodian_and_ward_postcall<0, 1>` makes that array hold a reference to the object, and without it nothing does; an
object is destroyed when the last reference to it is dropped.
-/

namespace Aligator.PyView

open Aligator.Blocks Aligator.Reg

/-! ## Elements by index or key -/

/-- What a call from Python gives: a result, an exception, or an access out of the bounds of an array. -/
inductive Answer (β : Type)
  | ok (b : β)
  | indexError
  | keyError
  | undefined
  deriving DecidableEq

/-- An access to an array of the C++ class (core/blk-matrix.hpp:110-135), which is not checked. -/
def Answer.ofAccess {β : Type} : Option β → Answer β
  | some b => .ok b
  | none => .undefined

/-- `blockRow` of a block matrix in Python (python/blk-matrix.hpp:29-35). -/
def blockRow (L : Layout) (i : ℕ) : Answer View :=
  if L.rowDims.length ≤ i then .indexError else .ofAccess (L.blockRow i)

/-- `blockCol` of a block matrix in Python (python/blk-matrix.hpp:37-43): the index is compared with the number of
*row* blocks. -/
def blockCol (L : Layout) (i : ℕ) : Answer View :=
  if L.rowDims.length ≤ i then .indexError else .ofAccess (L.blockCol i)

/-- `__call__` of a block matrix in Python (python/blk-matrix.hpp:23-25, :60). -/
def call (L : Layout) (i j : ℕ) : Answer View := .ofAccess (L.block i j)

/-- `CartesianProduct.getComponent` in Python (bindings/python/src/expose-cartesian-product.cpp:39-48). -/
def getComponent {β : Type} (components : List β) (i : ℕ) : Answer β :=
  if components.length ≤ i then .indexError else .ofAccess components[i]?

/-- `CostStack.getComponent` in Python (bindings/python/src/modelling/expose-cost-stack.cpp:59-68, with the exception of
:20-32).  The map is the list of its entries, with distinct keys. -/
def getCost {κ β : Type} [DecidableEq κ] (components : List (κ × β)) (key : κ) : Answer β :=
  match components.find? fun e => decide (e.1 = key) with
  | none => .keyError
  | some e => .ok e.2

/-- `getCallback` of the solvers in Python (python/solvers.hpp:17-26). -/
def getCallback {C : Type} (m : CbMap C) (name : String) : Answer C :=
  match Reg.getCallback m name with
  | none => .keyError
  | some cb => .ok cb

/-! ## Arrays over the memory of an object -/

/-- The accessors which return an `Eigen::Ref` over the memory of the object. -/
inductive Attr
  /-- `Lx`, `Lu`, `Lxx`, `Lxu`, `Lux`, `Luu` of `CostData` (bindings/python/src/expose-costs.cpp:109-126). -/
  | costDerivative
  /-- `value`, `Jx`, `Ju`, `Hxx`, `Hxu`, `Huu` of `StageFunctionData`
  (bindings/python/src/expose-functions.cpp:65-69, :77-101). -/
  | functionDerivative
  /-- `jac_buffer`, `vhp_buffer` of `StageFunctionData` (bindings/python/src/expose-functions.cpp:70-76). -/
  | functionBuffer
  /-- `value`, `Jx`, `Ju`, `Jy` of `DynamicsData` (bindings/python/src/modelling/expose-dynamics.cpp:65-69, :73-87). -/
  | dynamicsDerivative
  /-- `jac_buffer`, `Hxx`, … `Hyy` of `DynamicsData` (bindings/python/src/modelling/expose-dynamics.cpp:70-72, :88-99). -/
  | dynamicsBuffer
  /-- `Jx`, `Ju` of `ExplicitDynamicsData` (bindings/python/src/modelling/expose-explicit-dynamics.cpp:75-84). -/
  | explicitDerivative
  /-- `matrix`, `blockRow`, `blockCol`, `__call__` of a block matrix (python/blk-matrix.hpp:46-47, :56-64). -/
  | blocks
  deriving DecidableEq

/-- Whether the accessor is exposed with a policy that ties the array to the object: the getters made by
`make_getter_eigen_matrix` are (python/eigen-member.hpp:45-53), those made with `return_by_value` alone or with the default
policies are not. -/
def Attr.keep : Attr → Bool
  | .costDerivative => false
  | .functionDerivative => false
  | .functionBuffer => true
  | .dynamicsDerivative => false
  | .dynamicsBuffer => true
  | .explicitDerivative => false
  | .blocks => false

/-- What a Python name refers to: an object, or an array over part of the memory of an object: entry `p` of the array is
at the address `pos p` (for a block, `View.addr` of core/blk-matrix.hpp:110-135).  `keep` tells if the array holds a
reference to the object. -/
inductive Ref
  | obj (o : ℕ)
  | view (o : ℕ) (pos : ℕ → ℕ) (keep : Bool)

/-- The object to which a value holds a reference (python/eigen-member.hpp:48-52). -/
def Ref.holds : Ref → Option ℕ
  | .obj o => some o
  | .view o _ true => some o
  | .view _ _ false => none

/-- A live C++ object: the content of its matrices, in one address space, and its reference count.  Only references from
Python are counted; a reference held in C++ (a data structure that contains the object) is the same as one more name. -/
structure Obj (α : Type) where
  buf : ℕ → α
  refs : ℕ

/-- The objects that are alive. -/
abbrev Heap (α : Type) := ℕ → Option (Obj α)

/-- The interpreter: the heap, the next identity, and what the names refer to. -/
structure State (α : Type) where
  heap : Heap α
  next : ℕ
  vars : List (Option Ref)

variable {α : Type}

/-- No object, `n` unbound names. -/
def State.init (n : ℕ) : State α := ⟨fun _ => none, 0, List.replicate n none⟩

/-- What a name refers to. -/
def State.var (s : State α) (y : ℕ) : Option Ref := (s.vars[y]?).join

/-- One more reference; `none` if the object is gone. -/
def inc (h : Heap α) (r : Option Ref) : Option (Heap α) :=
  match r.bind Ref.holds with
  | none => some h
  | some o =>
    match h o with
    | none => none
    | some b => some (Function.update h o (some { b with refs := b.refs + 1 }))

/-- One reference less: the object is destroyed with the last one. -/
def dec (h : Heap α) (r : Option Ref) : Option (Heap α) :=
  match r.bind Ref.holds with
  | none => some h
  | some o =>
    match h o with
    | none => none
    | some b =>
      if b.refs ≤ 1 then some (Function.update h o none)
      else some (Function.update h o (some { b with refs := b.refs - 1 }))

/-- Rebinding a name: the new value is referenced, then the old one is released. -/
def State.store (s : State α) (x : ℕ) (r : Option Ref) : Option (State α) := do
  let h ← inc s.heap r
  let h ← dec h (s.var x)
  pure { s with heap := h, vars := s.vars.set x r }

/-- What a statement shows. -/
inductive Seen (α : Type)
  | nothing
  | value (a : α)
  | raised
  deriving DecidableEq

/-- The statements of a Python program. -/
inductive Op (α : Type)
  /-- `x = Data(…)`, with the given content. -/
  | new (x : ℕ) (buf : ℕ → α)
  /-- `x = y`. -/
  | assign (x y : ℕ)
  /-- `x = y.attr`, or `x = y.blockRow(i)` and the like. -/
  | get (x y : ℕ) (a : Attr) (pos : ℕ → ℕ)
  /-- `x = y[…]`, a slice of an array (which refers to `y`). -/
  | slice (x y : ℕ) (f : ℕ → ℕ)
  /-- `x = y.copy()`. -/
  | copy (x y : ℕ)
  /-- `y[p]`. -/
  | read (y p : ℕ)
  /-- `y[p] = a`. -/
  | write (y p : ℕ) (a : α)
  /-- A method of the library that fills the object `y`. -/
  | call (y : ℕ) (f : (ℕ → α) → ℕ → α)
  /-- `del x`. -/
  | del (x : ℕ)

/-- Rebinding one of the names of the program. -/
def State.bindTo (s : State α) (x : ℕ) (r : Option Ref) : Option (State α × Seen α) :=
  if x < s.vars.length then (s.store x r).map fun s => (s, .nothing) else some (s, .raised)

/-- A new object, bound to a name by the reference `r` to it. -/
def State.create (s : State α) (x : ℕ) (buf : ℕ → α) (r : ℕ → Ref) : Option (State α × Seen α) :=
  if x < s.vars.length then
    (State.store { s with heap := Function.update s.heap s.next (some ⟨buf, 0⟩), next := s.next + 1 } x
      (some (r s.next))).map fun s => (s, .nothing)
  else some (s, .raised)

/-- One statement; `none` is an access to the memory of a destroyed object.  The accessors are those of `Attr` with their
policies (python/eigen-member.hpp:45-53, bindings/python/src/expose-costs.cpp:109-126); a statement on a name that is not
bound, or bound to a value of the wrong kind, raises. -/
def step (s : State α) : Op α → Option (State α × Seen α)
  | .new x buf => s.create x buf Ref.obj
  | .assign x y =>
    match s.var y with
    | none => some (s, .raised)
    | some r => s.bindTo x (some r)
  | .get x y a pos =>
    match s.var y with
    | some (.obj o) => s.bindTo x (some (.view o pos a.keep))
    | _ => some (s, .raised)
  | .slice x y f =>
    match s.var y with
    | some (.view o pos k) => s.bindTo x (some (.view o (pos ∘ f) k))
    | _ => some (s, .raised)
  | .copy x y =>
    match s.var y with
    | some (.view o pos _) =>
      match s.heap o with
      | none => none
      | some b => s.create x (b.buf ∘ pos) fun o => .view o id true
    | _ => some (s, .raised)
  | .read y p =>
    match s.var y with
    | some (.view o pos _) =>
      match s.heap o with
      | none => none
      | some b => some (s, .value (b.buf (pos p)))
    | _ => some (s, .raised)
  | .write y p a =>
    match s.var y with
    | some (.view o pos _) =>
      match s.heap o with
      | none => none
      | some b =>
        some ({ s with heap := Function.update s.heap o (some { b with buf := Function.update b.buf (pos p) a }) },
          .nothing)
    | _ => some (s, .raised)
  | .call y f =>
    match s.var y with
    | some (.obj o) =>
      match s.heap o with
      | none => none
      | some b => some ({ s with heap := Function.update s.heap o (some { b with buf := f b.buf }) }, .nothing)
    | _ => some (s, .raised)
  | .del x =>
    match s.var x with
    | none => some (s, .raised)
    | some _ => s.bindTo x none

/-- A program: what its statements show, and the state at the end. -/
def run : State α → List (Op α) → Option (State α × List (Seen α))
  | s, [] => some (s, [])
  | s, op :: ops =>
    match step s op with
    | none => none
    | some (s, v) => (run s ops).map fun r => (r.1, v :: r.2)

end Aligator.PyView
