import Verif.Model.QViews

/-!
# Model: the data objects of costs, stage functions and implicit dynamics

`include/aligator/core/cost-abstract.hpp` (`CostDataAbstractTpl`), `core/function-abstract.hpp/.hxx` (`StageFunctionDataTpl`) and
`core/dynamics.hpp/.hxx` (`DynamicsDataTpl`): matrices, and members (`Eigen::Ref`) that are views of their blocks.  The heap,
matrices and views are those of `Model/QViews`; a result `none` is undefined behaviour.

The scalar `value_` of cost data is not modelled.
-/

namespace Aligator.EvalData

open QView (Mem Dense View)

variable {K : Type}

/-- A block: rows `r0 .. r0 + nr` and columns `c0 .. c0 + nc` of matrix number `buf` of the object. -/
structure Sub where
  buf : ℕ
  r0 : ℕ
  c0 : ℕ
  nr : ℕ
  nc : ℕ

/-- The matrices of an object (rows, columns) in the order of the members, and its views. -/
structure Layout where
  bufs : List (ℕ × ℕ)
  subs : List Sub

/-- `m.head(n)`, `m.topLeftCorner`, `m.leftCols` of an `R × C` matrix number `b`. -/
def corner (b nr nc : ℕ) : Sub := ⟨b, 0, 0, nr, nc⟩

/-- `CostDataAbstractTpl(ndx, nu)` (core/cost-abstract.hpp:94-105): `grad_`, `hess_`; `Lx_`, `Lu_`, `Lxx_`, `Lxu_`, `Lux_`, `Luu_`
(`head`, `tail` and the four corners). -/
def costLayout (ndx nu : ℕ) : Layout :=
  let n := ndx + nu
  ⟨[(n, 1), (n, n)],
    [corner 0 ndx 1, ⟨0, n - nu, 0, nu, 1⟩, corner 1 ndx ndx, ⟨1, 0, n - nu, ndx, nu⟩, ⟨1, n - nu, 0, nu, ndx⟩,
      ⟨1, n - nu, n - nu, nu, nu⟩]⟩

/-- `StageFunctionDataTpl(ndx1, nu, nr)` (core/function-abstract.hxx:30-43): `value_`, `jac_buffer_`, `vhp_buffer_`; `valref_`,
`Jx_`, `Ju_`, `Hxx_`, `Hxu_`, `Huu_`. -/
def fnLayout (ndx nu nr : ℕ) : Layout :=
  let nvar := ndx + nu
  ⟨[(nr, 1), (nr, nvar), (nvar, nvar)],
    [corner 0 nr 1, corner 1 nr ndx, ⟨1, 0, ndx, nr, nu⟩, corner 2 ndx ndx, ⟨2, 0, ndx, ndx, nu⟩, ⟨2, ndx, ndx, nu, nu⟩]⟩

/-- `DynamicsDataTpl(ndx1, nu, ndx2)` (core/dynamics.hxx:41-57): `value_`, `jac_buffer_` and the six matrices of second
derivatives, which own their memory; `valref_`, `Jx_`, `Ju_`, `Jy_` (`rightCols`). -/
def dynLayout (ndx nu ndx2 : ℕ) : Layout :=
  let nvar := ndx + nu + ndx2
  ⟨[(ndx2, 1), (ndx2, nvar), (ndx, ndx), (ndx, nu), (ndx, ndx2), (nu, nu), (nu, ndx2), (ndx2, ndx2)],
    [corner 0 ndx2 1, corner 1 ndx2 ndx, ⟨1, 0, ndx, ndx2, nu⟩, ⟨1, 0, nvar - ndx2, ndx2, ndx2⟩]⟩

/-- The three classes with their dimensions. -/
inductive Kind
  | cost (ndx nu : ℕ)
  | fn (ndx nu nr : ℕ)
  | dyn (ndx nu ndx2 : ℕ)

/-- Their constructors (core/cost-abstract.hpp:94, core/function-abstract.hxx:30, core/dynamics.hxx:41). -/
def Kind.layout : Kind → Layout
  | .cost ndx nu => costLayout ndx nu
  | .fn ndx nu nr => fnLayout ndx nu nr
  | .dyn ndx nu ndx2 => dynLayout ndx nu ndx2

/-- An object in memory. -/
structure Obj where
  bufs : List Dense
  views : List View

/-- The matrices are allocated in the order of the members. -/
def allocAll (j : ℕ → ℕ → K) (h : Mem K) : List (ℕ × ℕ) → List Dense × Mem K
  | [] => ([], h)
  | (R, C) :: bs =>
    let p := h.alloc j (R * C)
    let q := allocAll j p.2 bs
    (⟨p.1, R, C⟩ :: q.1, q.2)

/-- The views are bound; Eigen asserts that each block lies inside its matrix. -/
def bindAll (ds : List Dense) : List Sub → Option (List View)
  | [] => some []
  | s :: ss => do
    let d ← ds[s.buf]?
    let v ← d.block s.r0 s.c0 s.nr s.nc
    let vs ← bindAll ds ss
    some (v :: vs)

/-- `setZero` of all matrices, in the bodies of the constructors (core/cost-abstract.hpp:106-107,
core/function-abstract.hxx:44-46, core/dynamics.hxx:58-65). -/
def zeroAll [Zero K] (h : Mem K) : List Dense → Option (Mem K)
  | [] => some h
  | d :: ds => do
    let h1 ← h.fill d.addr (List.replicate (d.rows * d.cols) 0)
    zeroAll h1 ds

/-- A constructor. -/
def Obj.new [Zero K] (j : ℕ → ℕ → K) (h : Mem K) (k : Kind) : Option (Obj × Mem K) := do
  let p := allocAll j h k.layout.bufs
  let vs ← bindAll p.1 k.layout.subs
  let h1 ← zeroAll p.2 p.1
  some (⟨p.1, vs⟩, h1)

/-- The destructors (core/cost-abstract.hpp:113, core/function-abstract.hpp:109, core/dynamics.hpp:110): the matrices are freed,
the views own nothing. -/
def freeAll (h : Mem K) : List Dense → Mem K
  | [] => h
  | d :: ds => freeAll (h.free d.addr) ds

/-- The objects of a program, by name, and the heap. -/
structure St (K : Type) where
  mem : Mem K
  objs : ℕ → Option Obj

/-- Nothing constructed yet. -/
def St.init : St K := ⟨⟨0, fun _ => none⟩, fun _ => none⟩

/-- What evaluation code does with data objects: it makes and destroys them (by pointer: no copies) and writes coefficients of
their matrices and through their views. -/
inductive Op (K : Type)
  | new (a : ℕ) (k : Kind)
  | del (a : ℕ)
  | setBuf (a b r c : ℕ) (x : K)
  | setView (a n r c : ℕ) (x : K)

/-- One operation. -/
def St.step [Zero K] (j : ℕ → ℕ → K) (s : St K) : Op K → Option (St K)
  | .new a k =>
    match s.objs a with
    | some _ => none
    | none => (Obj.new j s.mem k).map fun r => ⟨r.2, Function.update s.objs a (some r.1)⟩
  | .del a =>
    match s.objs a with
    | none => none
    | some o => some ⟨freeAll s.mem o.bufs, Function.update s.objs a none⟩
  | .setBuf a b r c x =>
    match s.objs a with
    | none => none
    | some o =>
      match o.bufs[b]? with
      | none => none
      | some d => (d.store s.mem r c x).map fun h => { s with mem := h }
  | .setView a n r c x =>
    match s.objs a with
    | none => none
    | some o =>
      match o.views[n]? with
      | none => none
      | some v => (v.store s.mem r c x).map fun h => { s with mem := h }

/-- A program. -/
def St.run [Zero K] (j : ℕ → ℕ → K) (s : St K) : List (Op K) → Option (St K)
  | [] => some s
  | op :: ops =>
    match s.step j op with
    | none => none
    | some s' => s'.run j ops

/-- Copies of the matrices. -/
def copyAll (j : ℕ → ℕ → K) (h : Mem K) : List Dense → Option (List Dense × Mem K)
  | [] => some ([], h)
  | d :: ds =>
    let p := h.alloc j (d.rows * d.cols)
    match p.2.cell d.addr with
    | none => none
    | some l =>
      match p.2.fill p.1 l with
      | none => none
      | some h1 => (copyAll j h1 ds).map fun r => (⟨p.1, d.rows, d.cols⟩ :: r.1, r.2)

/-- The implicit copy constructors (core/cost-abstract.hpp:73-114, core/function-abstract.hpp:73-110 and core/dynamics.hpp:77-111
declare none): member by member, and the copy of an `Eigen::Ref` refers to the same memory. -/
def Obj.copy (j : ℕ → ℕ → K) (h : Mem K) (o : Obj) : Option (Obj × Mem K) :=
  (copyAll j h o.bufs).map fun r => (⟨r.1, o.views⟩, r.2)

end Aligator.EvalData
