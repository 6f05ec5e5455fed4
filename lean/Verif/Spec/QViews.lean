import Verif.Model.QViews

/-!
# Specification: Q-functions as values

A Q-function is a value: three dimensions, a constant, a gradient in `(x, u)` and a Hessian in `(x, u, y)`.  A block is
named by the variables it couples.  A program over such values has no addresses: copying copies the value, moving
hands it over and leaves the empty Q-function, swapping exchanges, writing changes one coefficient of one object.
-/

namespace Aligator.QView.Spec

open QView

variable {K : Type}

/-- The value of a Q-function. -/
structure QVal (K : Type) where
  ndx : ℕ
  nu : ℕ
  ndy : ℕ
  q : K
  g : ℕ → K
  H : ℕ → ℕ → K

/-- The three groups of variables. -/
inductive Var
  | x | u | y

/-- The variables of the rows of a block. -/
def rowVar : Blk → Var
  | .Qx | .Qxx | .Qxu | .Qxy => .x
  | .Qu | .Quu | .Quy => .u
  | .Qyy => .y

/-- The variables of the columns of a block of the Hessian; a block of the gradient has none. -/
def colVar : Blk → Option Var
  | .Qx | .Qu => none
  | .Qxx => some .x
  | .Qxu | .Quu => some .u
  | .Qxy | .Quy | .Qyy => some .y

/-- Number of variables of a group. -/
def QVal.dim (v : QVal K) : Var → ℕ
  | .x => v.ndx
  | .u => v.nu
  | .y => v.ndy

/-- Index of the first variable of a group in `(x, u, y)`. -/
def QVal.start (v : QVal K) : Var → ℕ
  | .x => 0
  | .u => v.ndx
  | .y => v.ndx + v.nu

/-- Number of columns of a block. -/
def QVal.width (v : QVal K) (b : Blk) : ℕ :=
  match colVar b with
  | none => 1
  | some p => v.dim p

/-- Coefficient `(r, c)` of a block. -/
def QVal.coef (v : QVal K) (b : Blk) (r c : ℕ) : K :=
  match colVar b with
  | none => v.g (v.start (rowVar b) + r)
  | some p => v.H (v.start (rowVar b) + r) (v.start p + c)

/-- A new value for one coefficient of the gradient. -/
def QVal.putG (v : QVal K) (i : ℕ) (x : K) : QVal K := { v with g := fun k => if k = i then x else v.g k }

/-- A new value for one coefficient of the Hessian. -/
def QVal.putH (v : QVal K) (r c : ℕ) (x : K) : QVal K :=
  { v with H := fun k l => if k = r ∧ l = c then x else v.H k l }

/-- A new value for coefficient `(r, c)` of a block. -/
def QVal.put (v : QVal K) (b : Blk) (r c : ℕ) (x : K) : QVal K :=
  match colVar b with
  | none => v.putG (v.start (rowVar b) + r) x
  | some p => v.putH (v.start (rowVar b) + r) (v.start p + c) x

/-- All zero. -/
def zeroVal [Zero K] (ndx nu ndy : ℕ) : QVal K := ⟨ndx, nu, ndy, 0, fun _ => 0, fun _ _ => 0⟩

/-- One operation on values; `none`: the program is wrong (a name that is taken or that holds nothing, an index outside
the block). -/
def astep [Zero K] (A : ℕ → Option (QVal K)) : Op K → Option (ℕ → Option (QVal K))
  | .new a ndx nu ndy =>
    match A a with
    | some _ => none
    | none => some fun n => if n = a then some (zeroVal ndx nu ndy) else A n
  | .copy a b =>
    match A a, A b with
    | none, some v => some fun n => if n = a then some v else A n
    | _, _ => none
  | .move a b =>
    match A a, A b with
    | none, some v => some fun n => if n = b then some (zeroVal 0 0 0) else if n = a then some v else A n
    | _, _ => none
  | .assign a b =>
    match A a, A b with
    | some _, some w => some fun n => if n = a then some w else A n
    | _, _ => none
  | .moveAssign a b | .swap a b =>
    match A a, A b with
    | some v, some w => some fun n => if n = b then some v else if n = a then some w else A n
    | _, _ => none
  | .del a =>
    match A a with
    | none => none
    | some _ => some fun n => if n = a then none else A n
  | .setQ a x =>
    match A a with
    | none => none
    | some v => some fun n => if n = a then some { v with q := x } else A n
  | .setGrad a i x =>
    match A a with
    | none => none
    | some v => if i < v.ndx + v.nu then some fun n => if n = a then some (v.putG i x) else A n else none
  | .setHess a r c x =>
    match A a with
    | none => none
    | some v =>
      if r < v.ndx + v.nu + v.ndy ∧ c < v.ndx + v.nu + v.ndy then
        some fun n => if n = a then some (v.putH r c x) else A n
      else none
  | .setView a b r c x =>
    match A a with
    | none => none
    | some v =>
      if r < v.dim (rowVar b) ∧ c < v.width b then some fun n => if n = a then some (v.put b r c x) else A n
      else none

/-- A program on values. -/
def arun [Zero K] (A : ℕ → Option (QVal K)) : List (Op K) → Option (ℕ → Option (QVal K))
  | [] => some A
  | op :: ops =>
    match astep A op with
    | none => none
    | some A' => arun A' ops

/-- What a user sees of an object is the value `v`: the dimensions, the gradient and the Hessian, and every named block,
all read from memory; reading anything outside them is undefined. -/
def Shows (h : Mem K) (o : QFun K) (v : QVal K) : Prop :=
  (o.ndx = v.ndx ∧ o.nu = v.nu ∧ o.ndy = v.ndy ∧ o.q = v.q) ∧
  (o.grad.rows = v.ndx + v.nu ∧ o.grad.cols = 1 ∧ o.hess.rows = v.ndx + v.nu + v.ndy ∧ o.hess.cols = v.ndx + v.nu + v.ndy) ∧
  (∀ i < v.ndx + v.nu, o.grad.load h i 0 = some (v.g i)) ∧
  (∀ r < v.ndx + v.nu + v.ndy, ∀ c < v.ndx + v.nu + v.ndy, o.hess.load h r c = some (v.H r c)) ∧
  (∀ b, (o.view b).rows = v.dim (rowVar b) ∧ (o.view b).cols = v.width b ∧
    ∀ r < v.dim (rowVar b), ∀ c < v.width b, (o.view b).load h r c = some (v.coef b r c)) ∧
  (∀ i c, ¬ (i < v.ndx + v.nu ∧ c = 0) → o.grad.load h i c = none) ∧
  (∀ r c, ¬ (r < v.ndx + v.nu + v.ndy ∧ c < v.ndx + v.nu + v.ndy) → o.hess.load h r c = none) ∧
  ∀ b r c, ¬ (r < v.dim (rowVar b) ∧ c < v.width b) → (o.view b).load h r c = none

/-- The objects of the program are those of the program on values, name by name. -/
def Agrees (s : St K) (A : ℕ → Option (QVal K)) : Prop :=
  ∀ a, match s.objs a, A a with
    | none, none => True
    | some o, some v => Shows s.mem o v
    | _, _ => False

end Aligator.QView.Spec
