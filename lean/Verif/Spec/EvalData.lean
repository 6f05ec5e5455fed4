import Verif.Model.EvalData

/-!
# Specification: evaluation data are values with named blocks

An object has variables `x`, `u` (and `y`), one after the other; its matrices are functions of row and column; a name stands for
rows and columns of one matrix.
-/

namespace Aligator.EvalData.Spec

open QView (Mem Dense View)

variable {K : Type}

/-- Variables. -/
inductive Var
  | x | u | y

/-- Their dimensions. -/
def dim : Kind → Var → ℕ
  | .cost nx _, .x => nx
  | .cost _ nu, .u => nu
  | .cost _ _, .y => 0
  | .fn nx _ _, .x => nx
  | .fn _ nu _, .u => nu
  | .fn _ _ _, .y => 0
  | .dyn nx _ _, .x => nx
  | .dyn _ nu _, .u => nu
  | .dyn _ _ ny, .y => ny

/-- Where they begin among all variables. -/
def start (k : Kind) : Var → ℕ
  | .x => 0
  | .u => dim k .x
  | .y => dim k .x + dim k .u

/-- Number of values. -/
def vals : Kind → ℕ
  | .cost _ _ => 1
  | .fn _ _ nr => nr
  | .dyn _ _ ny => ny

/-- Number of variables. -/
def total (k : Kind) : ℕ := dim k .x + dim k .u + dim k .y

/-- Rows or columns of a named block: the only one, the values, or those of a variable. -/
inductive Ax
  | one
  | val
  | var (v : Var)

/-- Their first index. -/
def Ax.first (k : Kind) : Ax → ℕ
  | .one => 0
  | .val => 0
  | .var v => start k v

/-- Their number. -/
def Ax.size (k : Kind) : Ax → ℕ
  | .one => 1
  | .val => vals k
  | .var v => dim k v

/-- The names of the blocks: matrix, rows, columns.
Cost: `Lx Lu Lxx Lxu Lux Luu`.  Function: `value Jx Ju Hxx Hxu Huu`.  Dynamics: `value Jx Ju Jy`. -/
def names : Kind → List (ℕ × Ax × Ax)
  | .cost _ _ => [(0, .var .x, .one), (0, .var .u, .one), (1, .var .x, .var .x), (1, .var .x, .var .u), (1, .var .u, .var .x),
      (1, .var .u, .var .u)]
  | .fn _ _ _ => [(0, .val, .one), (1, .val, .var .x), (1, .val, .var .u), (2, .var .x, .var .x), (2, .var .x, .var .u),
      (2, .var .u, .var .u)]
  | .dyn _ _ _ => [(0, .val, .one), (1, .val, .var .x), (1, .val, .var .u), (1, .val, .var .y)]

/-- Rows and columns of the matrices.  Cost: gradient, Hessian.  Function: value, Jacobian, second derivatives.  Dynamics: value,
Jacobian, `Hxx Hxu Hxy Huu Huy Hyy`. -/
def sizes (k : Kind) : List (ℕ × ℕ) :=
  match k with
  | .cost _ _ => [(total k, 1), (total k, total k)]
  | .fn _ _ _ => [(vals k, 1), (vals k, total k), (total k, total k)]
  | .dyn _ _ _ => [(vals k, 1), (vals k, total k), (dim k .x, dim k .x), (dim k .x, dim k .u), (dim k .x, dim k .y),
      (dim k .u, dim k .u), (dim k .u, dim k .y), (dim k .y, dim k .y)]

/-- The value of an object. -/
structure Val (K : Type) where
  kind : Kind
  f : ℕ → ℕ → ℕ → K

/-- One coefficient changes. -/
def Val.put (v : Val K) (b r c : ℕ) (x : K) : Val K :=
  { v with f := fun b' r' c' => if b' = b ∧ r' = r ∧ c' = c then x else v.f b' r' c' }

/-- One operation on values: indices must be in range. -/
def astep [Zero K] (A : ℕ → Option (Val K)) : Op K → Option (ℕ → Option (Val K))
  | .new a k =>
    match A a with
    | some _ => none
    | none => some (Function.update A a (some ⟨k, fun _ _ _ => 0⟩))
  | .del a =>
    match A a with
    | none => none
    | some _ => some (Function.update A a none)
  | .setBuf a b r c x =>
    match A a with
    | none => none
    | some v =>
      match (sizes v.kind)[b]? with
      | none => none
      | some (R, C) => if r < R ∧ c < C then some (Function.update A a (some (v.put b r c x))) else none
  | .setView a n r c x =>
    match A a with
    | none => none
    | some v =>
      match (names v.kind)[n]? with
      | none => none
      | some (b, p, q) =>
        if r < p.size v.kind ∧ c < q.size v.kind then
          some (Function.update A a (some (v.put b (p.first v.kind + r) (q.first v.kind + c) x)))
        else none

/-- A program on values. -/
def arun [Zero K] (A : ℕ → Option (Val K)) : List (Op K) → Option (ℕ → Option (Val K))
  | [] => some A
  | op :: ops =>
    match astep A op with
    | none => none
    | some A' => arun A' ops

/-- What can be read of an object in memory is its value, through the matrices and through the views. -/
def Shows (h : Mem K) (o : Obj) (v : Val K) : Prop :=
  o.bufs.length = (sizes v.kind).length ∧ o.views.length = (names v.kind).length ∧
  (∀ (b : ℕ) (d : Dense) (R C : ℕ), o.bufs[b]? = some d → (sizes v.kind)[b]? = some (R, C) → d.rows = R ∧ d.cols = C ∧
    ∀ r < R, ∀ c < C, d.load h r c = some (v.f b r c)) ∧
  ∀ (n : ℕ) (w : View) (b : ℕ) (p q : Ax), o.views[n]? = some w → (names v.kind)[n]? = some (b, p, q) → w.rows = p.size v.kind ∧ w.cols = q.size v.kind ∧
    ∀ r < p.size v.kind, ∀ c < q.size v.kind, w.load h r c = some (v.f b (p.first v.kind + r) (q.first v.kind + c))

/-- The same objects exist, with these values. -/
def Agrees (s : St K) (A : ℕ → Option (Val K)) : Prop :=
  ∀ a, match s.objs a, A a with
    | none, none => True
    | some o, some v => Shows s.mem o v
    | _, _ => False

end Aligator.EvalData.Spec
