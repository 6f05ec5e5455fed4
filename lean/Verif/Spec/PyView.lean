import Verif.Model.PyView

/-!
# Specification: programs over memory that is never released

The meaning a Python user gives to the statements: an array shows part of the memory of an object, which is there for
ever.  `Safe` tells which programs never look at the memory of an object to which nothing refers any more.
-/

namespace Aligator.PyView.Spec

open Aligator.Blocks

variable {α : Type}

/-- Memory of every object ever created, and names. -/
structure Ideal (α : Type) where
  mem : ℕ → ℕ → α
  next : ℕ
  vars : List (Option Ref)

/-- No object, `n` unbound names; the memory of objects that do not exist yet is irrelevant. -/
def Ideal.init (junk : ℕ → ℕ → α) (n : ℕ) : Ideal α := ⟨junk, 0, List.replicate n none⟩

/-- What a name refers to. -/
def Ideal.var (i : Ideal α) (y : ℕ) : Option Ref := (i.vars[y]?).join

/-- Rebinding a name. -/
def Ideal.bindTo (i : Ideal α) (x : ℕ) (r : Option Ref) : Ideal α × Seen α :=
  if x < i.vars.length then ({ i with vars := i.vars.set x r }, .nothing) else (i, .raised)

/-- A new object. -/
def Ideal.create (i : Ideal α) (x : ℕ) (buf : ℕ → α) (r : ℕ → Ref) : Ideal α × Seen α :=
  if x < i.vars.length then
    ({ mem := Function.update i.mem i.next buf, next := i.next + 1, vars := i.vars.set x (some (r i.next)) }, .nothing)
  else (i, .raised)

/-- One statement. -/
def Ideal.step (i : Ideal α) : Op α → Ideal α × Seen α
  | .new x buf => i.create x buf Ref.obj
  | .assign x y =>
    match i.var y with
    | none => (i, .raised)
    | some r => i.bindTo x (some r)
  | .get x y a pos =>
    match i.var y with
    | some (.obj o) => i.bindTo x (some (.view o pos a.keep))
    | _ => (i, .raised)
  | .slice x y f =>
    match i.var y with
    | some (.view o pos k) => i.bindTo x (some (.view o (fun p => pos (f p)) k))
    | _ => (i, .raised)
  | .copy x y =>
    match i.var y with
    | some (.view o pos _) => i.create x (fun p => i.mem o (pos p)) fun o => .view o (fun p => p) true
    | _ => (i, .raised)
  | .read y p =>
    match i.var y with
    | some (.view o pos _) => (i, .value (i.mem o (pos p)))
    | _ => (i, .raised)
  | .write y p a =>
    match i.var y with
    | some (.view o pos _) =>
      ({ i with mem := fun o' q => if o' = o ∧ q = pos p then a else i.mem o' q }, .nothing)
    | _ => (i, .raised)
  | .call y f =>
    match i.var y with
    | some (.obj o) => ({ i with mem := fun o' => if o' = o then f (i.mem o) else i.mem o' }, .nothing)
    | _ => (i, .raised)
  | .del x =>
    match i.var x with
    | none => (i, .raised)
    | some _ => i.bindTo x none

/-- What the statements of a program show. -/
def Ideal.run : Ideal α → List (Op α) → List (Seen α)
  | _, [] => []
  | i, op :: ops => (i.step op).2 :: (i.step op).1.run ops

/-- A name refers to the object, or to an array that holds a reference to it. -/
def Held (vars : List (Option Ref)) (o : ℕ) : Prop :=
  some (Ref.obj o) ∈ vars ∨ ∃ pos, some (Ref.view o pos true) ∈ vars

/-- The object whose memory an array shows. -/
def viewOwner : Option Ref → Option ℕ
  | some (.view o _ _) => some o
  | _ => none

/-- The object whose memory a statement looks at through an array. -/
def Ideal.touched (i : Ideal α) : Op α → Option ℕ
  | .copy _ y | .read y _ | .write y _ _ => viewOwner (i.var y)
  | _ => none

/-- Every statement that looks at the memory of an object through an array does so while something holds the object. -/
def Ideal.Safe : Ideal α → List (Op α) → Prop
  | _, [] => True
  | i, op :: ops => (∀ o, i.touched op = some o → Held i.vars o) ∧ (i.step op).1.Safe ops

/-- A statement takes arrays only from accessors for which `ok` holds. -/
def Only (ok : Attr → Prop) : Op α → Prop
  | .get _ _ a _ => ok a
  | _ => True

/-- The name a statement rebinds. -/
def target : Op α → Option ℕ
  | .new x _ | .assign x _ | .get x _ _ _ | .slice x _ _ | .copy x _ | .del x => some x
  | _ => none

/-- A statement does not rebind the name `x`, and takes arrays that hold no reference only from the object named `x`. -/
def Guarded (x : ℕ) (op : Op α) : Prop :=
  target op ≠ some x ∧ ∀ x' y a pos, op = .get x' y a pos → a.keep = true ∨ y = x

/-! ### Blocks of a partition -/

/-- The rectangle of block row `i`: the rows after those of the previous blocks, and all the columns. -/
def IsBlockRow (rowDims colDims : List ℕ) (i : ℕ) (V : View) : Prop :=
  V.row = (rowDims.take i).sum ∧ rowDims[i]? = some V.rows ∧ V.col = 0 ∧ V.cols = colDims.sum

/-- The rectangle of block column `j`. -/
def IsBlockCol (rowDims colDims : List ℕ) (j : ℕ) (V : View) : Prop :=
  V.col = (colDims.take j).sum ∧ colDims[j]? = some V.cols ∧ V.row = 0 ∧ V.rows = rowDims.sum

/-- The rectangle of block `i, j`. -/
def IsBlock (rowDims colDims : List ℕ) (i j : ℕ) (V : View) : Prop :=
  V.row = (rowDims.take i).sum ∧ rowDims[i]? = some V.rows ∧ V.col = (colDims.take j).sum ∧ colDims[j]? = some V.cols

end Aligator.PyView.Spec
