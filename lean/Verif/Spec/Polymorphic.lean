import Verif.Model.Polymorphic

/-!
# Specification: models are values

A variable holds a tree, or nothing (moved from), or is not in its lifetime.  Copying duplicates the tree, moving
transfers it; there is no memory and nothing is shared.  Only the language of statements (`Op`) is taken from the model.
-/

namespace Aligator.Poly.Spec

/-- A model object as a value: payload and members, some of which may be valueless. -/
inductive Tree (V : Type)
  | node (v : V) (kids : List (Option (Tree V)))

variable {V : Type}

def Tree.val : Tree V → V
  | .node v _ => v

def Tree.kids : Tree V → List (Option (Tree V))
  | .node _ ks => ks

/-- The member at a path; `none` if there is none or one on the way is valueless. -/
def sub : Option (Tree V) → List ℕ → Option (Tree V)
  | none, _ => none
  | some t, [] => some t
  | some t, i :: r => sub (t.kids[i]?).join r

/-- Replace the member at a path. -/
def replace : Option (Tree V) → List ℕ → Tree V → Option (Tree V)
  | none, _, _ => none
  | some _, [], n => some n
  | some t, i :: r, n => some (.node t.val (t.kids.set i (replace (t.kids[i]?).join r n)))

/-- Values of the variables: `none` not alive, `some none` valueless. -/
abbrev Store (V : Type) := ℕ → Option (Option (Tree V))

def Store.set (σ : Store V) (x : ℕ) (v : Option (Option (Tree V))) : Store V := fun z => if z = x then v else σ z

/-- The variables `ys`, if all are alive. -/
def Store.all (σ : Store V) (ys : List ℕ) : Option (List (Option (Tree V))) := ys.mapM fun y => σ y

/-- The meaning of a statement that does not throw; `none`: the statement is not allowed. -/
def apply (σ : Store V) : Op V → Option (Store V)
  | .make x v ys _ =>
    match σ x, σ.all ys with
    | none, some ks => some (σ.set x (some (some (.node v ks))))
    | _, _ => none
  | .copy x y _ =>
    match σ x, σ y with
    | none, some t => some (σ.set x (some t))
    | _, _ => none
  | .move x y =>
    match σ x, σ y with
    | none, some t => some ((σ.set x (some t)).set y (some none))
    | _, _ => none
  | .assign x y _ =>
    match σ x, σ y with
    | some _, some t => some (σ.set x (some t))
    | _, _ => none
  | .moveAssign x y =>
    match σ x, σ y with
    | some _, some t => some (if x = y then σ else (σ.set x (some t)).set y (some none))
    | _, _ => none
  | .swap x y =>
    match σ x, σ y with
    | some t, some t' => some ((σ.set x (some t')).set y (some t))
    | _, _ => none
  | .destroy x =>
    match σ x with
    | some _ => some (σ.set x none)
    | none => none
  | .write x path v =>
    match σ x with
    | some t =>
      match sub t path with
      | some n => some (σ.set x (some (replace t path (.node v n.kids))))
      | none => none
    | none => none
  | .assignAt x path i y _ =>
    match σ x, σ y with
    | some t, some t' =>
      match sub t path with
      | some n =>
        if i < n.kids.length then some (σ.set x (some (replace t path (.node n.val (n.kids.set i t'))))) else none
      | none => none
    | _, _ => none
  | .pushAt x path y _ =>
    match σ x, σ y with
    | some t, some t' =>
      match sub t path with
      | some n => some (σ.set x (some (replace t path (.node n.val (n.kids ++ [t'])))))
      | none => none
    | _, _ => none
  | .takeAt x y path i =>
    match σ x, σ y with
    | some _, some t' =>
      match sub t' path with
      | some n =>
        match n.kids[i]? with
        | some none => some (σ.set x (some none))
        | some (some k) =>
          if x = y then none
          else some ((σ.set y (some (replace t' path (.node n.val (n.kids.set i none))))).set x (some (some k)))
        | none => none
      | none => none
    | _, _ => none

/-- Statements that copy, and so may throw: their quota. -/
def quota : Op V → Option ℕ
  | .make _ _ _ q => q
  | .copy _ _ q => q
  | .assign _ _ q => q
  | .assignAt _ _ _ _ q => q
  | .pushAt _ _ _ q => q
  | _ => none

/-- A program: the statements flagged as throwing have no effect. -/
def applyAll : Store V → List (Op V) → List Bool → Option (Store V)
  | σ, [], [] => some σ
  | σ, op :: ops, false :: fl => (apply σ op).bind fun σ' => applyAll σ' ops fl
  | σ, op :: ops, true :: fl => if (apply σ op).isSome then applyAll σ ops fl else none
  | _, _, _ => none

/-- The variables a statement may change; all others are only read, or not used at all. -/
def changes : Op V → List ℕ
  | .make x _ _ _ => [x]
  | .copy x _ _ => [x]
  | .move x y => [x, y]
  | .assign x _ _ => [x]
  | .moveAssign x y => [x, y]
  | .swap x y => [x, y]
  | .destroy x => [x]
  | .write x _ _ => [x]
  | .assignAt x _ _ _ _ => [x]
  | .pushAt x _ _ _ => [x]
  | .takeAt x y _ _ => [x, y]

/-- What is read in the plain members of the object at a path. -/
def Store.read (σ : Store V) (x : ℕ) (path : List ℕ) : Option V := (sub (σ x).join path).map Tree.val

end Aligator.Poly.Spec
