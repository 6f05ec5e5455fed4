import Verif.Model.PyObj

/-!
# Specification: what a Python program means

Names refer to objects and problems.  An object has attributes and a C++ part.  Every problem has an object of its own:
storing an object in a problem copies it, reading it back gives that very object.  Nothing is ever destroyed.  An object
whose problem got another one is stale: its attributes are still there, its C++ part is not.  New objects and problems
get arbitrary unused numbers.
-/

namespace Aligator.PyObj.Spec

variable {V B G : Type}

structure SObj (V B : Type) where
  attrs : Attrs V
  base : B
  stale : Bool

/-- A problem: its object, and whether that object was read back. -/
structure SProb where
  obj : ℕ
  seen : Bool

structure Store (V B : Type) where
  obj : ℕ → Option (SObj V B)
  prob : ℕ → Option SProb
  vars : List (Option Ref)

def Store.init (n : ℕ) : Store V B := ⟨fun _ => none, fun _ => none, List.replicate n none⟩

/-- What copying does.  `stored n`: the attributes of the object that a problem gets after `n` temporary copies (the C++
part is always copied as it is).  `deep`: attributes and C++ part of `copy.deepcopy`.  `none`: raises. -/
structure Copying (V B : Type) where
  stored : ℕ → Attrs V → B → Option (Attrs V)
  deep : Attrs V → B → Option (Attrs V × B)

/-- The ideal: copies are equal to the original. -/
def Copying.ideal : Copying V B := ⟨fun _ a _ => some a, fun a b => some (a, b)⟩

/-- `n + 1` deep copies one after another, each with the C++ part of the original. -/
def storedBy (K : Class V B G) : ℕ → Attrs V → B → Option (Attrs V)
  | 0, a, b => (K.deepcopy a b).map Prod.fst
  | n + 1, a, b => (K.deepcopy a b).bind fun r => storedBy K n r.1 b

/-- What the class makes of it. -/
def Copying.ofClass (K : Class V B G) : Copying V B := ⟨storedBy K, K.deepcopy⟩

inductive SOut (V B : Type)
  | ok (o : Option (Attrs V × B)) (σ : Store V B)
  | raise
  /-- the C++ part of a stale object is used -/
  | stale

def Store.name (σ : Store V B) (x : ℕ) : Option Ref := (σ.vars[x]?).join

/-- The object that a name refers to. -/
def Store.theObj (σ : Store V B) (x : ℕ) : Option (ℕ × SObj V B) :=
  match σ.name x with
  | some (.obj p) => (σ.obj p).map fun o => (p, o)
  | _ => none

/-- The problem that a name refers to, with its object. -/
def Store.theProb (σ : Store V B) (x : ℕ) : Option (ℕ × SProb × SObj V B) :=
  match σ.name x with
  | some (.prob c) => (σ.prob c).bind fun q => (σ.obj q.obj).map fun o => (c, q, o)
  | _ => none

/-- One statement; `k` and `c` number the new object and the new problem, if any. -/
def apply (C : Copying V B) (init : G → Option (Attrs V × B)) (σ : Store V B) (k c : ℕ) : Op V B G → SOut V B
  | .new x g =>
    if x < σ.vars.length then
      match init g with
      | none => .raise
      | some (a, b) => .ok none ⟨Function.update σ.obj k (some ⟨a, b, false⟩), σ.prob, σ.vars.set x (some (.obj k))⟩
    else .raise
  | .bind x y =>
    if x < σ.vars.length then
      match σ.name y with
      | none => .raise
      | some r => .ok none { σ with vars := σ.vars.set x (some r) }
    else .raise
  | .del x =>
    match σ.name x with
    | none => .raise
    | some _ => .ok none { σ with vars := σ.vars.set x none }
  | .setAttr x i v =>
    match σ.theObj x with
    | none => .raise
    | some (p, o) => .ok none
        { σ with obj := Function.update σ.obj p (some { o with attrs := Function.update o.attrs i (some v) }) }
  | .delAttr x i =>
    match σ.theObj x with
    | none => .raise
    | some (p, o) =>
      match o.attrs i with
      | none => .raise
      | some _ => .ok none
          { σ with obj := Function.update σ.obj p (some { o with attrs := Function.update o.attrs i none }) }
  | .setBase x b =>
    match σ.theObj x with
    | none => .raise
    | some (p, o) =>
      if o.stale then .stale else .ok none { σ with obj := Function.update σ.obj p (some { o with base := b }) }
  | .deepcopy x y =>
    if x < σ.vars.length then
      match σ.theObj y with
      | none => .raise
      | some (_, o) =>
        if o.stale then .stale
        else
          match C.deep o.attrs o.base with
          | none => .raise
          | some (a, b) =>
            .ok none ⟨Function.update σ.obj k (some ⟨a, b, false⟩), σ.prob, σ.vars.set x (some (.obj k))⟩
    else .raise
  | .make x y n =>
    if x < σ.vars.length then
      match σ.theObj y with
      | none => .raise
      | some (_, o) =>
        if o.stale then .stale
        else
          match C.stored n o.attrs o.base with
          | none => .raise
          | some a => .ok none ⟨Function.update σ.obj k (some ⟨a, o.base, false⟩),
              Function.update σ.prob c (some ⟨k, false⟩), σ.vars.set x (some (.prob c))⟩
    else .raise
  | .assign x y n =>
    match σ.theProb x with
    | none => .raise
    | some (d, q, old) =>
      match σ.theObj y with
      | none => .raise
      | some (_, o) =>
        if o.stale then .stale
        else
          match C.stored n o.attrs o.base with
          | none => .raise
          | some a => .ok none { σ with
              obj := Function.update (Function.update σ.obj q.obj (some { old with stale := true })) k
                (some ⟨a, o.base, false⟩)
              prob := Function.update σ.prob d (some ⟨k, false⟩) }
  | .copy x y n =>
    if x < σ.vars.length then
      match σ.theProb y with
      | none => .raise
      | some (_, _, o) =>
        match C.stored n o.attrs o.base with
        | none => .raise
        | some a => .ok none ⟨Function.update σ.obj k (some ⟨a, o.base, false⟩),
            Function.update σ.prob c (some ⟨k, false⟩), σ.vars.set x (some (.prob c))⟩
    else .raise
  | .read x y =>
    if x < σ.vars.length then
      match σ.theProb y with
      | none => .raise
      | some (d, q, _) => .ok none
          { σ with prob := Function.update σ.prob d (some { q with seen := true }), vars := σ.vars.set x (some (.obj q.obj)) }
    else .raise
  | .look x =>
    match σ.theObj x with
    | none => .raise
    | some (_, o) => if o.stale then .stale else .ok (some (o.attrs, o.base)) σ
  | .solve x =>
    match σ.theProb x with
    | none => .raise
    | some (_, _, o) => .ok (some (o.attrs, o.base)) σ

/-- A program runs and shows `obs`: each statement uses some unused numbers. -/
inductive Runs (C : Copying V B) (init : G → Option (Attrs V × B)) :
    Store V B → List (Op V B G) → Store V B → List (Seen V B) → Prop
  | nil (σ : Store V B) : Runs C init σ [] σ []
  | ok {σ σ₁ σ₂ : Store V B} {op : Op V B G} {ops : List (Op V B G)} {obs : List (Seen V B)}
      {o : Option (Attrs V × B)} (k c : ℕ) (hk : σ.obj k = none) (hc : σ.prob c = none)
      (h : apply C init σ k c op = .ok o σ₁) (t : Runs C init σ₁ ops σ₂ obs) :
      Runs C init σ (op :: ops) σ₂ (.done o :: obs)
  | raised {σ σ₂ : Store V B} {op : Op V B G} {ops : List (Op V B G)} {obs : List (Seen V B)}
      (h : ∀ k c, apply C init σ k c op = .raise) (t : Runs C init σ ops σ₂ obs) :
      Runs C init σ (op :: ops) σ₂ (.raised :: obs)

/-- The next statement uses the C++ part of a stale object. -/
def UsesStale (C : Copying V B) (init : G → Option (Attrs V × B)) (σ : Store V B) (op : Op V B G) : Prop :=
  ∀ k c, apply C init σ k c op = .stale

/-- The class makes faithful copies: from an instance that has all the attributes `A` that `__init__` sets, the copy is
made, `__init__` sets exactly these attributes, and the state restores all of them. -/
structure Faithful (K : Class V B G) (A : ℕ → Prop) : Prop where
  keys : ∀ g a b, K.init g = some (a, b) → ∀ i, (a i).isSome ↔ A i
  args : ∀ a b, (∀ i, A i → (a i).isSome) → ∃ g r, K.args a b = some g ∧ K.init g = some r
  state : ∀ a b, K.state a b = some a

/-- Calling the class with the arguments of `__getinitargs__` gives the same C++ part. -/
def Rebuilds (K : Class V B G) : Prop :=
  ∀ a b g r, K.args a b = some g → K.init g = some r → r.2 = b

/-- Statements that keep the attributes set by `__init__`; `copy.deepcopy` only if the class rebuilds its C++ part. -/
def Plain (K : Class V B G) (op : Op V B G) : Prop :=
  (∀ x k, op ≠ .delAttr x k) ∧ ((∃ x y, op = .deepcopy x y) → Rebuilds K)

end Aligator.PyObj.Spec
