import Mathlib.Logic.Function.Basic
import Mathlib.Data.Nat.Notation
import Mathlib.Data.List.Count

/-!
# Model: model classes written in Python

A cost (or function, or dynamics) class written in Python derives from an exposed C++ class; its instances are stored
in C++ objects through `xyz::polymorphic`.  Three kinds of heap objects take part:

* Python instances of the class: attribute dictionary, reference count, and a holder that either owns the C++ part or
  points to it (bindings/python/include/aligator/python/polymorphic.hpp:117-159);
* C++ parts, with the raw pointer `m_self` to a Python instance and the owning reference `copied_owner`
  (bindings/python/include/aligator/python/polymorphic.hpp:185-252);
* Python objects holding a C++ object with a `polymorphic` member, here called problems: `TrajOptProblem` with its
  terminal cost (bindings/python/src/expose-problem.cpp:29-84) or `StageModel` with its cost
  (bindings/python/src/expose-stage.cpp:52-101).

Simplifications.  One Python class; one kind of problem, with one `polymorphic` member and the operations of both C++
classes.  Python's own rules (reference counting, name binding), `copy.deepcopy` on instances with enabled pickling, and
Boost.Python's conversions are modelled after their documentation, they are not in the repository.  Attribute values
are plain data: destroying them has no effect.  Statements run one after another, there are no threads.
-/

namespace Aligator.PyObj

/-- The attribute dictionary `__dict__` of a Python instance. -/
abbrev Attrs (V : Type) := ℕ → Option V

/-- What the author of the Python class provides.  `init`: calling the class with arguments, which runs `__init__`,
gives attributes and the C++ part (or raises).  `args`: `__getinitargs__` of an instance.  `state`: the deep copy of the
instance's state with which a copy is updated (`__dict__`, or `__getstate__`).  The last two are used by
`copy.deepcopy`, which is possible because of `enable_pickling_`
(bindings/python/include/aligator/python/polymorphic.hpp:90-98); they see the attributes and the C++ part. -/
structure Class (V B G : Type) where
  init : G → Option (Attrs V × B)
  args : Attrs V → B → Option G
  state : Attrs V → B → Option (Attrs V)

variable {V B G : Type}

/-- `copy.deepcopy(owner)` (bindings/python/include/aligator/python/polymorphic.hpp:210-223): the class is called with
the arguments of `__getinitargs__`, then the state is restored over the attributes set by `__init__`.  The C++ part is
the one made by `__init__` (bindings/python/include/aligator/python/polymorphic.hpp:219-220). -/
def Class.deepcopy (K : Class V B G) (a : Attrs V) (b : B) : Option (Attrs V × B) := do
  let g ← K.args a b
  let (a₀, b₀) ← K.init g
  let a' ← K.state a b
  return (fun k => (a' k).or (a₀ k), b₀)

/-- The holder of an instance: `std::variant<Value, Value *> m_held`
(bindings/python/include/aligator/python/polymorphic.hpp:158). -/
inductive Held
  | own (w : ℕ)
  | ptr (w : ℕ)
  deriving DecidableEq

/-- `get_ptr` (bindings/python/include/aligator/python/polymorphic.hpp:123-128). -/
def Held.target : Held → ℕ
  | own w => w
  | ptr w => w

/-- A Python instance of the class. -/
structure Inst (V : Type) where
  attrs : Attrs V
  held : Held
  rc : ℕ

/-- The C++ part: content of the C++ base class, `m_self`, `copied_owner`
(bindings/python/include/aligator/python/polymorphic.hpp:161-184, :251). -/
structure Wrap (B : Type) where
  base : B
  self : ℕ
  owner : Option ℕ

/-- A Python object holding a C++ object whose `polymorphic` member contains the C++ part `slot`. -/
structure Box where
  slot : ℕ
  rc : ℕ

/-- What a Python name can refer to. -/
inductive Ref
  | obj (p : ℕ)
  | prob (c : ℕ)
  deriving DecidableEq

/-- The whole state.  `life`: the pairs (nurse, patient) registered by `return_internal_reference`, the default policy
of the getters of class-type members (bindings/python/src/expose-problem.cpp:51,
bindings/python/src/expose-stage.cpp:78-81): the patient is kept alive until the nurse is destroyed.  Numbers from `next`
on were never used. -/
structure State (V B : Type) where
  inst : ℕ → Option (Inst V)
  wrap : ℕ → Option (Wrap B)
  box : ℕ → Option Box
  life : List (ℕ × ℕ)
  vars : List (Option Ref)
  next : ℕ

/-- A program with `n` names, none bound. -/
def State.init (n : ℕ) : State V B :=
  ⟨fun _ => none, fun _ => none, fun _ => none, [], List.replicate n none, 0⟩

/-- Outcome: returns, raises a Python exception, undefined behaviour, or the recursion bound of the model was too small
(proved impossible). -/
inductive Out (V B α : Type)
  | ok (a : α) (s : State V B)
  | raise (s : State V B)
  | ub
  | fuel

def Out.bind {α β : Type} (r : Out V B α) (f : α → State V B → Out V B β) : Out V B β :=
  match r with
  | .ok a s => f a s
  | .raise s => .raise s
  | .ub => .ub
  | .fuel => .fuel

/-- A reference or a C++ part to be given up. -/
inductive Dead
  | wrap (w : ℕ)
  | ref (r : Ref)
  deriving DecidableEq

/-- Giving up references and C++ parts, one after another.  A C++ part releases `copied_owner`
(bindings/python/include/aligator/python/polymorphic.hpp:251).  An instance or a problem whose count drops to zero is
destroyed: an instance destroys what its holder owns and gives up its patients; a problem destroys its member. -/
def release : ℕ → State V B → List Dead → Out V B Unit
  | _, s, [] => .ok () s
  | 0, _, _ :: _ => .fuel
  | n + 1, s, .wrap w :: r =>
    match s.wrap w with
    | none => .ub
    | some W =>
      (release n { s with wrap := Function.update s.wrap w none } (W.owner.toList.map fun p => .ref (.obj p))).bind
        fun _ s' => release (n + 1) s' r
  | n + 1, s, .ref (.obj p) :: r =>
    match s.inst p with
    | none => .ub
    | some I =>
      if I.rc = 0 then .ub
      else if I.rc = 1 then
        (release n { s with inst := Function.update s.inst p none, life := s.life.filter fun e => e.1 ≠ p }
          ((match I.held with | .own w => [.wrap w] | .ptr _ => []) ++
            ((s.life.filter fun e => e.1 = p).map fun e => .ref (.prob e.2)))).bind
          fun _ s' => release (n + 1) s' r
      else release (n + 1) { s with inst := Function.update s.inst p (some { I with rc := I.rc - 1 }) } r
  | n + 1, s, .ref (.prob c) :: r =>
    match s.box c with
    | none => .ub
    | some X =>
      if X.rc = 0 then .ub
      else if X.rc = 1 then
        (release n { s with box := Function.update s.box c none } [.wrap X.slot]).bind
          fun _ s' => release (n + 1) s' r
      else release (n + 1) { s with box := Function.update s.box c (some { X with rc := X.rc - 1 }) } r
  termination_by n _ l => (n, l.length)

/-- A bound that suffices: each nested destruction ends the life of one more object. -/
def State.fuel (s : State V B) : ℕ := 3 * s.next + 1

/-- The C++ part seen through a Python instance; `none` if it no longer exists. -/
def State.part (s : State V B) (I : Inst V) : Option (Wrap B) := s.wrap I.held.target

/-- Copy constructor of a C++ part (bindings/python/include/aligator/python/polymorphic.hpp:191-194, :208-248), called by
`polymorphic`: the C++ content is copied, the Python owner is deep-copied, the copy's holder is redirected to the new C++
part, and the new part owns the copy.  The C++ part made by `__init__` of the copy is destroyed by the redirection
(bindings/python/include/aligator/python/polymorphic.hpp:244); its number is skipped. -/
def clone (K : Class V B G) (s : State V B) (w : ℕ) : Out V B ℕ :=
  match s.wrap w with
  | none => .ub
  | some W =>
    match s.inst W.self with
    | none => .ub
    | some I =>
      match s.part I with
      | none => .ub
      | some U =>
        match K.deepcopy I.attrs U.base with
        | none => .raise s
        | some (a, _) =>
          .ok s.next { s with
            wrap := Function.update s.wrap s.next (some ⟨W.base, s.next + 1, some (s.next + 1)⟩)
            inst := Function.update s.inst (s.next + 1) (some ⟨a, .ptr s.next, 1⟩)
            next := s.next + 3 }

/-- Further copies: a temporary is copied and destroyed, `n` times. -/
def clones (K : Class V B G) : ℕ → ℕ → State V B → Out V B ℕ
  | 0, t, s => .ok t s
  | n + 1, t, s =>
    match clone K s t with
    | .ok t' s' => (release s'.fuel s' [.wrap t]).bind fun _ s'' => clones K n t' s''
    | .raise s' => (release s'.fuel s' [.wrap t]).bind fun _ s'' => .raise s''
    | .ub => .ub
    | .fuel => .fuel

/-- Passing an object to C++ by value: the converter of `PolymorphicVisitor`
(bindings/python/include/aligator/python/polymorphic.hpp:77-88) copies the C++ part, the call makes `n` more copies
until one is stored. -/
def copies (K : Class V B G) (n : ℕ) (w : ℕ) (s : State V B) : Out V B ℕ :=
  (clone K s w).bind fun t s' => clones K n t s'

/-- Binding a name to a new reference, then giving up the old one. -/
def store (s : State V B) (x : ℕ) (r : Option Ref) : Out V B Unit :=
  release s.fuel { s with vars := s.vars.set x r } (((s.vars[x]?).join.toList).map .ref)

/-- The instance a name refers to. -/
def State.obj (s : State V B) (x : ℕ) : Option (ℕ × Inst V) :=
  match (s.vars[x]?).join with
  | some (.obj p) => (s.inst p).map fun I => (p, I)
  | _ => none

/-- The problem a name refers to. -/
def State.prob (s : State V B) (x : ℕ) : Option (ℕ × Box) :=
  match (s.vars[x]?).join with
  | some (.prob c) => (s.box c).map fun X => (c, X)
  | _ => none

/-- Statements of a Python program.  The last argument of `make`, `assign` and `copy` is the number of temporary copies
made on the way. -/
inductive Op (V B G : Type)
  /-- `x = Cls(*g)` -/
  | new (x : ℕ) (g : G)
  /-- `x = y` -/
  | bind (x y : ℕ)
  /-- `del x` -/
  | del (x : ℕ)
  /-- `x.k = v` -/
  | setAttr (x k : ℕ) (v : V)
  /-- `del x.k` -/
  | delAttr (x k : ℕ)
  /-- a call on `x` that changes the C++ part -/
  | setBase (x : ℕ) (b : B)
  /-- `x = copy.deepcopy(y)` -/
  | deepcopy (x y : ℕ)
  /-- `x = TrajOptProblem(…, y)`, `x = StageModel(y, …)` -/
  | make (x y n : ℕ)
  /-- `x.term_cost = y` -/
  | assign (x y n : ℕ)
  /-- `x = y.copy()` -/
  | copy (x y n : ℕ)
  /-- `x = y.term_cost`, `x = y.cost` -/
  | read (x y : ℕ)
  /-- a call of a Python method on `x`, which sees the attributes and the C++ part -/
  | look (x : ℕ)
  /-- the library evaluates the cost stored in `x`, which calls the Python override -/
  | solve (x : ℕ)

/-- Calling the class (bindings/python/include/aligator/python/polymorphic.hpp:131-136): a new instance whose holder
owns the C++ part. -/
def State.create (s : State V B) (a : Attrs V) (b : B) : State V B :=
  { s with
    inst := Function.update s.inst (s.next + 1) (some ⟨a, .own s.next, 1⟩)
    wrap := Function.update s.wrap s.next (some ⟨b, s.next + 1, none⟩)
    next := s.next + 2 }

/-- One statement; the answer is what an evaluation sees. -/
def step (K : Class V B G) (s : State V B) : Op V B G → Out V B (Option (Attrs V × B))
  | .new x g =>
    if x < s.vars.length then
      match K.init g with
      | none => .raise s
      | some (a, b) => (store (s.create a b) x (some (.obj (s.next + 1)))).bind fun _ s' => .ok none s'
    else .raise s
  | .bind x y =>
    if x < s.vars.length then
      match (s.vars[y]?).join with
      | none => .raise s
      | some (.obj p) =>
        match s.inst p with
        | none => .ub
        | some I =>
          (store { s with inst := Function.update s.inst p (some { I with rc := I.rc + 1 }) } x (some (.obj p))).bind
            fun _ s' => .ok none s'
      | some (.prob c) =>
        match s.box c with
        | none => .ub
        | some X =>
          (store { s with box := Function.update s.box c (some { X with rc := X.rc + 1 }) } x (some (.prob c))).bind
            fun _ s' => .ok none s'
    else .raise s
  | .del x =>
    match (s.vars[x]?).join with
    | none => .raise s
    | some _ => (store s x none).bind fun _ s' => .ok none s'
  | .setAttr x k v =>
    match s.obj x with
    | none => .raise s
    | some (p, I) =>
      .ok none { s with inst := Function.update s.inst p (some { I with attrs := Function.update I.attrs k (some v) }) }
  | .delAttr x k =>
    match s.obj x with
    | none => .raise s
    | some (p, I) =>
      match I.attrs k with
      | none => .raise s
      | some _ =>
        .ok none { s with inst := Function.update s.inst p (some { I with attrs := Function.update I.attrs k none }) }
  | .setBase x b =>
    match s.obj x with
    | none => .raise s
    | some (_, I) =>
      match s.part I with
      | none => .ub
      | some W => .ok none { s with wrap := Function.update s.wrap I.held.target (some { W with base := b }) }
  | .deepcopy x y =>
    if x < s.vars.length then
      match s.obj y with
      | none => .raise s
      | some (_, I) =>
        match s.part I with
        | none => .ub
        | some W =>
          match K.deepcopy I.attrs W.base with
          | none => .raise s
          | some (a, b) => (store (s.create a b) x (some (.obj (s.next + 1)))).bind fun _ s' => .ok none s'
    else .raise s
  | .make x y n =>
    if x < s.vars.length then
      match s.obj y with
      | none => .raise s
      | some (_, I) =>
        (copies K n I.held.target s).bind fun t s' =>
          (store { s' with box := Function.update s'.box s'.next (some ⟨t, 1⟩), next := s'.next + 1 } x
            (some (.prob s'.next))).bind fun _ s'' => .ok none s''
    else .raise s
  | .assign x y n =>
    match s.prob x with
    | none => .raise s
    | some (c, X) =>
      match s.obj y with
      | none => .raise s
      | some (_, I) =>
        (copies K n I.held.target s).bind fun t s' =>
          (release s'.fuel { s' with box := Function.update s'.box c (some { X with slot := t }) } [.wrap X.slot]).bind
            fun _ s'' => .ok none s''
  | .copy x y n =>
    if x < s.vars.length then
      match s.prob y with
      | none => .raise s
      | some (_, X) =>
        (copies K n X.slot s).bind fun t s' =>
          (store { s' with box := Function.update s'.box s'.next (some ⟨t, 1⟩), next := s'.next + 1 } x
            (some (.prob s'.next))).bind fun _ s'' => .ok none s''
    else .raise s
  | .read x y =>
    if x < s.vars.length then
      match s.prob y with
      | none => .raise s
      | some (c, X) =>
        match s.wrap X.slot with
        | none => .ub
        | some W =>
          match s.inst W.self with
          | none => .ub
          | some I =>
            (store { s with
              inst := Function.update s.inst W.self (some { I with rc := I.rc + 1 })
              box := Function.update s.box c (some { X with rc := X.rc + 1 })
              life := (W.self, c) :: s.life } x (some (.obj W.self))).bind fun _ s' => .ok none s'
    else .raise s
  | .look x =>
    match s.obj x with
    | none => .raise s
    | some (_, I) =>
      match s.part I with
      | none => .ub
      | some W => .ok (some (I.attrs, W.base)) s
  | .solve x =>
    match s.prob x with
    | none => .raise s
    | some (_, X) =>
      match s.wrap X.slot with
      | none => .ub
      | some W =>
        match s.inst W.self with
        | none => .ub
        | some I =>
          match s.part I with
          | none => .ub
          | some U => .ok (some (I.attrs, U.base)) s

/-- What one statement shows: nothing or what an evaluation saw, or an exception. -/
inductive Seen (V B : Type)
  | done (o : Option (Attrs V × B))
  | raised

/-- A program; `none` is undefined behaviour.  A statement that raises is followed by the next one (a caller that
catches every exception). -/
def run (K : Class V B G) : State V B → List (Op V B G) → Option (State V B × List (Seen V B))
  | s, [] => some (s, [])
  | s, op :: ops =>
    match step K s op with
    | .ok o s' => (run K s' ops).map fun r => (r.1, .done o :: r.2)
    | .raise s' => (run K s' ops).map fun r => (r.1, .raised :: r.2)
    | .ub => none
    | .fuel => none

end Aligator.PyObj
