import Mathlib.Logic.Function.Basic
import Mathlib.Data.Nat.Notation

/-!
# Model: ownership of model objects

The objects that make up a problem (problem, stages, costs, dynamics, functions, sets, manifolds) hold one another
through `xyz::polymorphic` members, singly or in vectors and maps.  Memory is a partial map from addresses to control
blocks.  An object is a payload — its dynamic type and its plain members, of an arbitrary type `V` — together with the
control-block pointers of its `polymorphic` members in order.  The allocator is the default one everywhere in the
library: stateless, all instances equal, not propagated; the branches for unequal allocators are not modelled.
Copying an object may throw (allocation failure, or an exception from a member's copy constructor): an operation that
copies carries a `Quota` that says how many of its copying steps succeed.  Moving never throws.
-/

namespace Aligator.Poly

/-- A `polymorphic`: its control-block pointer (third-party/polymorphic_cxx14.h:172); `none` is the null pointer
(valueless after move, third-party/polymorphic_cxx14.h:437-439). -/
abbrev Ptr := Option ℕ

/-- An object in a control block (third-party/polymorphic_cxx14.h:117-125): payload and owned `polymorphic` members. -/
structure Obj (V : Type) where
  val : V
  kids : List Ptr

/-- A memory cell: unallocated; allocated without a living object (under construction or destruction); an object. -/
inductive Cell (V : Type)
  | free
  | raw
  | live (o : Obj V)

/-- Memory: cells, and an address such that it and the following ones were never used. -/
structure Heap (V : Type) where
  cell : ℕ → Cell V
  next : ℕ

variable {V : Type}

def Heap.put (h : Heap V) (a : ℕ) (c : Cell V) : Heap V := { h with cell := Function.update h.cell a c }

/-- `allocate` (third-party/polymorphic_cxx14.h:142, :182): a new control block, no object in it yet. -/
def Heap.alloc (h : Heap V) : Heap V := ⟨Function.update h.cell h.next .raw, h.next + 1⟩

/-- How many copying steps still succeed; `none`: all of them. -/
abbrev Quota := Option ℕ

/-- One copying step: `none` when it throws. -/
def Quota.tick : Quota → Option Quota
  | none => some none
  | some 0 => none
  | some (k + 1) => some (some k)

/-- Outcome of a piece of code: it returns, throws, has undefined behaviour, or the recursion bound of the model was
too small (proved impossible). -/
inductive Out (V α : Type)
  | ok (a : α) (h : Heap V) (q : Quota)
  | throw (h : Heap V)
  | ub
  | fuel

/-- Destructors of a list of `polymorphic`s: `reset` (third-party/polymorphic_cxx14.h:357, :466-471) calls `destroy`
(third-party/polymorphic_cxx14.h:165-169), which ends the object's life, destroys its members, then frees the block.
Destroying what is not a living object is undefined behaviour. -/
def destroyList : ℕ → Heap V → List Ptr → Out V Unit
  | _, h, [] => .ok () h none
  | n, h, none :: ps => destroyList n h ps
  | 0, _, some _ :: _ => .fuel
  | n + 1, h, some a :: ps =>
    match h.cell a with
    | .live o =>
      match destroyList n (h.put a .raw) o.kids with
      | .ok _ h' _ => destroyList (n + 1) (h'.put a .free) ps
      | .throw h' => .throw h'
      | .ub => .ub
      | .fuel => .fuel
    | _ => .ub
  termination_by n _ ps => (n, ps.length)

/-- When a constructor throws, the members already built are destroyed and the exception goes on. -/
def unwind (n : ℕ) (h : Heap V) (ps : List Ptr) : Out V (List Ptr) :=
  match destroyList n h ps with
  | .ok _ h' _ => .throw h'
  | .throw h' => .throw h'
  | .ub => .ub
  | .fuel => .fuel

/-- Copy constructors of a list of `polymorphic`s, in order (third-party/polymorphic_cxx14.h:317-330): a null pointer
is copied as null, otherwise `clone` (third-party/polymorphic_cxx14.h:140-150) allocates a block, copies the members
that precede the `polymorphic` ones (may throw), copies the `polymorphic` members, copies the other members (may
throw), and on an exception destroys what was built and frees the block. -/
def cloneList : ℕ → Quota → Heap V → List Ptr → Out V (List Ptr)
  | _, q, h, [] => .ok [] h q
  | n, q, h, none :: ps =>
    match cloneList n q h ps with
    | .ok qs h' q' => .ok (none :: qs) h' q'
    | r => r
  | 0, _, _, some _ :: _ => .fuel
  | n + 1, q, h, some a :: ps =>
    match h.cell a with
    | .live o =>
      let m := h.next
      match q.tick with
      | none => .throw (h.alloc.put m .free)
      | some q₁ =>
        match cloneList n q₁ h.alloc o.kids with
        | .ok ks h₂ q₂ =>
          match q₂.tick with
          | none =>
            match unwind n h₂ ks with
            | .throw h' => .throw (h'.put m .free)
            | r => r
          | some q₃ =>
            match cloneList (n + 1) q₃ (h₂.put m (.live ⟨o.val, ks⟩)) ps with
            | .ok qs h₃ q₄ => .ok (some m :: qs) h₃ q₄
            | .throw h₃ => unwind (n + 1) h₃ [some m]
            | r => r
        | .throw h₂ => .throw (h₂.put m .free)
        | r => r
    | _ => .ub
  termination_by n _ _ ps => (n, ps.length)

/-- The client's program: variables (`none`: not in its lifetime) and memory. -/
structure State (V : Type) where
  heap : Heap V
  var : ℕ → Option Ptr

def State.setVar (s : State V) (h : Heap V) (x : ℕ) (p : Option Ptr) : State V :=
  ⟨h, Function.update s.var x p⟩

/-- `operator->` and `operator*` along a path of members (third-party/polymorphic_cxx14.h:417-435): `none` when a
null pointer is dereferenced (the assertion), or the member does not exist. -/
def nav (c : ℕ → Cell V) : Ptr → List ℕ → Option (ℕ × Obj V)
  | none, _ => none
  | some a, [] =>
    match c a with
    | .live o => some (a, o)
    | _ => none
  | some a, i :: r =>
    match c a with
    | .live o =>
      match o.kids[i]? with
      | some p => nav c p r
      | none => none
    | _ => none

/-- The operations of client code.  Variables are named by numbers, members by paths of member indices. -/
inductive Op (V : Type)
  /-- construct variable `x` from a new object of payload `v` whose constructor copies the variables `ys` into its
  `polymorphic` members (`polymorphic(U&&)`, third-party/polymorphic_cxx14.h:295-315 with :176-191) -/
  | make (x : ℕ) (v : V) (ys : List ℕ) (q : Quota)
  /-- copy constructor of `x` from `y` -/
  | copy (x y : ℕ) (q : Quota)
  /-- move constructor of `x` from `y` -/
  | move (x y : ℕ)
  /-- `x = y` -/
  | assign (x y : ℕ) (q : Quota)
  /-- `x = std::move(y)` -/
  | moveAssign (x y : ℕ)
  /-- `swap(x, y)` -/
  | swap (x y : ℕ)
  /-- end of the lifetime of `x` -/
  | destroy (x : ℕ)
  /-- change of the plain members of `*x->…` to `v` -/
  | write (x : ℕ) (path : List ℕ) (v : V)
  /-- `x->….member_i = y` -/
  | assignAt (x : ℕ) (path : List ℕ) (i : ℕ) (y : ℕ) (q : Quota)
  /-- `x->….members.push_back(y)` -/
  | pushAt (x : ℕ) (path : List ℕ) (y : ℕ) (q : Quota)
  /-- `x = std::move(y->….member_i)` -/
  | takeAt (x y : ℕ) (path : List ℕ) (i : ℕ)

/-- Outcome of a statement of client code. -/
inductive Done (V : Type)
  | ok (s : State V)
  | thrown (s : State V)
  | ub
  | fuel

/-- Copy the `polymorphic`s `ps`, then go on with the copies; when copying throws the variables are as before. -/
def withCopy (s : State V) (q : Quota) (ps : List Ptr) (k : Heap V → List Ptr → Done V) : Done V :=
  match cloneList s.heap.next q s.heap ps with
  | .ok qs h _ => k h qs
  | .throw h => .thrown ⟨h, s.var⟩
  | .ub => .ub
  | .fuel => .fuel

/-- Destroy what `p` owns, then go on. -/
def withReset (h : Heap V) (p : Ptr) (k : Heap V → Done V) : Done V :=
  match destroyList h.next h [p] with
  | .ok _ h' _ => k h'
  | .throw _ => .ub
  | .ub => .ub
  | .fuel => .fuel

/-- The variables `ys`, if all are alive. -/
def State.vars (s : State V) : List ℕ → Option (List Ptr)
  | [] => some []
  | y :: ys =>
    match s.var y, s.vars ys with
    | some p, some ps => some (p :: ps)
    | _, _ => none

/-- `create_control_block` (third-party/polymorphic_cxx14.h:176-191) with a constructor of `U` that copies `ps` into its
members.  Simplified: `U`'s constructor builds the object in place (the temporary of `polymorphic(U&&)` is not
represented). -/
def make (s : State V) (x : ℕ) (v : V) (ps : List Ptr) (q : Quota) : Done V :=
  let m := s.heap.next
  match q.tick with
  | none => .thrown ⟨s.heap.alloc.put m .free, s.var⟩
  | some q₁ =>
    match cloneList (s.heap.next * ps.length) q₁ s.heap.alloc ps with
    | .ok ks h₂ _ => .ok (s.setVar (h₂.put m (.live ⟨v, ks⟩)) x (some (some m)))
    | .throw h₂ => .thrown ⟨h₂.put m .free, s.var⟩
    | .ub => .ub
    | .fuel => .fuel

/-- One statement.  Using a variable outside its lifetime, or constructing one that is alive, is `ub` too (no such C++
program compiles). -/
def step (s : State V) : Op V → Done V
  | .make x v ys q =>
    match s.var x, s.vars ys with
    | none, some ps => make s x v ps q
    | _, _ => .ub
  | .copy x y q => -- third-party/polymorphic_cxx14.h:317-330
    match s.var x, s.var y with
    | none, some p =>
      withCopy s q [p] fun h qs =>
        match qs with
        | [p'] => .ok (s.setVar h x (some p'))
        | _ => .ub
    | _, _ => .ub
  | .move x y => -- third-party/polymorphic_cxx14.h:332-355
    match s.var x, s.var y with
    | none, some p => .ok ((s.setVar s.heap x (some p)).setVar s.heap y (some none))
    | _, _ => .ub
  | .assign x y q => -- third-party/polymorphic_cxx14.h:359-382
    match s.var x, s.var y with
    | some p, some p' =>
      if x = y then .ok s
      else match p' with
        | none => withReset s.heap p fun h => .ok (s.setVar h x (some none))
        | some b =>
          withCopy s q [some b] fun h qs =>
            match qs with
            | [t] => withReset h p fun h' => .ok (s.setVar h' x (some t))
            | _ => .ub
    | _, _ => .ub
  | .moveAssign x y => -- third-party/polymorphic_cxx14.h:384-415
    match s.var x, s.var y with
    | some p, some p' =>
      if x = y then .ok s
      else match p' with
        | none => withReset s.heap p fun h => .ok (s.setVar h x (some none))
        | some b =>
          withReset s.heap p fun h => .ok ((s.setVar h x (some (some b))).setVar h y (some none))
    | _, _ => .ub
  | .swap x y => -- third-party/polymorphic_cxx14.h:443-463
    match s.var x, s.var y with
    | some p, some p' => .ok ((s.setVar s.heap x (some p')).setVar s.heap y (some p))
    | _, _ => .ub
  | .destroy x => -- third-party/polymorphic_cxx14.h:357
    match s.var x with
    | some p => withReset s.heap p fun h => .ok (s.setVar h x none)
    | none => .ub
  | .write x path v =>
    match s.var x with
    | some p =>
      match nav s.heap.cell p path with
      | some (a, o) => .ok ⟨s.heap.put a (.live { o with val := v }), s.var⟩
      | none => .ub
    | none => .ub
  | .assignAt x path i y q => -- third-party/polymorphic_cxx14.h:359-382; `this` is a member, `other` a variable
    match s.var x, s.var y with
    | some p, some p' =>
      match nav s.heap.cell p path with
      | some (a, o) =>
        match o.kids[i]? with
        | some k =>
          withCopy s q [p'] fun h qs =>
            match qs with
            | [t] => withReset h k fun h' => .ok ⟨h'.put a (.live { o with kids := o.kids.set i t }), s.var⟩
            | _ => .ub
        | none => .ub
      | none => .ub
    | _, _ => .ub
  | .pushAt x path y q => -- core/traj-opt-problem.hxx:125-129, core/constraint.hpp:40-48
    match s.var x, s.var y with
    | some p, some p' =>
      match nav s.heap.cell p path with
      | some (a, o) =>
        withCopy s q [p'] fun h qs => .ok ⟨h.put a (.live { o with kids := o.kids ++ qs }), s.var⟩
      | none => .ub
    | _, _ => .ub
  | .takeAt x y path i => -- third-party/polymorphic_cxx14.h:384-415; `other` is a member
    match s.var x, s.var y with
    | some p, some p' =>
      match nav s.heap.cell p' path with
      | some (a, o) =>
        match o.kids[i]? with
        | some none => withReset s.heap p fun h => .ok (s.setVar h x (some none))
        | some (some b) =>
          -- the pointers are swapped, then the member, which now owns what `x` owned, is reset
          let h₁ := s.heap.put a (.live { o with kids := o.kids.set i p })
          match destroyList h₁.next h₁ [p] with
          | .ok _ h₂ _ =>
            match h₂.cell a with
            | .live o' => .ok (s.setVar (h₂.put a (.live { o' with kids := o'.kids.set i none })) x (some (some b)))
            | _ => .ub
          | _ => .ub
        | none => .ub
      | none => .ub
    | _, _ => .ub

/-- A program: exceptions are caught by the client after each statement.  The flags say which statements threw. -/
def run : State V → List (Op V) → Option (State V × List Bool)
  | s, [] => some (s, [])
  | s, op :: ops =>
    match step s op with
    | .ok s' =>
      match run s' ops with
      | some (t, fl) => some (t, false :: fl)
      | none => none
    | .thrown s' =>
      match run s' ops with
      | some (t, fl) => some (t, true :: fl)
      | none => none
    | _ => none

/-- No variable, empty memory. -/
def State.init : State V := ⟨⟨fun _ => .free, 0⟩, fun _ => none⟩

/-- What client code reads in the plain members of `*x->…`. -/
def State.read (s : State V) (x : ℕ) (path : List ℕ) : Option V :=
  match s.var x with
  | some p => (nav s.heap.cell p path).map fun r => r.2.val
  | none => none

/-! ## Arguments that refer into the container -/

/-- A `std::vector`: contents, capacity, and an identifier of its buffer. -/
structure Vec (α : Type) where
  data : List α
  cap : ℕ
  buf : ℕ

/-- A `const T &`: an object outside, or element `i` of the vector's buffer `b`. -/
inductive Ref (α : Type)
  | outside (a : α)
  | elem (b i : ℕ)

/-- Reading through the reference; `none`: the buffer it refers to is gone. -/
def Ref.get {α : Type} (w : Vec α) : Ref α → Option α
  | .outside a => some a
  | .elem b i => if b = w.buf then w.data[i]? else none

/-- `emplace_back` copies the argument before it moves the elements into a larger buffer (required of
`std::vector`). -/
def Vec.push {α : Type} (w : Vec α) (r : Ref α) : Option (Vec α) :=
  match r.get w with
  | none => none
  | some a =>
    if w.data.length < w.cap then some { w with data := w.data ++ [a] }
    else some ⟨w.data ++ [a], 2 * w.cap + 1, w.buf + 1⟩

/-- `ConstraintStackTpl` (core/constraint.hpp:66-72): functions (only their dimension `nr` matters here) and sets. -/
structure Stack (S : Type) where
  funcs : Vec ℕ
  sets : Vec S
  indices : List ℕ
  dims : List ℕ
  total : ℕ

/-- `ConstraintStackTpl::pushBack` (core/constraint.hpp:40-48) with `addDim` (core/constraint.hpp:75-80): the function is
read again, through the reference, after the vector has grown. -/
def Stack.pushBack {S : Type} (w : Stack S) (f : Ref ℕ) (c : Ref S) : Option (Stack S) :=
  match w.funcs.push f, w.sets.push c with
  | some fs, some cs =>
    match f.get fs with
    | some nr => some ⟨fs, cs, w.indices ++ [w.indices.getLastD 0 + nr], w.dims ++ [nr], w.total + nr⟩
    | none => none
  | _, _ => none

/-- `ConstraintStackTpl::pushBack` (core/constraint.hpp:40-48) when copying the set throws: the function has been
added, the set and the dimension have not. -/
def Stack.pushBackThrow {S : Type} (w : Stack S) (f : Ref ℕ) : Option (Stack S) :=
  match w.funcs.push f with
  | some fs => some { w with funcs := fs }
  | none => none

/-- `TrajOptProblemTpl::addStage` (core/traj-opt-problem.hxx:125-129). -/
def addStage {S : Type} (w : Vec S) (r : Ref S) : Option (Vec S) := w.push r

end Aligator.Poly
