import Verif.Model.Cycle

/-!
# Model: the problem object

`core/traj-opt-problem.hpp`, `core/traj-opt-problem.hxx`: construction, copies, moves, the initial state and its cached
kind, stages, terminal cost and constraints.  The initial state lives in a heap cell (`target_` of the initial
condition), so that references to it can be followed.  Simplifications: addresses are never used again; arguments do not
refer to the problem they are passed to; of the functions only the dimensions are kept; a terminal constraint added to a
problem moved from is simply stored.
-/

namespace Aligator.PObj

variable {K : Type}

/-- A manifold (core/manifold-base.hpp), what is needed of it. -/
structure Space (K : Type) where
  nx : ℕ
  ndx : ℕ
  neutral : List K
  isNormalized : List K → Bool

/-- A stage model (core/stage-model.hpp:80-96), what is needed of it; `nu` is the dimension of its control space, `nc` the
total dimension of its constraints. -/
structure Stage (K : Type) where
  xspace : Space K
  nu : ℕ
  next : Space K
  nc : ℕ

/-- A terminal cost. -/
structure TermCost where
  nx : ℕ
  ndx : ℕ
  nu : ℕ

/-- A terminal constraint: control and output dimension of its function. -/
structure TermFun where
  nu : ℕ
  nr : ℕ

/-- An initial condition held by a problem: a `StateErrorResidual` (modelling/state-error.hpp:29-38) whose `target_` is the
cell `target`, or another function. -/
inductive Init (K : Type)
  | stateError (sp : Space K) (nu target : ℕ)
  | other (ndx1 nr : ℕ)

/-- `ndx1`: of a `StateErrorResidual` that of its space (modelling/state-error.hpp:34). -/
def Init.ndx1 : Init K → ℕ
  | .stateError sp _ _ => sp.ndx
  | .other n _ => n

/-- `nr` (modelling/state-error.hpp:34). -/
def Init.nr : Init K → ℕ
  | .stateError sp _ _ => sp.ndx
  | .other _ n => n

/-- `TrajOptProblemTpl` (core/traj-opt-problem.hpp:119-128, :278); `none`: a polymorphic value after a move.  `unone` is the
length of `unone_`. -/
structure Prob (K : Type) where
  init : Option (Init K)
  stages : List (Option (Stage K))
  term : Option TermCost
  cstrs : List TermFun
  unone : ℕ
  cached : Bool

/-- Heap and problems (by name). -/
structure World (K : Type) where
  next : ℕ
  cell : ℕ → Option (List K)
  obj : ℕ → Option (Prob K)

/-- An initial condition passed by value. -/
inductive InitArg (K : Type)
  | stateError (sp : Space K) (nu : ℕ) (x0 : List K)
  | other (ndx1 nr : ℕ)
  | valueless

/-- A reference to a vector (`ConstVectorRef`). -/
structure View where
  addr : ℕ
  len : ℕ

/-- Reading a reference; `none`: it dangles. -/
def View.read (v : View) (w : World K) : Option (List K) :=
  match w.cell v.addr with
  | some c => if c.length = v.len then some c else none
  | none => none

/-- What a call returns. -/
inductive Ret (K : Type)
  | unit
  | view (v : View)
  | flag (b : Bool)
  | stage (s : Option (Stage K))

/-- What a call does: return, throw, break an assertion, undefined behaviour. -/
inductive Out (K : Type)
  | ok (w : World K) (r : Ret K)
  | throws (w : World K)
  | abort
  | ub

/-- Storing a vector in a new cell. -/
def World.alloc (w : World K) (x : List K) : World K :=
  { w with next := w.next + 1, cell := Function.update w.cell w.next (some x) }

/-- Freeing a cell. -/
def World.free (w : World K) (a : ℕ) : World K := { w with cell := Function.update w.cell a none }

/-- Changing an object. -/
def World.put (w : World K) (n : ℕ) (p : Option (Prob K)) : World K := { w with obj := Function.update w.obj n p }

/-- Moving an argument into an initial condition. -/
def InitArg.place (a : InitArg K) (w : World K) : Option (Init K) × World K :=
  match a with
  | .stateError sp nu x0 => (some (.stateError sp nu w.next), w.alloc x0)
  | .other n r => (some (.other n r), w)
  | .valueless => (none, w)

/-- Destroying an initial condition. -/
def freeInit (i : Option (Init K)) (w : World K) : World K :=
  match i with
  | some (.stateError _ _ a) => w.free a
  | _ => w

/-- Copying an initial condition (third-party/polymorphic_cxx14.h:368-376): its vector is copied; `none`: it has been
freed. -/
def copyInit (i : Option (Init K)) (w : World K) : Option (Option (Init K) × World K) :=
  match i with
  | some (.stateError sp nu a) => (w.cell a).map fun x => (some (.stateError sp nu w.next), w.alloc x)
  | i => some (i, w)

/-- `checkInitCondIsStateError` (core/traj-opt-problem.hxx:176-181). -/
def checkInit (i : Option (Init K)) : Bool :=
  match i with
  | some (.stateError _ _ _) => true
  | _ => false

/-- `initCondIsStateError` (core/traj-opt-problem.hpp:157-160); `none`: the assertion of a debug build fails. -/
def Prob.isStateError (dbg : Bool) (p : Prob K) : Option Bool :=
  if dbg && (p.cached != checkInit p.init) then none else some p.cached

/-- The first constructor (core/traj-opt-problem.hxx:14-26); the one without stages (:36-40) calls it with none. -/
def create (n : ℕ) (a : InitArg K) (stages : List (Option (Stage K))) (t : Option TermCost) (w : World K) : Out K :=
  match w.obj n, t with
  | none, some t =>
    let (i, w) := a.place w
    .ok (w.put n (some ⟨i, stages, some t, [], t.nu, checkInit i⟩)) .unit
  | _, _ => .ub

/-- The constructor of `StateErrorResidual` validates its target (modelling/state-error.hpp:31-38, :61-66). -/
def createStateError (n : ℕ) (sp : Space K) (nu : ℕ) (x0 : List K) (stages : List (Option (Stage K))) (t : Option TermCost)
    (w : World K) : Out K :=
  if sp.isNormalized x0 then create n (.stateError sp nu x0) stages t w else .throws w

/-- The constructor from an initial state and stages (core/traj-opt-problem.hxx:28-35). -/
def createAt (n : ℕ) (x0 : List K) (stages : List (Option (Stage K))) (t : Option TermCost) (w : World K) : Out K :=
  match stages with
  | some s :: _ => createStateError n s.xspace s.nu x0 stages t w
  | _ => .ub

/-- `setInitState` (core/traj-opt-problem.hpp:175-181): the assignment of a vector of another size frees the old one. -/
def setInit (dbg : Bool) (n : ℕ) (x : List K) (w : World K) : Out K :=
  match w.obj n with
  | none => .ub
  | some p =>
    match p.isStateError dbg with
    | none => .abort
    | some false => .throws w
    | some true =>
      match p.init with
      | some (.stateError sp nu a) =>
        match w.cell a with
        | none => .ub
        | some old =>
          if old.length = x.length then .ok { w with cell := Function.update w.cell a (some x) } .unit
          else
            let w := w.free a
            .ok ((w.alloc x).put n (some { p with init := some (.stateError sp nu w.next) })) .unit
      | _ => .ub

/-- `getInitState` (core/traj-opt-problem.hpp:166-172): a reference to the vector itself. -/
def getInit (dbg : Bool) (n : ℕ) (w : World K) : Out K :=
  match w.obj n with
  | none => .ub
  | some p =>
    match p.isStateError dbg with
    | none => .abort
    | some false => .throws w
    | some true =>
      match p.init with
      | some (.stateError _ _ a) =>
        match w.cell a with
        | none => .ub
        | some x => .ok w (.view ⟨a, x.length⟩)
      | _ => .ub

/-- The loop of `checkIntegrity` (core/traj-opt-problem.hxx:147-157) after stage `s`; `none`: something was moved from. -/
def chainOk (term : Option TermCost) : Stage K → List (Option (Stage K)) → Option Bool
  | s, [] => term.map fun t => s.next.nx == t.nx && s.next.ndx == t.ndx
  | _, none :: _ => none
  | s, some s' :: r => (chainOk term s' r).map (s.next.nx == s'.xspace.nx && s.next.ndx == s'.xspace.ndx && ·)

/-- `checkIntegrity` (core/traj-opt-problem.hxx:132-159); `none`: the initial condition was moved from. -/
def Prob.integrity (p : Prob K) : Option Bool :=
  if p.cached != checkInit p.init then some false
  else match p.stages with
    | [] => some true
    | none :: _ => some false
    | some s :: r => match p.init with
      | none => none
      | some i => match chainOk p.term s r with
        | none => some false
        | some b => some ((s.xspace.ndx == i.ndx1) && b)

/-- Operations. -/
inductive Op (K : Type)
  | create (n : ℕ) (a : InitArg K) (stages : List (Option (Stage K))) (t : Option TermCost)
  | createAt (n : ℕ) (x0 : List K) (stages : List (Option (Stage K))) (t : Option TermCost)
  | createSpace (n : ℕ) (x0 : List K) (nu : ℕ) (sp : Space K) (t : Option TermCost)
  | copy (n m : ℕ)
  | assign (n m : ℕ)
  | move (n m : ℕ)
  | destroy (n : ℕ)
  | setInit (n : ℕ) (x : List K)
  | getInit (n : ℕ)
  | setInitConstraint (n : ℕ) (a : InitArg K)
  | setTermCost (n : ℕ) (t : Option TermCost)
  | addStage (n : ℕ) (s : Option (Stage K))
  | replaceStage (n : ℕ) (s : Option (Stage K))
  | addTermConstraint (n : ℕ) (f : TermFun)
  | removeTermConstraints (n : ℕ)
  | integrity (n : ℕ)
  | termSizes (n : ℕ)

/-- What a moved-from problem holds (the defaulted move constructor): no values, empty vectors, the old flag. -/
def Prob.moved (p : Prob K) : Prob K := ⟨none, [], none, [], 0, p.cached⟩

/-- One operation.  `copy n m`, `move n m`: construct `m` from `n`; `assign n m`: `m = n`; these are defaulted
(core/traj-opt-problem.hpp:101-128).  `setInitConstraint`, `setTermCost`: assignment to the public members.  `addStage` :
core/traj-opt-problem.hxx:125-129; `replaceStage`: :166-174; terminal constraints: core/traj-opt-problem.hpp:184-190.
`termSizes`: whether the control passed to terminal cost and constraints (core/traj-opt-problem.hxx:74-80) has the size
they expect. -/
def step (dbg : Bool) (w : World K) : Op K → Out K
  | .create n a st t => create n a st t w
  | .createAt n x0 st t => createAt n x0 st t w
  | .createSpace n x0 nu sp t => createStateError n sp nu x0 [] t w
  | .copy n m => match w.obj n, w.obj m with
    | some p, none => match copyInit p.init w with
      | some (i, w) => .ok (w.put m (some { p with init := i })) .unit
      | none => .ub
    | _, _ => .ub
  | .assign n m => match w.obj n, w.obj m with
    | some p, some q =>
      if n = m then .ok w .unit
      else match copyInit p.init w with
        | some (i, w) => .ok ((freeInit q.init w).put m (some { p with init := i })) .unit
        | none => .ub
    | _, _ => .ub
  | .move n m => match w.obj n, w.obj m with
    | some p, none => .ok ((w.put m (some p)).put n (some p.moved)) .unit
    | _, _ => .ub
  | .destroy n => match w.obj n with
    | some p => .ok ((freeInit p.init w).put n none) .unit
    | none => .ub
  | .setInit n x => setInit dbg n x w
  | .getInit n => getInit dbg n w
  | .setInitConstraint n a => match w.obj n with
    | some p =>
      let (i, w) := a.place w
      .ok ((freeInit p.init w).put n (some { p with init := i })) .unit
    | none => .ub
  | .setTermCost n t => match w.obj n with
    | some p => .ok (w.put n (some { p with term := t })) .unit
    | none => .ub
  | .addStage n s => match w.obj n with
    | some p => .ok (w.put n (some { p with stages := p.stages ++ [s] })) .unit
    | none => .ub
  | .replaceStage n s => match w.obj n with
    | some p => match Cycle.replaceStageCircular p.stages s with
      | some (st, out) => .ok (w.put n (some { p with stages := st })) (.stage out)
      | none => .ub
    | none => .ub
  | .addTermConstraint n f => match w.obj n with
    | some p => .ok (w.put n (some { p with cstrs := p.cstrs ++ [f] })) .unit
    | none => .ub
  | .removeTermConstraints n => match w.obj n with
    | some p => .ok (w.put n (some { p with cstrs := [] })) .unit
    | none => .ub
  | .integrity n => match w.obj n with
    | some p => match p.integrity with
      | some b => .ok w (.flag b)
      | none => .ub
    | none => .ub
  | .termSizes n => match w.obj n with
    | some p => match p.term with
      | some t => .ok w (.flag (p.unone == t.nu && p.cstrs.all fun f => f.nu == p.unone))
      | none => .ub
    | none => .ub

/-- The empty world. -/
def World.empty : World K := ⟨0, fun _ => none, fun _ => none⟩

/-- A program: the operations one after another, an exception is caught; what they returned (`none`: threw), or `none` after
an abort or undefined behaviour. -/
def runOps (dbg : Bool) : World K → List (Op K) → Option (World K × List (Option (Ret K)))
  | w, [] => some (w, [])
  | w, o :: os => match step dbg w o with
    | .ok w r => (runOps dbg w os).map fun q => (q.1, some r :: q.2)
    | .throws w => (runOps dbg w os).map fun q => (q.1, none :: q.2)
    | _ => none

/-! ### Initial guesses -/

/-- `resize(n)` of a vector of vectors. -/
def resizeVecs (n : ℕ) (v : List (List K)) : List (List K) := v.take n ++ List.replicate (n - v.length) []

/-- `initializeSolution` (core/traj-opt-problem.hpp:244-262), the multipliers: `vs`, `lams` are what the caller's vectors
held; all stages and the initial condition `i` have values. -/
def initMultipliers [Zero K] (i : Init K) (stages : List (Stage K)) (cstrs : List TermFun) (vs lams : List (List K)) :
    List (List K) × List (List K) :=
  let N := stages.length
  let vs := resizeVecs (N + 1) vs
  let lams := resizeVecs (N + 1) lams
  let lams := lams.set 0 (List.replicate i.nr 0)
  let r := (List.range N).foldl (fun (r : List (List K) × List (List K)) k =>
    match stages[k]? with
    | some s => (r.1.set k (List.replicate s.nc 0), r.2.set (k + 1) (List.replicate s.next.ndx 0))
    | none => r) (vs, lams)
  if cstrs.isEmpty then r else (r.1.set N (List.replicate ((cstrs.map TermFun.nr).sum) 0), r.2)

end Aligator.PObj
