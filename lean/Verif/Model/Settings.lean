import Mathlib.Data.List.Basic

/-!
# Settings and `setup` of ProxDDP

`setup`, the setters, the shift of the horizon and what a run uses: linear solver, threads, rollout, step acceptance.
Only sizes are kept of workspace, results and linear solver: one entry of an arbitrary type `D` per stage and one for
the terminal node.  The numbers are those of C16 and C69, the sizes in each array those of C74.

Public settings of the solver that no function reads (`max_refinement_steps_`, `refinement_threshold_`, `ls_mode`,
`dual_weight`; solvers/proxddp/solver-proxddp.hpp:161-163, :172-173) are not in the model.
-/

namespace Aligator.Settings

/-- `LQSolverChoice` (solvers/proxddp/solver-proxddp.hpp:26). -/
inductive Choice | serial | parallel | stageDense
  deriving DecidableEq

/-- `RolloutType` (solvers/proxddp/solver-proxddp.hpp:165). -/
inductive Rollout | linear | nonlinear
  deriving DecidableEq

/-- `StepAcceptanceStrategy` (solvers/proxddp/solver-proxddp.hpp:169). -/
inductive Strategy | armijo | nonmonotone | filter
  deriving DecidableEq

/-- The public settings read by `setup` and by the choice of the methods in a run
(solvers/proxddp/solver-proxddp.hpp:153, :165, :169, :321). -/
structure Cfg where
  choice : Choice
  rollout : Rollout
  threads : ℕ
  strategy : Strategy

/-- Settings of a new solver (solvers/proxddp/solver-proxddp.hpp:153, :165, :185-191, :321). -/
def Cfg.default : Cfg := ⟨.serial, .linear, 1, .nonmonotone⟩

variable {D : Type}

/-- Sizes of the blocks of the stages and of the terminal node. -/
structure Sizes (D : Type) where
  stages : List D
  term : D

/-- A problem as seen by `setup`: its sizes, what `checkIntegrity` says, and whether the constructors of results and
workspace return (they call functions of the user, which may throw). -/
structure Prob (D : Type) where
  sizes : Sizes D
  integrity : Bool
  resultsOk : Bool
  workspaceOk : Bool

/-- The object behind `linear_solver_`: its class, its number of threads (1 for the classes without threads) and the
sizes it was made for. -/
structure Lin (D : Type) where
  kind : Choice
  threads : ℕ
  sizes : Sizes D

/-- The solver object (solvers/proxddp/solver-proxddp.hpp:153-183, :321).  `ls` is the line search held by the
variant, `none` for `std::monostate`; `filterEmpty`: the filter holds no pair. -/
structure St (D : Type) where
  cfg : Cfg
  ls : Option Strategy
  res : Option (Sizes D)
  ws : Option (Sizes D)
  lin : Option (Lin D)
  filterEmpty : Bool

/-- The constructor (solvers/proxddp/solver-proxddp.hxx:71-96). -/
def init (sa : Strategy) : St D := ⟨{ Cfg.default with strategy := sa }, none, none, none, none, true⟩

/-- `LinesearchVariant::init` behind the test `int(sa_strategy_) <= 1` (solvers/proxddp/solver-proxddp.hxx:162-164,
solvers/proxddp/solver-proxddp.hpp:86-100): with the filter the variant keeps what it holds. -/
def initLs (c : Cfg) (l : Option Strategy) : Option Strategy :=
  match c.strategy with
  | .armijo => some .armijo
  | .nonmonotone => some .nonmonotone
  | .filter => l

/-- `ParallelRiccatiSolver::ParallelRiccatiSolver` (gar/parallel-solver.hxx:32-46): the number of threads is converted
to `uint` (32 bits) and must be at least 2; `none`: it throws. -/
def mkParallel (threads : ℕ) (s : Sizes D) : Option (Lin D) :=
  if threads % 2 ^ 32 < 2 then none else some ⟨.parallel, threads % 2 ^ 32, s⟩

/-- The switch of `setup` (solvers/proxddp/solver-proxddp.hxx:172-197); `mt`: built with `ALIGATOR_MULTITHREADING`;
`none`: it throws. -/
def mkLin (mt : Bool) (c : Cfg) (s : Sizes D) : Option (Lin D) :=
  match c.choice with
  | .serial => some ⟨.serial, 1, s⟩
  | .parallel =>
    match c.rollout with
    | .nonlinear => none
    | .linear => if mt then mkParallel c.threads s else none
  | .stageDense => some ⟨.stageDense, 1, s⟩

/-- `SolverProxDDPTpl::setup` (solvers/proxddp/solver-proxddp.hxx:157-199): state afterwards, and whether it returned
(`false`: it threw).  Results and workspace are replaced one after the other, the linear solver after them.  The test of
the allocators (:168-170) is left out: the workspace is made with the allocator it is compared with. -/
def setup (mt : Bool) (p : Prob D) (s : St D) : St D × Bool :=
  if !p.integrity then (s, false)
  else
    let s := { s with ls := initLs s.cfg s.ls }
    if !p.resultsOk then (s, false)
    else
      let s := { s with res := some p.sizes }
      if !p.workspaceOk then (s, false)
      else
        let s := { s with ws := some p.sizes }
        match mkLin mt s.cfg p.sizes with
        | none => (s, false)
        | some l => ({ s with lin := some l, filterEmpty := true }, true)

/-- `rotate_vec_left(v, 0, 1)` and a new entry before the last, as in the shifts of results, workspace and serial and
dense solver (solvers/proxddp/results.hxx:43-72, solvers/proxddp/workspace.hxx:96-155, gar/proximal-riccati.hxx:78-86,
gar/dense-riccati.hxx:118-147). -/
def Sizes.shift (s : Sizes D) (d : D) : Sizes D := ⟨s.stages.drop 1 ++ [d], s.term⟩

open Classical in
/-- `cycleAppend` of the linear solvers; `w` the sizes of the shifted subproblem.  The parallel solver initialises
itself anew (gar/parallel-solver.hxx:245-258); the others replace the entry at the horizon of the subproblem less one,
`none` when they do not have as many entries (gar/proximal-riccati.hxx:78-86, gar/dense-riccati.hxx:118-147). -/
noncomputable def Lin.cycle (l : Lin D) (w : Sizes D) (d : D) : Option (Lin D) :=
  match l.kind with
  | .parallel => some { l with sizes := w }
  | _ => if l.sizes.stages.length = w.stages.length then some { l with sizes := l.sizes.shift d } else none

/-- How a call ends: it returns, it throws, or its behaviour is undefined. -/
inductive Res (α : Type)
  | ok (a : α)
  | raised (a : α)
  | undefined

/-- `SolverProxDDPTpl::cycleProblem` (solvers/proxddp/solver-proxddp.hxx:201-209) with a new last stage of sizes `d`;
`integrity`: what `checkIntegrity` says of the shifted problem, tested after the results were shifted
(solvers/proxddp/workspace.hxx:105-106).  Undefined: entries of empty vectors, a null linear solver. -/
noncomputable def cycle (d : D) (integrity : Bool) (s : St D) : Res (St D) :=
  match s.res with
  | none => .undefined
  | some r =>
    if r.stages = [] then .undefined
    else
      let s := { s with res := some (r.shift d) }
      match s.ws with
      | none => .undefined
      | some w =>
        if w.stages = [] then .undefined
        else if !integrity then .raised s
        else
          let s := { s with ws := some (w.shift d) }
          match s.lin with
          | none => .undefined
          | some l =>
            match l.cycle (w.shift d) d with
            | none => .undefined
            | some l => .ok { s with lin := some l }

/-- The step acceptance of a run (solvers/proxddp/solver-proxddp.hxx:651-662): the line search in the variant, NaN when
it holds none (solvers/proxddp/solver-proxddp.hpp:62-72), or the filter. -/
inductive Accept
  | search (s : Strategy)
  | nan
  | filter (empty : Bool)

/-- What a run that solves a subproblem uses. -/
inductive Out
  /-- "workspace and results were not allocated yet!" -/
  | notAllocated
  /-- `linear_solver_` is null -/
  | nullSolver
  /-- results, workspace and linear solver have different sizes -/
  | mismatched
  | uses (kind : Choice) (linThreads evalThreads : ℕ) (rollout : Rollout) (accept : Accept)

/-- Choice of the method in the switch on `sa_strategy_` (solvers/proxddp/solver-proxddp.hxx:651-662). -/
def accept (s : St D) : Accept :=
  match s.cfg.strategy with
  | .filter => .filter s.filterEmpty
  | _ => match s.ls with
    | some l => .search l
    | none => .nan

open Classical in
/-- `run` as far as the first step: the test of the allocation (solvers/proxddp/solver-proxddp.hxx:431-433), the calls
through `linear_solver_` (:608-632), evaluation with `num_threads_` (:570-583), rollout (:539-546), step acceptance
(:651-662).  Runs that stop before the first subproblem use none of these. -/
noncomputable def run (s : St D) : Out :=
  match s.ws, s.res with
  | some w, some r =>
    match s.lin with
    | none => .nullSolver
    | some l =>
      if r = w ∧ l.sizes = w then .uses l.kind l.threads s.cfg.threads s.cfg.rollout (accept s) else .mismatched
  | _, _ => .notAllocated

/-- Calls of the user between runs. -/
inductive Op (D : Type)
  | setChoice (c : Choice)
  | setRollout (r : Rollout)
  | setThreads (n : ℕ)
  | setStrategy (a : Strategy)
  | setup (p : Prob D)
  | shift (d : D) (integrity : Bool)
  | run

/-- One call; the exceptions of `setup` and `cycleProblem` are caught by the user, who goes on.  `none`: undefined
behaviour.  Setters: public members and `setNumThreads` (solvers/proxddp/solver-proxddp.hxx:98-108), which after `setup`
warns and stores the number.  A run with the filter leaves pairs in it. -/
noncomputable def step (mt : Bool) (s : St D) : Op D → Option (St D)
  | .setChoice c => some { s with cfg := { s.cfg with choice := c } }
  | .setRollout r => some { s with cfg := { s.cfg with rollout := r } }
  | .setThreads n => some { s with cfg := { s.cfg with threads := n } }
  | .setStrategy a => some { s with cfg := { s.cfg with strategy := a } }
  | .setup p => some (setup mt p s).1
  | .shift d i => match cycle d i s with
    | .ok s => some s
    | .raised s => some s
    | .undefined => none
  | .run => match run s with
    | .notAllocated => some s
    | .nullSolver => none
    | .mismatched => none
    | .uses _ _ _ _ (.filter _) => some { s with filterEmpty := false }
    | .uses .. => some s

/-- A sequence of calls. -/
noncomputable def exec (mt : Bool) : St D → List (Op D) → Option (St D)
  | s, [] => some s
  | s, o :: h => (step mt s o).bind fun s => exec mt s h

end Aligator.Settings
