import Mathlib.Data.List.Basic

/-!
# Model of the zones without memory allocation

`math.hpp` (built with `CHECK_RUNTIME_MALLOC`, CMakeLists.txt:183-187): Eigen keeps one flag per thread, "allocation is
allowed", and aborts if memory is allocated while it is off.  Programs are those of one thread, the one that calls the
solver; only the zones, the calls of code of the user and exceptions are kept.
-/

namespace Aligator.Malloc

/-- Eigen's flag and `g_cached_malloc_status` (math.hpp:91). -/
structure St where
  allowed : Bool
  cached : Bool
  deriving DecidableEq

/-- At the start of a thread both are on (math.hpp:91). -/
def St.start : St := ⟨true, true⟩

/-- A program: `call n` is code of the user (kind `n`), `allow b` the macro `ALIGATOR_EIGEN_ALLOW_MALLOC` (math.hpp:32-33;
`ALIGATOR_NOMALLOC_BEGIN` and `_END`, math.hpp:50-52), `scope p` a block that starts with `ALIGATOR_NOMALLOC_SCOPED`
(math.hpp:38-39), `raise` throws, `attempt p` catches. -/
inductive Prog
  | skip
  | seq (p q : Prog)
  | allow (b : Bool)
  | scope (p : Prog)
  | call (n : ℕ)
  | raise
  | attempt (p : Prog)

/-- What can be observed: a zone is entered while the flag has a value, code of the user runs while it has a value. -/
inductive Ev
  | enter (b : Bool)
  | call (n : ℕ) (b : Bool)
  deriving DecidableEq

/-- State after a program, events, whether an exception is on its way. -/
structure Out where
  st : St
  log : List Ev
  raised : Bool

/-- Execution.  The constructor of `scoped_nomalloc` saves the flag in the one variable and clears it (math.hpp:95-103,
110-113), the destructor, also when an exception leaves the block, sets the flag to what the variable then holds
(math.hpp:41-42, 105, 115). -/
def exec : Prog → St → Out
  | .skip, s => ⟨s, [], false⟩
  | .seq p q, s =>
    let o := exec p s
    if o.raised then o else
      let o' := exec q o.st
      ⟨o'.st, o.log ++ o'.log, o'.raised⟩
  | .allow b, s => ⟨{ s with allowed := b }, [], false⟩
  | .scope p, s =>
    let o := exec p ⟨false, s.allowed⟩
    ⟨{ o.st with allowed := o.st.cached }, .enter s.allowed :: o.log, o.raised⟩
  | .call n, s => ⟨s, [.call n s.allowed], false⟩
  | .raise, s => ⟨s, [], true⟩
  | .attempt p, s => { exec p s with raised := false }

/-- Several programs one after another. -/
def seqs : List Prog → Prog
  | [] => .skip
  | p :: ps => .seq p (seqs ps)

/-! ### The solvers -/

/-- Kinds of code of the user: functions of the problem, operations of the manifolds, callbacks. -/
def functions : ℕ := 0
@[inherit_doc functions] def manifold : ℕ := 1
@[inherit_doc functions] def callbacks : ℕ := 2

/-- `TrajOptProblem::evaluate` (core/traj-opt-problem.hxx:50-84): the functions of the problem, then
`computeTrajectoryCost` (core/traj-opt-data.hxx:31-48). -/
def evaluate : Prog := .seq (.call functions) (.scope .skip)

/-- The linear solvers (`LQSolverChoice`). -/
inductive Lin
  | serial
  | parallel
  | dense
  deriving DecidableEq

/-- `backward`: gar/proximal-riccati.hxx:34-63 is one zone; gar/dense-riccati.hxx has none; gar/parallel-solver.hxx:132-206
is a zone in which the main thread calls `symmetricBlockTridiagSolve` (gar/block-tridiagonal.hpp:88) and, `k` times in
total, `blockTridiagMatMul` and `blockTridiagRefinementStep` (gar/block-tridiagonal.hpp:57, 152), each a zone. -/
def backward (k : ℕ) : Lin → Prog
  | .serial => .scope .skip
  | .parallel => .scope (seqs (List.replicate (k + 1) (.scope .skip)))
  | .dense => .skip

/-- `forward`: `Kernel::forwardImpl` (gar/riccati-kernel.hxx:315-321), called in the zone of gar/parallel-solver.hxx:212 by
the parallel solver; gar/dense-riccati.hxx:97. -/
def forward : Lin → Prog
  | .serial => .scope .skip
  | .parallel => .scope (.scope .skip)
  | .dense => .scope .skip

/-- One trial of the line search (solvers/proxddp/solver-proxddp.hxx:536-552): a step on the manifolds, the functions of
the problem. -/
def trial : Prog := .seq (.call manifold) evaluate

/-- How a turn of the inner loop of ProxDDP ends: converged before (`done`) the linear solver is called, or with `k` block
solves and `n` trials. -/
inductive Turn
  | done
  | step (k n : ℕ)

/-- One turn (solvers/proxddp/solver-proxddp.hxx:575-689): derivatives, `LagrangianDerivatives::compute`
(core/lagrangian.hpp:45), `computeCriterion` (:704), `updateLQSubproblem` (:735), the linear solver, the gains (:616), the
trials, the callbacks. -/
def turn (l : Lin) : Turn → Prog
  | .done => seqs [.call functions, .scope .skip, .scope .skip]
  | .step k n => seqs [.call functions, .scope .skip, .scope .skip, .scope .skip, backward k l, forward l, .scope .skip,
      seqs (List.replicate n trial), .call callbacks]

/-- An inner loop (solvers/proxddp/solver-proxddp.hxx:554-692): an evaluation, then turns. -/
def innerLoop (l : Lin) (ts : List Turn) : Prog := .seq evaluate (seqs (ts.map (turn l)))

/-- `run` of ProxDDP (solvers/proxddp/solver-proxddp.hxx:420-531): inner loops. -/
def proxddp (l : Lin) (loops : List (List Turn)) : Prog := seqs (loops.map (innerLoop l))

/-- A stage of `forwardPass` of FDDP (solvers/fddp/solver-fddp.hxx:77-105); `ok = false`: the new state or control is NaN
and an exception is thrown (:98-99). -/
def fddpStage (ok : Bool) : Prog :=
  seqs [.call manifold, .allow true, .call functions, .allow false, .call manifold, if ok then .skip else .raise,
    .call manifold]

/-- `forwardPass` of FDDP (solvers/fddp/solver-fddp.hxx:58-119) over stages. -/
def fddpForward (oks : List Bool) : Prog :=
  seqs [.allow false, .call manifold, seqs (oks.map fddpStage), .allow true, .call functions, .allow false,
    .call manifold, .allow true]

/-- A trial of the Goldstein search (solvers/fddp/linesearch.hpp:32-37, solvers/fddp/solver-fddp.hxx:314-325): an exception
is caught and the step halved; otherwise the model is evaluated (`expectedImprovement`, :121-137). -/
def fddpTrial (oks : List Bool) : Prog :=
  .attempt (.seq (fddpForward oks) (.seq (.allow false) (.allow true)))

/-- One turn of FDDP (solvers/fddp/solver-fddp.hxx:331-393): derivatives, `computeInfeasibility` (:167-188), `backwardPass`
(:203-280), `computeCriterion` (:190-201), `acceptGains` (solvers/fddp/solver-fddp.hpp:144-149),
`updateExpectedImprovement` (:139-165), trials, callbacks. -/
def fddpTurn (trials : List (List Bool)) : Prog :=
  seqs [.call functions, .allow false, .call manifold, .allow true, .allow false, .allow true, .allow false, .allow true,
    .scope .skip, .allow false, .allow true, seqs (trials.map fddpTrial), .call callbacks]

/-- `run` of FDDP (solvers/fddp/solver-fddp.hxx:282-399). -/
def fddp (turns : List (List (List Bool))) : Prog := .seq evaluate (seqs (turns.map fddpTurn))

/-- `QuadraticResidualCost::computeHessians` (modelling/costs/quad-residual-cost.hxx:48-64): without the Gauss-Newton
approximation allocation is allowed before the residual is called. -/
def quadHessians (gaussNewton : Bool) : Prog :=
  .scope (if gaussNewton then .skip else .seq (.allow true) (.call functions))

end Aligator.Malloc
