import Verif.Model.Cycle

/-!
# Model: sizes of the buffers of the FDDP solver

`include/aligator/solvers/fddp/workspace.hxx`, `results.hpp`, `solver-fddp.hxx` and
`include/aligator/solvers/workspace-base.hpp`: what the constructors allocate, what one iteration reads, writes and
resizes, and what the shifts do.  Only sizes are modelled.  A result `none` is undefined behaviour: an index out of
range, an Eigen size assertion, a vector given to a space, a cost or a dynamics model of another size, and the
reassignment of `grad_`, `hess_` of a Q-function with another size (its views dangle).  Exceptions are `none` too.
-/

namespace Aligator.FMem

open Cycle (rotateLeft setAt)

/-- The sizes of a stage (core/stage-model.hpp:90-94) and those of the state space of its cost, which the constructor of
the stage does not compare (core/stage-model.hxx:15-28); the control sizes of cost and dynamics agree. -/
structure Stage where
  nx1 : ℕ
  ndx1 : ℕ
  nu : ℕ
  nx2 : ℕ
  ndx2 : ℕ
  cnx : ℕ
  cndx : ℕ
  deriving DecidableEq

/-- A problem (core/traj-opt-problem.hpp:102-128): `x0` is the size of the initial state if the initial condition is a
`StateErrorResidual`, `initNx`, `initNdx` are the sizes of the space of that condition. -/
structure Prob where
  stages : List Stage
  x0 : Option ℕ
  initNx : ℕ
  initNdx : ℕ
  termNx : ℕ
  termNdx : ℕ
  termNu : ℕ

/-- The loop of `checkIntegrity` (core/traj-opt-problem.hxx:147-158). -/
def chainOk (termNx termNdx : ℕ) : Stage → List Stage → Bool
  | prev, [] => prev.nx2 == termNx && prev.ndx2 == termNdx
  | prev, s :: ss => prev.nx2 == s.nx1 && prev.ndx2 == s.ndx1 && chainOk termNx termNdx s ss

/-- `checkIntegrity` (core/traj-opt-problem.hxx:132-159), for a cached flag that is up to date and no moved-from
members. -/
def Prob.checkIntegrity (P : Prob) : Bool :=
  match P.stages with
  | [] => true
  | s :: ss => s.ndx1 == P.initNdx && chainOk P.termNx P.termNdx s ss

/-- Sizes of the data of a stage: next state, Jacobian `[Jx Ju]` and, of the cost, gradient and Hessian. -/
structure SData where
  xnext : ℕ
  jac : ℕ × ℕ
  grad : ℕ
  hess : ℕ
  deriving DecidableEq

/-- Data of a stage (core/stage-data.hxx:11-14): dynamics data (core/explicit-dynamics.hpp:68-83, 106-110; the next
state is overwritten by the neutral element of the space of the *current* state) and cost data
(core/cost-abstract.hpp:94-111). -/
def SData.create (s : Stage) : SData :=
  { xnext := s.nx1, jac := (s.ndx2, s.ndx1 + s.nu), grad := s.cndx + s.nu, hess := s.cndx + s.nu }

/-- `ResultsFDDPTpl` (solvers/fddp/results.hpp:9-22). -/
structure Results where
  init : Bool
  xs : List ℕ
  us : List ℕ
  gains : List (ℕ × ℕ)
  deriving DecidableEq

/-- `WorkspaceFDDPTpl` (solvers/fddp/workspace.hpp:19-37) with its base (solvers/workspace-base.hpp:16-33).  A value
function is its dimension, a Q-function the pair `(ndx, nu)`, a Cholesky factorisation its size. -/
structure Workspace where
  init : Bool
  nsteps : ℕ
  stageData : List SData
  termData : ℕ
  trialXs : List ℕ
  trialUs : List ℕ
  slacks : List ℕ
  dxs : List ℕ
  dus : List ℕ
  Quuks : List ℕ
  ftVxx : List ℕ
  kktRhs : List (ℕ × ℕ)
  llts : List ℕ
  JtH : List (ℕ × ℕ)
  value : List ℕ
  q : List (ℕ × ℕ)
  deriving DecidableEq

/-- Sizes of the default states (core/traj-opt-problem.hpp:283-303); `none`: exception. -/
def xsInit (P : Prob) : Option (List ℕ) :=
  match P.x0, P.stages with
  | some x0, ss => some (x0 :: ss.map (·.nx2))
  | none, s :: ss => some (s.nx1 :: (s :: ss).map (·.nx2))
  | none, [] => none

/-- Constructor of `ResultsFDDPTpl` (solvers/fddp/results.hpp:24-48). -/
def Results.create (P : Prob) : Option Results :=
  if P.checkIntegrity = false then none
  else match xsInit P with
    | none => none
    | some xs => some
      { init := true, xs := xs, us := P.stages.map (·.nu), gains := P.stages.map fun s => (s.nu, s.ndx1 + 1) }

/-- Constructor of `WorkspaceFDDPTpl` (solvers/fddp/workspace.hxx:9-63) after that of the base
(solvers/workspace-base.hpp:61-68).  Without stages the vectors have been resized but the workspace is left
uninitialised (:31-37). -/
def Workspace.create (P : Prob) : Option Workspace :=
  if P.checkIntegrity = false then none
  else match xsInit P with
    | none => none
    | some xs => some (
      match P.stages with
      | [] =>
        { init := false, nsteps := 0, stageData := [], termData := P.termNdx, trialXs := xs, trialUs := []
          slacks := [0], dxs := [0], dus := [], Quuks := [], ftVxx := [0], kktRhs := [], llts := [], JtH := []
          value := [], q := [] }
      | s0 :: _ =>
        { init := true
          nsteps := P.stages.length
          stageData := P.stages.map SData.create
          termData := P.termNdx
          trialXs := xs
          trialUs := P.stages.map (·.nu)
          slacks := s0.ndx1 :: P.stages.map (·.ndx2)
          dxs := P.stages.map (·.ndx1) ++ [P.termNdx]
          dus := P.stages.map (·.nu)
          Quuks := P.stages.map (·.nu)
          ftVxx := s0.ndx1 :: P.stages.map (·.ndx2)
          kktRhs := P.stages.map fun s => (s.nu, s.ndx1 + 1)
          llts := P.stages.map (·.nu)
          JtH := P.stages.map fun s => (s.ndx1 + s.nu, s.ndx1)
          value := P.stages.map (·.ndx1) ++ [P.termNdx]
          q := P.stages.map fun s => (s.ndx1, s.nu) })

/-! ### One iteration -/

/-- A call of `evaluate` or of the derivatives of a stage (core/stage-model.hxx:41-69) accepts a state, a control and
data of these sizes. -/
def stageCallOk (s : Stage) (x u : ℕ) (d : SData) : Bool :=
  x == s.nx1 && u == s.nu && d.xnext == s.nx2 && d.jac == (s.ndx2, s.ndx1 + s.nu) &&
    x == s.cnx && d.grad == s.cndx + s.nu && d.hess == s.cndx + s.nu

/-- `space.difference(x, y, out)` on a space of sizes `nx`, `ndx` (core/manifold-base.hxx:27-32; `out` is a `Ref`, it
cannot be resized). -/
def diffOk (nx ndx x y out : ℕ) : Bool := x == nx && y == nx && out == ndx

/-- `space.integrate(x, v, out)` (core/manifold-base.hxx:11-16). -/
def integOk (nx ndx x v out : ℕ) : Bool := x == nx && v == ndx && out == nx

/-- `problem.evaluate` or `problem.computeDerivatives` on the current iterate (core/traj-opt-problem.hxx:50-123).  The
initial condition compares `xs[0]` with its target; the terminal cost is called with `unone_`, whose size is its own
(core/traj-opt-problem.hxx:22). -/
def problemCallOk (P : Prob) (w : Workspace) (xs us : List ℕ) : Bool :=
  xs.length == P.stages.length + 1 && us.length == P.stages.length &&
  (match xs[0]?, P.x0 with
   | some x, some x0 => x == P.initNx && x0 == P.initNx
   | _, _ => true) &&
  (List.range P.stages.length).all (fun i =>
    match P.stages[i]?, xs[i]?, us[i]?, w.stageData[i]? with
    | some s, some x, some u, some d => stageCallOk s x u d
    | _, _, _, _ => false) &&
  (match xs[P.stages.length]? with
   | some x => x == P.termNx && w.termData == P.termNdx
   | none => false)

/-- `computeInfeasibility` (solvers/fddp/solver-fddp.hxx:167-188): the gap at node `i + 1` is taken in the space of the
state of stage `i`. -/
def infeasOk (P : Prob) (w : Workspace) (r : Results) : Bool :=
  (match P.stages[0]?, r.xs[0]?, P.x0, w.slacks[0]? with
   | some s, some x, some x0, some f => diffOk s.nx1 s.ndx1 x x0 f
   | _, _, _, _ => false) &&
  (List.range P.stages.length).all (fun i =>
    match P.stages[i]?, r.xs[i + 1]?, w.stageData[i]?, w.slacks[i + 1]? with
    | some s, some x, some d, some f => diffOk s.nx1 s.ndx1 x d.xnext f
    | _, _, _, _ => false)

/-- `computeCriterion` (solvers/fddp/solver-fddp.hxx:190-201) reads the first `nsteps` Q-functions. -/
def criterionOk (w : Workspace) : Bool := decide (w.nsteps ≤ w.q.length)

/-- The terminal value function (solvers/fddp/solver-fddp.hxx:212-222): assignments resize. -/
def backwardTerminal (w : Workspace) : Option Workspace := do
  let f ← w.slacks[w.nsteps]?
  guard (f = w.termData)
  let value ← setAt w.value w.nsteps w.termData
  let ft ← setAt w.ftVxx w.nsteps w.termData
  some { w with value := value, ftVxx := ft }

/-- One stage of `backwardPass` (solvers/fddp/solver-fddp.hxx:224-277). -/
def backwardStage (P : Prob) (i : ℕ) (w : Workspace) : Option Workspace := do
  let vn ← w.value[i + 1]?
  let (qx, qu) ← w.q[i]?
  let s ← P.stages[i]?
  let d ← w.stageData[i]?
  -- the columns of `J_x_u`; `grad_ = cd.grad_`, `hess_ = cd.hess_` must not resize, products
  guard (s.ndx1 + s.nu ≤ d.jac.2)
  guard (d.grad = qx + qu ∧ d.hess = qx + qu)
  guard (d.jac.1 = vn ∧ s.ndx1 + s.nu = qx + qu)
  let jth ← setAt w.JtH i (s.ndx1 + s.nu, vn)
  -- gains
  let (r, c) ← w.kktRhs[i]?
  guard (1 ≤ c ∧ s.ndx1 ≤ c)
  guard (r = qu ∧ s.ndx1 = qx)
  let llts ← setAt w.llts i qu
  let quuk ← setAt w.Quuks i qu
  -- value function
  let f ← w.slacks[i]?
  guard (f = qx)
  let value ← setAt w.value i qx
  let ft ← setAt w.ftVxx i qx
  some { w with JtH := jth, llts := llts, Quuks := quuk, value := value, ftVxx := ft }

/-- The loop of `backwardPass` (solvers/fddp/solver-fddp.hxx:224): stages `n - 1` down to `0`. -/
def backwardLoop (P : Prob) : ℕ → Workspace → Option Workspace
  | 0, w => some w
  | n + 1, w =>
    match backwardStage P n w with
    | none => none
    | some w' => backwardLoop P n w'

/-- `backwardPass` (solvers/fddp/solver-fddp.hxx:203-280). -/
def backwardPass (P : Prob) (w : Workspace) : Option Workspace :=
  match backwardTerminal w with
  | none => none
  | some w' => backwardLoop P w'.nsteps w'

/-- `acceptGains` (solvers/fddp/solver-fddp.hpp:144-149). -/
def acceptGains (w : Workspace) (r : Results) : Results := { r with gains := w.kktRhs }

/-- `updateExpectedImprovement` (solvers/fddp/solver-fddp.hxx:139-165): the dot products. -/
def updateImprovementOk (w : Workspace) (r : Results) : Bool :=
  (List.range w.nsteps).all (fun i =>
    match w.q[i]?, r.gains[i]?, w.Quuks[i]? with
    | some q, some g, some k => decide (1 ≤ g.2) && q.2 == g.1 && g.1 == k
    | _, _, _ => false) &&
  (List.range (w.nsteps + 1)).all (fun i =>
    match w.value[i]?, w.slacks[i]?, w.ftVxx[i]? with
    | some v, some f, some t => v == f && t == f
    | _, _, _ => false)

/-- `expectedImprovement` (solvers/fddp/solver-fddp.hxx:121-137). -/
def improvementOk (w : Workspace) : Bool :=
  (List.range (w.nsteps + 1)).all (fun i =>
    match w.dxs[i]?, w.ftVxx[i]? with
    | some d, some t => d == t
    | _, _ => false)

/-- Start of `forwardPass` (solvers/fddp/solver-fddp.hxx:70-74). -/
def forwardStart (P : Prob) (r : Results) (w : Workspace) : Option Workspace := do
  let s ← P.stages[0]?
  let f ← w.slacks[0]?
  let dxs ← setAt w.dxs 0 f
  let x ← r.xs[0]?
  let t ← w.trialXs[0]?
  guard (integOk s.nx1 s.ndx1 x f t)
  some { w with dxs := dxs }

/-- One stage of `forwardPass` (solvers/fddp/solver-fddp.hxx:77-105): the deviation of the new state is computed in the
space of stage `i` (:101). -/
def forwardStage (P : Prob) (r : Results) (i : ℕ) (w : Workspace) : Option Workspace := do
  let s ← P.stages[i]?
  let d ← w.stageData[i]?
  let g ← r.gains[i]?
  guard (1 ≤ g.2)
  let dx ← w.dxs[i]?
  guard (g.2 - 1 = dx)
  let dus ← setAt w.dus i g.1
  let u ← r.us[i]?
  let ut ← w.trialUs[i]?
  guard (integOk s.nu s.nu u g.1 ut)
  let xt ← w.trialXs[i]?
  guard (stageCallOk s xt ut d)
  let f ← w.slacks[i + 1]?
  let dxs ← setAt w.dxs (i + 1) f
  let xt' ← w.trialXs[i + 1]?
  guard (integOk s.nx2 s.ndx2 d.xnext f xt')
  let x' ← r.xs[i + 1]?
  guard (diffOk s.nx1 s.ndx1 x' xt' f)
  some { w with dus := dus, dxs := dxs }

/-- The loop of `forwardPass` over stages `k .. k + n - 1` (solvers/fddp/solver-fddp.hxx:77). -/
def forwardLoop (P : Prob) (r : Results) : ℕ → ℕ → Workspace → Option Workspace
  | 0, _, w => some w
  | n + 1, k, w =>
    match forwardStage P r k w with
    | none => none
    | some w' => forwardLoop P r n (k + 1) w'

/-- `forwardPass` (solvers/fddp/solver-fddp.hxx:58-119): the terminal cost is called with the last control (:109). -/
def forwardPass (P : Prob) (r : Results) (w : Workspace) : Option Workspace := do
  let w1 ← forwardStart P r w
  let w2 ← forwardLoop P r w1.nsteps 0 w1
  let xt ← w2.trialXs.getLast?
  let ut ← w2.trialUs.getLast?
  guard (xt = P.termNx ∧ ut = P.termNu ∧ w2.termData = P.termNdx)
  let x ← r.xs[w2.nsteps]?
  let xt' ← w2.trialXs[w2.nsteps]?
  let dx ← w2.dxs[w2.nsteps]?
  guard (diffOk P.termNx P.termNdx x xt' dx)
  some w2

/-- The trials of the line search: `n` forward passes, each followed by the model
(solvers/fddp/solver-fddp.hxx:314-325). -/
def trials (P : Prob) (r : Results) : ℕ → Workspace → Option Workspace
  | 0, w => some w
  | n + 1, w =>
    match forwardPass P r w with
    | none => none
    | some w' => if improvementOk w' = false then none else trials P r n w'

/-- One turn of the main loop (solvers/fddp/solver-fddp.hxx:331-393) with `n` trials, the last of which is accepted;
`none`: the loop is left at the test of convergence (:344-347). -/
def iteration (P : Prob) (n : Option ℕ) (w : Workspace) (r : Results) : Option (Workspace × Results) :=
  if problemCallOk P w r.xs r.us = false then none
  else if infeasOk P w r = false then none
  else match backwardPass P w with
    | none => none
    | some w1 =>
      if criterionOk w1 = false then none
      else match n with
        | none => some (w1, r)
        | some n =>
          if w1.kktRhs.length ≠ r.gains.length then none
          else if updateImprovementOk w1 (acceptGains w1 r) = false then none
          else match trials P (acceptGains w1 r) n w1 with
            | none => none
            | some w2 => some (w2, { acceptGains w1 r with xs := w2.trialXs, us := w2.trialUs })

/-- `run` (solvers/fddp/solver-fddp.hxx:282-399), for the sizes: the check of :288-291, the evaluation of :328-329, then
one iteration per entry of the list, the last entry first.  The guesses have the sizes of the results or are replaced by
the default ones (C29). -/
def run (P : Prob) (w : Workspace) (r : Results) : List (Option ℕ) → Option (Workspace × Results)
  | [] => if r.init && w.init && problemCallOk P w r.xs r.us then some (w, r) else none
  | n :: ns =>
    match run P w r ns with
    | none => none
    | some (w', r') => iteration P n w' r'

/-! ### Shifts -/

/-- `WorkspaceBaseTpl::cycleLeft` (solvers/workspace-base.hpp:70-77). -/
def Workspace.baseCycleLeft (w : Workspace) : Option Workspace := do
  let sd ← rotateLeft w.stageData 0 0
  let xs ← rotateLeft w.trialXs 0 0
  let us ← rotateLeft w.trialUs 0 0
  let fs ← rotateLeft w.slacks 1 0
  some { w with stageData := sd, trialXs := xs, trialUs := us, slacks := fs }

/-- `WorkspaceFDDPTpl::cycleLeft` (solvers/fddp/workspace.hxx:65-78). -/
def Workspace.cycleLeft (w : Workspace) : Option Workspace := do
  let w ← w.baseCycleLeft
  let dxs ← rotateLeft w.dxs 0 0
  let dus ← rotateLeft w.dus 0 0
  let Quuks ← rotateLeft w.Quuks 0 0
  let ft ← rotateLeft w.ftVxx 1 0
  let kkt ← rotateLeft w.kktRhs 0 0
  let llts ← rotateLeft w.llts 0 0
  let jth ← rotateLeft w.JtH 0 0
  let value ← rotateLeft w.value 0 0
  let q ← rotateLeft w.q 0 0
  some { w with dxs := dxs, dus := dus, Quuks := Quuks, ftVxx := ft, kktRhs := kkt, llts := llts, JtH := jth
                value := value, q := q }

/-- `WorkspaceBaseTpl::cycleAppend` (solvers/workspace-base.hpp:52-56).  The call of `cycleLeft` in it is that of the base,
which is not virtual. -/
def Workspace.cycleAppend (w : Workspace) (d : SData) : Option Workspace := do
  let w ← Workspace.baseCycleLeft { w with stageData := w.stageData ++ [d] }
  if w.stageData = [] then none else some { w with stageData := w.stageData.dropLast }

/-- The problem after `replaceStageCircular(s)` (core/traj-opt-problem.hxx:167-174). -/
def Prob.shift (P : Prob) (s : Stage) : Prob := { P with stages := P.stages.drop 1 ++ [s] }

end Aligator.FMem
