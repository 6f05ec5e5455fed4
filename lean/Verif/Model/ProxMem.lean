import Verif.Model.Cycle

/-!
# Model: sizes of the buffers of the ProxDDP solver

`include/aligator/solvers/proxddp/workspace.hxx`, `results.hxx`, `solver-proxddp.hxx`, `merit-function.hxx`,
`include/aligator/core/lagrangian.hpp` and the serial Riccati solver (`include/aligator/gar/riccati-kernel.hxx`,
`proximal-riccati.hxx`): what the constructors allocate, what one iteration reads, writes and resizes, and what a shift
does.  Only sizes are modelled.  A result `none` is undefined behaviour: an index out of range, an Eigen size assertion
(an operation on vectors of different sizes, the assignment to a `Ref` or a block of another size), an `assert` of the
code, and a vector given to a space, a cost or a function of another size.  Exceptions are `none` too.

Each function of the solver that loops over the stages touches in turn `i` only entries `i` and `i + 1`; such a loop is a
check for each index, followed by the sizes that the written buffers have afterwards.
-/

namespace Aligator.PMem

open Cycle (rotateLeft setAt frontFromBack KnotDim)

/-- The sizes of a stage (core/stage-model.hpp:90-96), of the state space of its cost and of its constraint functions
(rows and tangent size).  The constructor and `addConstraint` compare control sizes only
(core/stage-model.hxx:15-39).  `assigns`: its dynamics assign the next state and so give it its size
(modelling/linear-discrete-dynamics.hpp:33-35), or write it in place
(modelling/dynamics/integrator-euler.hxx:22). -/
structure Stage where
  nx1 : ℕ
  ndx1 : ℕ
  nu : ℕ
  nx2 : ℕ
  ndx2 : ℕ
  cnx : ℕ
  cndx : ℕ
  assigns : Bool
  cstrs : List (ℕ × ℕ)
  deriving DecidableEq

/-- `nc()` (core/stage-model.hpp:96). -/
def Stage.nc (s : Stage) : ℕ := (s.cstrs.map (·.1)).sum

/-- A problem (core/traj-opt-problem.hpp:102-128): `x0` is the size of the initial state if the initial condition is a
`StateErrorResidual`, `initNr`, `initNx`, `initNdx` are the sizes of that condition.  A terminal constraint is its rows, its
tangent size and the size of the control it reads (`none`: it does not read one). -/
structure Prob where
  stages : List Stage
  x0 : Option ℕ
  initNr : ℕ
  initNx : ℕ
  initNdx : ℕ
  termNx : ℕ
  termNdx : ℕ
  termNu : ℕ
  termCstrs : List (ℕ × ℕ × Option ℕ)

/-- The sizes of a stage as `Model/Cycle` sees them. -/
def Stage.toCycle (s : Stage) : Cycle.Stage :=
  { nx1 := s.nx1, ndx1 := s.ndx1, nu := s.nu, nx2 := s.nx2, ndx2 := s.ndx2, cdims := s.cstrs.map (·.1)
    neutral := Cycle.zeroVec s.nx1, neutralNext := Cycle.zeroVec s.nx2 }

/-- The sizes of a problem as `Model/Cycle` sees them, with an up-to-date cached flag. -/
def Prob.toCycle (P : Prob) : Cycle.Prob :=
  { stages := P.stages.map Stage.toCycle, initNr := P.initNr, initNdx1 := P.initNdx
    initState := P.x0.map Cycle.zeroVec, initCached := P.x0.isSome
    termNx := P.termNx, termNdx := P.termNdx, termDims := P.termCstrs.map (·.1) }

/-- `term_cstrs_.totalDim()`. -/
def Prob.termNc (P : Prob) : ℕ := (P.termCstrs.map (·.1)).sum

/-- Sizes of the data of a stage: next state, rows and the two column blocks of the Jacobian of the dynamics, of the cost
its `(ndx, nu)`, of the constraints rows and tangent size. -/
structure SData where
  xnext : ℕ
  jac : ℕ × ℕ × ℕ
  cost : ℕ × ℕ
  cstrs : List (ℕ × ℕ)
  deriving DecidableEq

/-- `createData` (core/stage-data.hxx:10-21): dynamics data (core/explicit-dynamics.hpp:68-84, 106-110; the next state is
overwritten by the neutral element of the space of the *current* state; dynamics that assign it have done so before
anything reads it), cost data (core/cost-abstract.hpp:94-111) and
constraint data (core/function-abstract.hxx:29-52). -/
def SData.create (s : Stage) : SData :=
  { xnext := if s.assigns then s.nx2 else s.nx1, jac := (s.ndx2, s.ndx1, s.nu), cost := (s.cndx, s.nu), cstrs := s.cstrs }

/-- The memory of the solver: workspace (solvers/proxddp/workspace.hpp:29-109) with the problem data, the factors of the
serial Riccati solver, and the results
(solvers/results-base.hpp:30-34, solvers/proxddp/results.hpp:17-25).  Buffers that every iteration assigns before it reads
them (the matrices of the knots and of the factors) are computed where they are read. -/
structure Mem where
  nsteps : ℕ
  sd : List SData
  termData : ℕ
  termCstrs : List (ℕ × ℕ)
  initData : ℕ × ℕ
  ws : Cycle.Workspace
  vs_pdal : List ℕ
  Lxs : List ℕ
  Lus : List ℕ
  Lvs : List ℕ
  lxCorr : List ℕ
  luCorr : List ℕ
  solver : Cycle.SerialSolver
  xs : List ℕ
  us : List ℕ
  vs : List ℕ
  lams : List ℕ
  gains : List (ℕ × ℕ)
  deriving DecidableEq

/-- Size of the default first state (core/traj-opt-problem.hpp:288-297); `none`: exception. -/
def x0Size (P : Prob) : Option ℕ :=
  match P.x0, P.stages with
  | some x, _ => some x
  | none, s :: _ => some s.nx1
  | none, [] => none

/-- The memory allocated for a problem whose default first state has size `nx0`: constructors of the results
(solvers/proxddp/results.hxx:14-41), of the workspace (solvers/proxddp/workspace.hxx:15-94; core/traj-opt-data.hxx:13-29)
and of the serial solver (gar/proximal-riccati.hxx:12-31). -/
def Mem.create (P : Prob) (nx0 : ℕ) : Mem :=
  let ws := Cycle.Workspace.create P.toCycle nx0
  { nsteps := P.stages.length
    sd := P.stages.map SData.create
    termData := P.termNdx
    termCstrs := P.termCstrs.map fun c => (c.1, c.2.1)
    initData := (P.initNr, P.initNdx)
    ws := ws
    vs_pdal := ws.trial_vs
    Lxs := ws.dxs, Lus := ws.dus, Lvs := ws.dvs, lxCorr := ws.dxs, luCorr := ws.dus
    solver := Cycle.SerialSolver.create ws.knots ws.nc0
    xs := ws.trial_xs, us := ws.trial_us, vs := ws.trial_vs, lams := ws.trial_lams
    gains := (P.stages.map fun s => (s.nu + s.nc + s.ndx2, s.ndx1 + 1)) ++ [(P.termNc, P.termNdx + 1)] }

/-- `setup` (solvers/proxddp/solver-proxddp.hxx:157-199) with the serial solver. -/
def setup (P : Prob) : Option Mem :=
  if P.toCycle.checkIntegrity = false then none
  else match x0Size P with
    | none => none
    | some nx0 => some (Mem.create P nx0)

/-! ### Small tools -/

/-- A loop that checks entries `0 .. n - 1`. -/
def allM : ℕ → (ℕ → Option Unit) → Option Unit
  | 0, _ => some ()
  | n + 1, f =>
    match allM n f with
    | none => none
    | some _ => f n

/-- The buffers `l` after assignments that give its first entries the sizes `new`. -/
def setPre (l new : List ℕ) : List ℕ := new ++ l.drop new.length

/-! ### One iteration -/

/-- `problem.evaluate`, `problem.computeDerivatives` (core/traj-opt-problem.hxx:50-123) with the calls of the stages
(core/stage-model.hxx:41-69).  The initial condition compares `xs[0]` with its target; terminal cost and constraints are
called with `unone_`, whose size is that of the terminal cost (core/traj-opt-problem.hxx:22). -/
def problemCall (P : Prob) (m : Mem) (xs us : List ℕ) : Option Unit := do
  guard (xs.length = P.stages.length + 1 ∧ us.length = P.stages.length)
  guard (xs[0]? = some P.initNx ∧ P.x0.all (· == P.initNx) = true ∧ m.initData = (P.initNr, P.initNdx))
  allM P.stages.length fun i => do
    let s ← P.stages[i]?
    let d ← m.sd[i]?
    guard (xs[i]? = some s.nx1 ∧ us[i]? = some s.nu ∧ s.cnx = s.nx1)
    guard (d.xnext = s.nx2 ∧ d.jac = (s.ndx2, s.ndx1, s.nu) ∧ d.cost = (s.cndx, s.nu) ∧ d.cstrs = s.cstrs)
  guard (xs[P.stages.length]? = some P.termNx ∧ m.termData = P.termNdx)
  guard (m.termCstrs = P.termCstrs.map fun c => (c.1, c.2.1))
  guard (P.termCstrs.all (fun c => c.2.2.all (· == P.termNu)) = true)

/-- `computeMultipliers` (solvers/proxddp/solver-proxddp.hxx:219-318) at `(xs, lams, vs)`: the slack of the initial
condition, `lams_plus`, `Lvs` and `stage_infeasibilities` are assigned, `shifted_constraints`, `vs_plus` and the active sets
are written in place. -/
def multipliers (P : Prob) (m : Mem) (xs lams vs : List ℕ) : Option Mem := do
  guard (m.Lvs.length = m.ws.prev_vs.length ∧ m.Lvs.length = m.nsteps + 1)
  guard (lams[0]? = some m.initData.1)
  guard (m.nsteps < m.ws.dyn_slacks.length ∧ m.nsteps < m.ws.lams_plus.length ∧
    m.nsteps < m.ws.stage_infeasibilities.length)
  allM m.nsteps fun i => do
    let s ← P.stages[i]?
    let d ← m.sd[i]?
    guard (vs[i]? = some s.nc ∧ lams[i + 1]? = some s.ndx2)
    guard (xs[i + 1]? = some s.nx2 ∧ d.xnext = s.nx2 ∧ m.ws.dyn_slacks[i + 1]? = some s.ndx2)
    guard (m.ws.shifted_constraints[i]? = some s.nc ∧ d.cstrs.map (·.1) = s.cstrs.map (·.1))
    guard (m.ws.prev_vs[i]? = some s.nc ∧ m.ws.vs_plus[i]? = some s.nc ∧ m.ws.active[i]? = some s.nc)
    guard (m.ws.product_sets[i]? = some (s.cstrs.map (·.1)))
  if P.termCstrs ≠ [] then
    guard (vs[m.nsteps]? = some P.termNc)
    guard (m.ws.shifted_constraints[m.nsteps]? = some P.termNc ∧ m.termCstrs.map (·.1) = P.termCstrs.map (·.1))
    guard (m.ws.prev_vs[m.nsteps]? = some P.termNc ∧ m.ws.vs_plus[m.nsteps]? = some P.termNc ∧
      m.ws.active[m.nsteps]? = some P.termNc)
    guard (m.ws.product_sets[m.nsteps]? = some (P.termCstrs.map (·.1)))
  let ncs := P.stages.map Stage.nc ++ if P.termCstrs = [] then [] else [P.termNc]
  some { m with
    Lvs := setPre m.Lvs ncs
    ws := { m.ws with
      dyn_slacks := setPre m.ws.dyn_slacks [m.initData.1]
      lams_plus := setPre m.ws.lams_plus (m.initData.1 :: P.stages.map (·.ndx2))
      stage_infeasibilities := setPre m.ws.stage_infeasibilities ncs } }

/-- `ALFunction::evaluate` (solvers/proxddp/merit-function.hxx:32-64) reads the multipliers by index. -/
def meritCall (P : Prob) (m : Mem) : Option Unit := do
  guard (P.stages.length < m.ws.lams_plus.length ∧ P.stages.length < m.ws.vs_plus.length)

/-- Size of `Lxs[i]` when node `i` is reached (core/lagrangian.hpp:50-53, 74-75). -/
def lxAt (m : Mem) (lams : List ℕ) (i : ℕ) : Option ℕ := if i = 0 then some m.initData.2 else lams[i]?

/-- `LagrangianDerivatives::compute` (core/lagrangian.hpp:28-92): `Lxs[0]`, `Lxs[i + 1]` and `Lus[i]` are assigned, the
other operations add to them. -/
def lagrangian (P : Prob) (m : Mem) (lams vs : List ℕ) : Option Mem := do
  let N := P.stages.length
  guard (N < m.Lxs.length ∧ N ≤ m.Lus.length)
  guard (lams[0]? = some m.initData.1)
  allM N fun i => do
    let s ← P.stages[i]?
    let d ← m.sd[i]?
    let lx ← lxAt m lams i
    guard (d.cost.1 = lx)
    guard (lams[i + 1]? = some d.jac.1 ∧ d.jac.2.1 = lx ∧ d.jac.2.2 = d.cost.2)
    guard (vs[i]? = some s.nc ∧ d.cstrs.map (·.1) = s.cstrs.map (·.1))
    guard (d.cstrs.all (fun c => c.2 == lx) = true)
  let lx ← lxAt m lams N
  guard (m.termData = lx ∧ vs[N]? = some P.termNc)
  guard (m.termCstrs.map (·.1) = P.termCstrs.map (·.1) ∧ m.termCstrs.all (fun c => c.2 == lx) = true)
  some { m with
    Lxs := setPre m.Lxs (m.initData.2 :: (lams.drop 1).take N)
    Lus := setPre m.Lus ((m.sd.take N).map fun d => d.cost.2) }

/-- `computeCriterion` (solvers/proxddp/solver-proxddp.hxx:703-732) reads by index. -/
def criterion (m : Mem) : Option Unit := do
  guard (m.nsteps < m.Lxs.length ∧ m.nsteps ≤ m.Lus.length ∧ m.nsteps ≤ m.ws.dyn_slacks.length ∧
    m.nsteps < m.Lvs.length)

/-- `computeProjectedJacobians` (solvers/proxddp/solver-proxddp.hxx:22-69): the blocks of the Jacobians are written in
place, the corrections are assigned. -/
def projectedJacobians (P : Prob) (m : Mem) : Option Mem := do
  guard (m.nsteps < m.lxCorr.length ∧ m.nsteps ≤ m.luCorr.length)
  allM m.nsteps fun i => do
    let s ← P.stages[i]?
    let d ← m.sd[i]?
    let j ← m.ws.proj_jacs[i]?
    guard (d.cstrs.map (·.1) = j.1 ∧ d.cstrs.all (fun c => c.2 == j.2.1) = true ∧ (s.cstrs ≠ [] → s.nu = j.2.2))
    guard (m.Lvs[i]? = some j.1.sum ∧ m.ws.shifted_constraints[i]? = some j.1.sum)
    guard (m.ws.product_sets[i]? = some j.1)
  if P.termCstrs ≠ [] then
    let j ← m.ws.proj_jacs[m.nsteps]?
    guard (m.termCstrs.map (·.1) = j.1 ∧ m.termCstrs.all (fun c => c.2 == j.2.1) = true)
    guard (m.Lvs[m.nsteps]? = some j.1.sum ∧ m.ws.shifted_constraints[m.nsteps]? = some j.1.sum)
    guard (m.ws.product_sets[m.nsteps]? = some j.1)
  let cols := (m.ws.proj_jacs.take (if P.termCstrs = [] then m.nsteps else m.nsteps + 1)).map fun j => j.2.1
  some { m with
    lxCorr := setPre m.lxCorr cols
    luCorr := setPre m.luCorr ((m.ws.proj_jacs.take m.nsteps).map fun j => j.2.2) }

/-- Sizes of a knot of the LQ subproblem once `updateLQSubproblem` has filled it. -/
structure LQ where
  A : ℕ × ℕ
  B : ℕ × ℕ
  f : ℕ
  Q : ℕ
  S : ℕ × ℕ
  R : ℕ
  q : ℕ
  r : ℕ
  C : ℕ × ℕ
  D : ℕ × ℕ
  d : ℕ
  deriving DecidableEq

/-- `updateLQSubproblem` (solvers/proxddp/solver-proxddp.hxx:746-785) for stage `t`: `A`, `B`, `f`, the blocks of the
Hessian, `q` and `r` are assigned from buffers of any size, `C`, `D` and `d` keep the size given by the constructor of the
knot (gar/lqr-problem.hxx:28-51). -/
def stageLQ (exact : Bool) (m : Mem) (t : ℕ) : Option LQ := do
  let sd ← m.sd[t]?
  let k ← m.ws.knots[t]?
  let f ← m.ws.dyn_slacks[t + 1]?
  let q ← m.Lxs[t]?
  let r ← m.Lus[t]?
  let j ← m.ws.proj_jacs[t]?
  guard (exact = true → sd.cost = (sd.jac.2.1, sd.jac.2.2))
  guard (k.2.2.1 = j.1.sum ∧ k.1 = j.2.1 ∧ k.2.1 = j.2.2 ∧ m.Lvs[t]? = some k.2.2.1)
  guard (k.1 ≤ q ∧ m.lxCorr[t]? = some k.1 ∧ k.2.1 ≤ r ∧ m.luCorr[t]? = some k.2.1)
  some { A := (sd.jac.1, sd.jac.2.1), B := (sd.jac.1, sd.jac.2.2), f := f, Q := sd.cost.1, S := sd.cost, R := sd.cost.2
         q := q, r := r, C := (k.2.2.1, k.1), D := (k.2.2.1, k.2.1), d := k.2.2.1 }

/-- `updateLQSubproblem` (solvers/proxddp/solver-proxddp.hxx:787-797), terminal knot: sizes of `Q`, `q`, `C` and `d`. -/
def termLQ (m : Mem) : Option (ℕ × ℕ × (ℕ × ℕ) × ℕ) := do
  let q ← m.Lxs[m.nsteps]?
  let j ← m.ws.proj_jacs[m.nsteps]?
  let d ← m.Lvs[m.nsteps]?
  guard (m.lxCorr[m.nsteps]? = some q)
  some (m.termData, q, (j.1.sum, j.2.1), d)

/-- Sizes of the cost-to-go (`Vxx`, `vx`) of node `t`: those of `Q` and `q` (gar/riccati-kernel.hxx:175-178, 272-277). -/
def valueAt (m : Mem) (t : ℕ) : Option (ℕ × ℕ) :=
  if t = m.nsteps then (m.Lxs[t]?).map fun q => (m.termData, q)
  else match m.sd[t]?, m.Lxs[t]? with
    | some d, some q => some (d.cost.1, q)
    | _, _ => none

/-- `stageKernelSolve` (gar/riccati-kernel.hxx:209-277) of stage `t`; the gains `ff`, `fb` and the stage matrix are written
block by block in the sizes of the factor, which are those of the knot. -/
def backwardStage (exact : Bool) (m : Mem) (t : ℕ) : Option Unit := do
  let l ← stageLQ exact m t
  let k ← m.ws.knots[t]?
  let d ← m.solver.datas[t]?
  guard (d = k)
  let v ← valueAt m (t + 1)
  guard (l.f = v.1 ∧ v.2 = v.1)
  guard (l.A.1 = v.1 ∧ l.B.1 = v.1)
  guard (l.Q = l.A.2 ∧ l.R = l.B.2 ∧ l.S = (l.A.2, l.B.2) ∧ l.q = l.A.2 ∧ l.r = l.B.2)
  guard (d.2.1 = l.R ∧ l.D = (d.2.2.1, d.2.1))
  guard (d.2.1 = l.r ∧ d.2.2.1 = l.d)
  guard (l.S = (d.1, d.2.1) ∧ l.C = (d.2.2.1, d.1))
  guard (d.2.2.2 = l.f ∧ l.B = (d.2.2.2, d.2.1) ∧ l.A = (d.2.2.2, d.1))
  guard (l.C.2 = l.Q)

/-- `terminalSolve` (gar/riccati-kernel.hxx:130-193) for the terminal knot of the workspace, which has no control
(solvers/proxddp/workspace.hxx:54-55). -/
def backwardTerm (m : Mem) : Option Unit := do
  let l ← termLQ m
  let k ← m.ws.knots[m.nsteps]?
  let d ← m.solver.datas[m.nsteps]?
  guard (d = k ∧ k.2.1 = 0)
  guard (l.2.2.1 = (d.2.2.1, d.1) ∧ l.2.2.2 = d.2.2.1)
  guard (l.2.2.1.2 = l.1 ∧ l.2.1 = l.1)

/-- `backward` of the serial solver (gar/proximal-riccati.hxx:33-62, gar/riccati-kernel.hxx:104-129) after the last lines of
`updateLQSubproblem` (solvers/proxddp/solver-proxddp.hxx:799-804). -/
def backward (exact : Bool) (m : Mem) : Option Unit := do
  guard (m.ws.knots.length = m.nsteps + 1 ∧ m.solver.datas.length = m.nsteps + 1)
  let v ← valueAt m 0
  guard (v.1 = m.initData.2)
  backwardTerm m
  allM m.nsteps (backwardStage exact m)
  guard (m.solver.kkt0.1 = v.1 ∧ m.solver.kkt0.1 = v.2)
  guard (m.solver.kkt0 = (m.initData.2, m.initData.1))

/-- Size of `dxs[t]` when the forward pass reaches node `t`: `dxs[0]` is written in place, the next ones are assigned
(gar/riccati-kernel.hxx:195-207, 358-361). -/
def dxAt (m : Mem) (t : ℕ) : Option ℕ :=
  if t = 0 then m.ws.dxs[0]? else (m.solver.datas[t - 1]?).map fun d => d.2.2.2

/-- One turn of `forwardImpl` (gar/riccati-kernel.hxx:324-375).  The assertions make the controls, multipliers and costates
keep their sizes. -/
def forwardStage (m : Mem) (t : ℕ) : Option Unit := do
  let d ← m.solver.datas[t]?
  let k ← m.ws.knots[t]?
  guard (d = k)
  let dx ← dxAt m t
  guard (dx = k.1 ∧ m.ws.dvs[t]? = some k.2.2.1)
  guard (0 < k.2.1 → m.ws.dus[t]? = some k.2.1)
  if t < m.nsteps then
    let f ← m.ws.dyn_slacks[t + 1]?
    guard (m.ws.dlams[t + 1]? = some f)
    let v ← valueAt m (t + 1)
    guard (v.2 = v.1 ∧ v.1 = d.2.2.2)
    guard (t + 1 < m.ws.dxs.length)

/-- `forward` of the serial solver (gar/proximal-riccati.hxx:64-76). -/
def forward (m : Mem) : Option Mem := do
  guard (m.ws.dxs[0]? = some m.solver.kkt0.1 ∧ m.ws.dlams[0]? = some m.solver.kkt0.2)
  allM m.solver.datas.length (forwardStage m)
  let dx ← m.ws.dxs[0]?
  some { m with ws := { m.ws with
    dxs := setPre m.ws.dxs (dx :: (m.solver.datas.take m.nsteps).map fun d => d.2.2.2) } }

/-- Rows of the gains of a factor. -/
def gainRows (d : KnotDim) : ℕ := d.2.1 + d.2.2.1 + d.2.2.2

/-- The gains copied into the results (solvers/proxddp/solver-proxddp.hxx:614-633): all assignments go to `Ref`s. -/
def copyGains (m : Mem) : Option Unit :=
  allM (m.nsteps + 1) fun i => do
    let d ← m.solver.datas[i]?
    guard (m.gains[i]? = some (gainRows d, d.1 + 1))

/-- `directionalDerivative` (solvers/proxddp/merit-function.hxx:66-105). -/
def directional (P : Prob) (m : Mem) : Option Mem := do
  let m1 ← lagrangian P m m.ws.lams_plus m.ws.vs_plus
  guard (m1.ws.dxs.length = m1.nsteps + 1 ∧ m1.ws.dus.length = m1.nsteps ∧ m1.ws.dvs.length = m1.nsteps + 1 ∧
    m1.ws.dlams.length = m1.nsteps + 1)
  guard ((m1.Lxs[0]?).isSome = true ∧ m1.Lxs[0]? = m1.ws.dxs[0]?)
  allM m1.nsteps fun i => do
    guard ((m1.Lxs[i + 1]?).isSome = true ∧ m1.Lxs[i + 1]? = m1.ws.dxs[i + 1]?)
    guard ((m1.Lus[i]?).isSome = true ∧ m1.Lus[i]? = m1.ws.dus[i]?)
  some m1

/-- `tryLinearStep` (solvers/proxddp/solver-proxddp.hxx:110-155); the trial multipliers are assigned
(math.hpp:226-235), the trial states and controls are written in place. -/
def linearStep (P : Prob) (m : Mem) : Option Mem := do
  guard (m.xs.length = m.nsteps + 1 ∧ m.us.length = m.nsteps ∧ m.lams.length = m.nsteps + 1 ∧
    m.vs.length = m.nsteps + 1)
  guard (m.lams = m.ws.dlams ∧ m.lams.length = m.ws.trial_lams.length)
  guard (m.vs = m.ws.dvs ∧ m.vs.length = m.ws.trial_vs.length)
  allM m.nsteps fun i => do
    let s ← P.stages[i]?
    guard (m.ws.dxs[i]? = some s.ndx1 ∧ m.ws.dus[i]? = some s.nu)
    guard (m.xs[i]? = some s.nx1 ∧ m.ws.trial_xs[i]? = some s.nx1)
    guard (m.us[i]? = some s.nu ∧ m.ws.trial_us[i]? = some s.nu)
  guard (0 < m.nsteps)
  let s ← P.stages[m.nsteps - 1]?
  guard (m.ws.dxs[m.nsteps]? = some s.ndx2 ∧ m.xs[m.nsteps]? = some s.nx2 ∧ m.ws.trial_xs[m.nsteps]? = some s.nx2)
  let m1 := { m with ws := { m.ws with trial_lams := m.lams, trial_vs := m.vs } }
  problemCall P m1 m1.ws.trial_xs m1.ws.trial_us
  some m1

/-- Size of `trial_xs[t]` when the nonlinear rollout reaches stage `t` (solvers/proxddp/solver-proxddp.hxx:345-346,
375). -/
def trialXAt (m : Mem) (t : ℕ) : Option ℕ :=
  if t = 0 then m.ws.trial_xs[0]? else (m.sd[t - 1]?).map (·.xnext)

/-- `tryNonlinearRollout` (solvers/proxddp/solver-proxddp.hxx:322-416). -/
def nonlinearStep (P : Prob) (m : Mem) : Option Mem := do
  let s0 ← P.stages[0]?
  guard (m.ws.dxs[0]? = some s0.ndx1 ∧ m.xs[0]? = some s0.nx1 ∧ m.ws.trial_xs[0]? = some s0.nx1)
  guard ((m.lams[0]?).isSome = true ∧ m.lams[0]? = m.ws.dlams[0]?)
  guard (m.nsteps < m.ws.trial_lams.length ∧ m.nsteps < m.ws.trial_vs.length ∧ m.nsteps < m.ws.trial_xs.length)
  guard (m.nsteps ≤ m.ws.dus.length ∧ m.nsteps < m.ws.dvs.length)
  allM m.nsteps fun t => do
    let s ← P.stages[t]?
    let d ← m.sd[t]?
    let g ← m.solver.datas[t]?
    guard (gainRows g = s.nu + s.nc + s.ndx2 ∧ g.1 = s.ndx1)
    guard (m.ws.dxs[t]? = some s.ndx1)
    guard (m.us[t]? = some s.nu ∧ m.ws.trial_us[t]? = some s.nu)
    guard (m.vs[t]? = some s.nc)
    guard (trialXAt m t = some s.nx1 ∧ s.cnx = s.nx1)
    guard (d.xnext = s.nx2 ∧ d.cost = (s.cndx, s.nu) ∧ d.cstrs = s.cstrs)
    guard (m.xs[t + 1]? = some s.nx2 ∧ m.ws.dxs[t + 1]? = some s.ndx2)
    guard ((m.lams[t + 1]?).isSome = true ∧ m.lams[t + 1]? = m.ws.dlams[t + 1]?)
  guard (trialXAt m m.nsteps = some P.termNx)
  guard (P.termCstrs.all (fun c => c.2.2.all (· == P.termNu)) = true)
  if P.termCstrs ≠ [] then
    let k ← m.ws.knots[m.nsteps]?
    let g ← m.solver.datas[m.nsteps]?
    guard (gainRows g = k.2.1 + k.2.2.1 ∧ g.1 = k.1)
    guard (m.ws.dxs[m.nsteps]? = some k.1)
    guard (m.vs[m.nsteps]? = some k.2.2.1)
  let ncs := P.stages.map Stage.nc ++ if P.termCstrs = [] then [] else [P.termNc]
  let x0 ← m.ws.trial_xs[0]?
  some { m with ws := { m.ws with
    trial_xs := setPre m.ws.trial_xs (x0 :: (m.sd.take m.nsteps).map (·.xnext))
    trial_lams := setPre m.ws.trial_lams (m.lams.take (m.nsteps + 1))
    trial_vs := setPre m.ws.trial_vs ncs
    dus := setPre m.ws.dus (P.stages.map (·.nu))
    dvs := setPre m.ws.dvs ncs } }

/-- Options that change what is executed: rollout, exact Hessians, forced initial condition
(solvers/proxddp/solver-proxddp.hpp:155-171). -/
structure Cfg where
  linear : Bool
  exact : Bool
  forced : Bool

/-- `forwardPass` (solvers/proxddp/solver-proxddp.hxx:535-552). -/
def forwardPass (c : Cfg) (P : Prob) (m : Mem) : Option Mem := do
  let m1 ← if c.linear then linearStep P m else nonlinearStep P m
  let m2 ← multipliers P m1 m1.ws.trial_xs m1.ws.trial_lams m1.ws.trial_vs
  meritCall P m2
  some m2

/-- The trials of the linesearch or filter: `n` forward passes. -/
def trials (c : Cfg) (P : Prob) : ℕ → Mem → Option Mem
  | 0, m => some m
  | n + 1, m =>
    match forwardPass c P m with
    | none => none
    | some m1 => trials c P n m1

/-- One pass through the linear solver (solvers/proxddp/solver-proxddp.hxx:603-642), up to the directional derivative. -/
def direction (c : Cfg) (P : Prob) (m : Mem) : Option Mem := do
  let m1 ← projectedJacobians P m
  backward c.exact m1
  let m2 ← forward m1
  copyGains m2
  directional P m2

/-- How far a turn of the inner loop gets: convergence test (:600-601), test of the slope (:644-645), or a number of
trials, the last of which is accepted (:665-668). -/
inductive Turn
  | converged
  | flat
  | step (trials : ℕ)

/-- One turn of the inner loop (solvers/proxddp/solver-proxddp.hxx:577-699). -/
def iteration (c : Cfg) (P : Prob) (t : Turn) (m : Mem) : Option Mem := do
  problemCall P m m.xs m.us
  let m1 ← lagrangian P m m.lams m.vs
  criterion m1
  match t with
  | .converged => some m1
  | .flat => direction c P m1
  | .step n =>
    let m2 ← direction c P m1
    let m3 ← trials c P n m2
    some { m3 with xs := m3.ws.trial_xs, us := m3.ws.trial_us, vs := m3.ws.trial_vs, lams := m3.ws.trial_lams }

/-- The turns of an inner loop, the last entry first. -/
def turns (c : Cfg) (P : Prob) (m : Mem) : List Turn → Option Mem
  | [] => some m
  | t :: ts =>
    match turns c P m ts with
    | none => none
    | some m1 => iteration c P t m1

/-- `innerLoop` (solvers/proxddp/solver-proxddp.hxx:554-701). -/
def innerLoop (c : Cfg) (P : Prob) (ts : List Turn) (m : Mem) : Option Mem := do
  problemCall P m m.xs m.us
  let m1 ← multipliers P m m.xs m.lams m.vs
  meritCall P m1
  turns c P m1 ts

/-- What becomes of the multiplier estimates after an inner loop (solvers/proxddp/solver-proxddp.hxx:490-522). -/
inductive Upd
  | failed
  | newton
  | primal
  | primalDual

/-- The assignments after an inner loop (solvers/proxddp/solver-proxddp.hxx:486-507). -/
def outer (u : Upd) (m : Mem) : Mem :=
  { m with ws := { m.ws with
    prev_xs := m.xs
    prev_us := m.us
    prev_vs := match u with
      | .failed => m.ws.prev_vs
      | .newton => m.vs
      | .primal => m.ws.vs_plus
      | .primalDual => m.vs_pdal } }

/-- The beginning of `run` (solvers/proxddp/solver-proxddp.hxx:441-464): guesses have the sizes of the results, or are
replaced by the default ones (C29); with a forced initial condition the initial state is copied, which throws if there is
none (core/traj-opt-problem.hpp:166-170). -/
def start (c : Cfg) (P : Prob) (m : Mem) : Option Mem := do
  let tx ← if c.forced then
      match P.x0 with
      | none => none
      | some x => if m.ws.trial_lams = [] then none else setAt m.ws.trial_xs 0 x
    else some m.ws.trial_xs
  some { m with ws := { m.ws with trial_xs := tx, prev_xs := m.xs, prev_us := m.us, prev_vs := m.vs } }

/-- The outer loop of `run` (solvers/proxddp/solver-proxddp.hxx:479-527), the last entry first. -/
def outerLoop (c : Cfg) (P : Prob) (m : Mem) : List (List Turn × Upd) → Option Mem
  | [] => some m
  | (ts, u) :: rest =>
    match outerLoop c P m rest with
    | none => none
    | some m1 => (innerLoop c P ts m1).map (outer u)

/-- `run` (solvers/proxddp/solver-proxddp.hxx:420-531). -/
def run (c : Cfg) (P : Prob) (loops : List (List Turn × Upd)) (m : Mem) : Option Mem := do
  let m1 ← start c P m
  outerLoop c P m1 loops

/-! ### Shifts -/

/-- The problem after `replaceStageCircular(s)` (core/traj-opt-problem.hxx:167-174). -/
def Prob.shift (P : Prob) (s : Stage) : Prob := { P with stages := P.stages.tail ++ [s] }

/-- `ResultsTpl::cycleAppend` (solvers/proxddp/results.hxx:43-72), sizes of `(xs, us, vs, lams, gains)`. -/
def resultsCycle (m : Mem) (P : Prob) (x0 : ℕ) :
    Option (List ℕ × List ℕ × List ℕ × List ℕ × List (ℕ × ℕ)) := do
  let xs ← frontFromBack m.xs
  let us ← frontFromBack m.us
  let xs ← rotateLeft xs 0 0
  let us ← rotateLeft us 0 0
  let vs ← rotateLeft m.vs 0 1
  let lams ← rotateLeft m.lams 0 0
  let gains ← rotateLeft m.gains 0 1
  let xs ← setAt xs 0 x0
  let N := P.stages.length
  let sm ← P.stages[N - 1]?
  let gains ← setAt gains (N - 1) (sm.nu + sm.nc + sm.ndx2, sm.ndx1 + 1)
  let vs ← setAt vs (N - 1) sm.nc
  let lams ← setAt lams N sm.ndx2
  let lams ← setAt lams 0 P.initNr
  if P.termCstrs = [] then some (xs, us, vs, lams, gains)
  else
    let gains ← setAt gains N (P.termNc, P.termNdx + 1)
    let vs ← setAt vs N P.termNc
    some (xs, us, vs, lams, gains)

/-- `cycleProblem` (solvers/proxddp/solver-proxddp.hxx:201-209) for the problem `P` after the shift, with data `d` of its
last stage: `getInitState` throws without a state-error condition; then results, workspace
(solvers/proxddp/workspace.hxx:96-155) and serial solver (gar/proximal-riccati.hxx:78-86). -/
def cycle (m : Mem) (P : Prob) (d : SData) : Option Mem := do
  let x0 ← P.x0
  let r ← resultsCycle m P x0
  let sd ← rotateLeft m.sd 0 0
  let sd ← setAt sd (m.nsteps - 1) d
  let w ← m.ws.cycleAppend P.toCycle
  let ws ← w
  let k ← ws.knots[m.nsteps - 1]?
  let solver ← m.solver.cycleAppend ws.knots k
  some { m with
    sd := sd, ws := ws, vs_pdal := ws.trial_vs
    Lxs := ws.dxs, Lus := ws.dus, Lvs := ws.dvs, lxCorr := ws.dxs, luCorr := ws.dus
    solver := solver
    xs := r.1, us := r.2.1, vs := r.2.2.1, lams := r.2.2.2.1, gains := r.2.2.2.2 }

/-- What a controller does: solve, or replace the first stage by a new last one and shift the solver. -/
inductive Cmd
  | solve (c : Cfg) (loops : List (List Turn × Upd))
  | shift (s : Stage)

/-- One command; the data of a new stage is created by that stage. -/
def exec (P : Prob) (m : Mem) : Cmd → Option (Prob × Mem)
  | .solve c loops => (run c P loops m).map fun m1 => (P, m1)
  | .shift s => (cycle m (P.shift s) (SData.create s)).map fun m1 => (P.shift s, m1)

/-- A sequence of commands, the first entry first. -/
def control (P : Prob) (m : Mem) : List Cmd → Option (Prob × Mem)
  | [] => some (P, m)
  | c :: cs =>
    match exec P m c with
    | none => none
    | some (P1, m1) => control P1 m1 cs

end Aligator.PMem
