import Mathlib.Data.List.Basic
import Mathlib.Data.Real.Basic
import Verif.Model.GetWork

/-!
# Model of problem dimensions, initial guesses and receding-horizon shifts

Vectors are lists of coefficients, so that the dimension of a vector is the length of the list.
`none` stands for undefined behaviour of the container operations (`std::rotate` on an empty range,
`front()` of an empty vector, an index out of range).
-/

namespace Aligator.Cycle

/-- `VectorXs`. -/
abbrev Vec := List ℝ

/-- `MatrixXs`: dimensions and coefficients. -/
structure Mat where
  rows : ℕ
  cols : ℕ
  coef : List ℝ

/-- `setZero(n)` on a vector. -/
def zeroVec (n : ℕ) : Vec := List.replicate n 0

/-- `setZero(rows, cols)` on a matrix. -/
def zeroMat (r c : ℕ) : Mat := ⟨r, c, List.replicate (r * c) 0⟩

/-- The dimensions of a stage model (core/stage-model.hpp:90-96) and the neutral elements of its state
spaces.  `cdims` are the dimensions of its constraints. -/
structure Stage where
  nx1 : ℕ
  ndx1 : ℕ
  nu : ℕ
  nx2 : ℕ
  ndx2 : ℕ
  cdims : List ℕ
  neutral : Vec
  neutralNext : Vec

/-- `nc()` (core/stage-model.hpp:96). -/
def Stage.nc (s : Stage) : ℕ := s.cdims.sum

/-- `TrajOptProblemTpl` (core/traj-opt-problem.hpp:101-128): the parts that matter for dimensions and initial
guesses.  `initState` is the target of the initial condition if it is a `StateErrorResidual`, `initCached`
is the cached flag `init_cond_is_state_error_`. -/
structure Prob where
  stages : List Stage
  initNr : ℕ
  initNdx1 : ℕ
  initState : Option Vec
  initCached : Bool
  termNx : ℕ
  termNdx : ℕ
  termDims : List ℕ

/-- `term_cstrs_.totalDim()`. -/
def Prob.termNc (P : Prob) : ℕ := P.termDims.sum

/-! ### Receding-horizon shift of the problem -/

/-- `rotate_vec_left` (utils/mpc-util.hpp:16-22): rotate the elements between `n_head` and
`size - n_tail`.  `std::rotate` on an empty range with `middle = beg + 1` is undefined. -/
def rotateLeft {α : Type*} (v : List α) (nHead nTail : ℕ) : Option (List α) :=
  match (v.drop nHead).take (v.length - nHead - nTail) with
  | [] => none
  | a :: r => some (v.take nHead ++ r ++ a :: v.drop (v.length - nTail))

/-- `replaceStageCircular` (core/traj-opt-problem.hxx:167-174): push, rotate, pop; returns the stages and the
popped stage. -/
def replaceStageCircular {S : Type*} (stages : List S) (model : S) : Option (List S × S) := do
  let v ← rotateLeft (stages ++ [model]) 0 0
  let last ← v.getLast?
  return (v.dropLast, last)

/-- The loop of `checkIntegrity` (core/traj-opt-problem.hxx:147-153) from stage `prev` on, and the final check
against the terminal cost (:156-157). -/
def chainOk (termNx termNdx : ℕ) : Stage → List Stage → Bool
  | prev, [] => prev.nx2 == termNx && prev.ndx2 == termNdx
  | prev, s :: ss => prev.nx2 == s.nx1 && prev.ndx2 == s.ndx1 && chainOk termNx termNdx s ss

/-- `checkIntegrity` (core/traj-opt-problem.hxx:132-159).  Moved-from (valueless) stages are not modelled. -/
def Prob.checkIntegrity (P : Prob) : Bool :=
  if P.initCached != P.initState.isSome then false else
  match P.stages with
  | [] => true
  | s :: ss => s.ndx1 == P.initNdx1 && chainOk P.termNx P.termNdx s ss

/-! ### Initial guesses -/

/-- `us_default_init` (core/traj-opt-problem.hpp:307-316): the control space of a stage is a vector space, its
neutral element is zero. -/
def usDefaultInit (P : Prob) : List Vec := P.stages.map fun s => zeroVec s.nu

/-- `xs_default_init` (core/traj-opt-problem.hpp:283-303); `none` is the exception. -/
def xsDefaultInit (P : Prob) : Option (List Vec) :=
  match P.initState, P.stages with
  | some x0, ss => some (x0 :: ss.map fun s => s.neutralNext)
  | none, s :: ss => some (s.neutral :: (s :: ss).map fun s => s.neutralNext)
  | none, [] => none

/-- `assign_no_resize` (core/traj-opt-problem.hpp:68-89): returns the success flag and the (possibly partially
overwritten) destination. -/
def assignLoop : List Vec → List Vec → Bool × List Vec
  | l :: ls, r :: rs =>
    if l.length ≠ r.length then (false, r :: rs)
    else ((assignLoop ls rs).1, l :: (assignLoop ls rs).2)
  | _, rs => (true, rs)

/-- See `assignLoop`; the lengths of the two vectors are compared first (core/traj-opt-problem.hpp:75-76). -/
def assignNoResize (lhs rhs : List Vec) : Bool × List Vec :=
  if lhs.length ≠ rhs.length then (false, rhs) else assignLoop lhs rhs

/-- The result of the guess handling: the new `(xs, us)`, or an exception with the state it leaves. -/
inductive Guess
  | ok (xs us : List Vec)
  | throws (xs us : List Vec)

/-- `check_initial_guess_and_assign` (core/traj-opt-problem.hpp:327-344) with the strategy `strat` set by
`setInitializationStrategy` (`none`: it throws). -/
def checkInitialGuess (strat : Prob → Option (List Vec)) (P : Prob) (xsIn usIn xsOut usOut : List Vec) :
    Guess :=
  if xsIn = [] then
    match strat P with
    | some xs => .ok xs (usDefaultInit P)
    | none => .throws xsOut usOut
  else if usIn = [] then .ok xsOut (usDefaultInit P)
  else
    let a := assignNoResize xsIn xsOut
    if a.1 = false then .throws a.2 usOut
    else
      let b := assignNoResize usIn usOut
      if b.1 = false then .throws a.2 b.2 else .ok a.2 b.2

/-- The multiplier guesses of `run` (solvers/proxddp/solver-proxddp.hxx:443-450): a wrong size only prints a
warning. -/
def assignMultipliers (vsIn vsOut : List Vec) : List Vec :=
  if vsIn = [] then vsOut else (assignNoResize vsIn vsOut).2

/-! ### The initial state over the iterations -/

/-- What an iteration of the inner loop does to `results.xs[0]`: the LQ solver proposes `dxs[0] = dx`, set to
zero if the initial condition is forced (solvers/proxddp/solver-proxddp.hxx:635-638); the search tries step
lengths, each trial setting `trial_xs[0] = integrate(xs[0], alpha * dxs[0])` (:139-143, :343-346); the last
trial is accepted (:665).  `alphas` are the step lengths tried; without any trial nothing is accepted. -/
def iterateX0 {X : Type*} (integrate : X → (ℕ → ℝ) → X) (forced : Bool) (x : X) (dx : ℕ → ℝ)
    (alphas : List ℝ) : X :=
  let d := if forced then (fun _ => 0) else dx
  match alphas.getLast? with
  | none => x
  | some α => integrate x fun i => α * d i

/-- `results.xs[0]` after a sequence of iterations.  `run` writes the initial state of the problem only into
`trial_xs[0]` (solvers/proxddp/solver-proxddp.hxx:452-455), which the first trial overwrites. -/
def runX0 {X : Type*} (integrate : X → (ℕ → ℝ) → X) (forced : Bool) (x : X) :
    List ((ℕ → ℝ) × List ℝ) → X
  | [] => x
  | (dx, alphas) :: rest => runX0 integrate forced (iterateX0 integrate forced x dx alphas) rest

/-! ### Results -/

/-- `ResultsTpl` (solvers/proxddp/results.hpp:12-44): the buffers. -/
structure Results where
  xs : List Vec
  us : List Vec
  vs : List Vec
  lams : List Vec
  gains : List Mat

/-- The constructor of `ResultsTpl` (solvers/proxddp/results.hxx:14-41) with the default initialisation;
`none` is the exception.  `vs[nsteps]` stays empty when there is no terminal constraint. -/
def Results.create (P : Prob) : Option Results :=
  if P.checkIntegrity = false then none else do
  let xs ← xsDefaultInit P
  return {
    xs := xs
    us := usDefaultInit P
    vs := (P.stages.map fun s => zeroVec s.nc) ++ [zeroVec P.termNc]
    lams := zeroVec P.initNr :: P.stages.map fun s => zeroVec s.ndx2
    gains := (P.stages.map fun s => zeroMat (s.nu + s.nc + s.ndx2) (s.ndx1 + 1)) ++
      [zeroMat P.termNc (P.termNdx + 1)] }

/-- `v.front() = v.back()`. -/
def frontFromBack {α : Type*} : List α → Option (List α)
  | [] => none
  | a :: l => some ((a :: l).getLast (by simp) :: l)

/-- `v[i] = a`; out of range is undefined. -/
def setAt {α : Type*} (v : List α) (i : ℕ) (a : α) : Option (List α) :=
  if i < v.length then some (v.set i a) else none

/-- `ResultsTpl::cycleAppend` (solvers/proxddp/results.hxx:43-72); `P` is the problem after the shift. -/
def Results.cycleAppend (r : Results) (P : Prob) (x0 : Vec) : Option Results := do
  let xs ← frontFromBack r.xs
  let us ← frontFromBack r.us
  let xs ← rotateLeft xs 0 0
  let us ← rotateLeft us 0 0
  let vs ← rotateLeft r.vs 0 1
  let lams ← rotateLeft r.lams 0 0
  let gains ← rotateLeft r.gains 0 1
  let xs ← setAt xs 0 x0
  let N := P.stages.length
  let sm ← P.stages[N - 1]?
  let gains ← setAt gains (N - 1) (zeroMat (sm.nu + sm.nc + sm.ndx2) (sm.ndx1 + 1))
  let vs ← setAt vs (N - 1) (zeroVec sm.nc)
  let lams ← setAt lams N (zeroVec sm.ndx2)
  let lams ← setAt lams 0 (zeroVec P.initNr)
  if P.termDims = [] then
    return { xs := xs, us := us, vs := vs, lams := lams, gains := gains }
  else
    let gains ← setAt gains N (zeroMat P.termNc (P.termNdx + 1))
    let vs ← setAt vs N (zeroVec P.termNc)
    return { xs := xs, us := us, vs := vs, lams := lams, gains := gains }

/-! ### Workspace (dimensions only) -/

/-- The dimensions `(nx, nu, nc, nx2)` of a knot of the LQ subproblem (gar/lqr-problem.hpp:60-70): with three
arguments `nx2 = nx`. -/
abbrev KnotDim := ℕ × ℕ × ℕ × ℕ

/-- The dimensions of the buffers of `WorkspaceTpl` (solvers/proxddp/workspace.hpp:33-107); each vector buffer
is the list of its dimensions, a projected Jacobian its row blocks and its two column blocks. -/
structure Workspace where
  trial_xs : List ℕ
  trial_us : List ℕ
  trial_vs : List ℕ
  trial_lams : List ℕ
  prev_xs : List ℕ
  prev_us : List ℕ
  prev_vs : List ℕ
  vs_plus : List ℕ
  lams_plus : List ℕ
  dyn_slacks : List ℕ
  stage_infeasibilities : List ℕ
  shifted_constraints : List ℕ
  knots : List KnotDim
  nc0 : ℕ
  product_sets : List (List ℕ)
  proj_jacs : List (List ℕ × ℕ × ℕ)
  active : List ℕ
  dxs : List ℕ
  dus : List ℕ
  dvs : List ℕ
  dlams : List ℕ
  deriving DecidableEq

/-- `lqrInitializeSolution` (gar/utils.hpp:114-142), dimensions only. -/
def lqrInit (knots : List KnotDim) (nc0 : ℕ) : List ℕ × List ℕ × List ℕ × List ℕ :=
  (knots.map (·.1),
   (if (knots.getLast?.map (·.2.1)) = some 0 then (knots.map (·.2.1)).dropLast else knots.map (·.2.1)),
   knots.map (·.2.2.1),
   nc0 :: knots.dropLast.map (·.2.2.2))

/-- The constructor of `WorkspaceTpl` (solvers/proxddp/workspace.hxx:15-94) for a problem whose initial state has
dimension `nx0`. -/
def Workspace.create (P : Prob) (nx0 : ℕ) : Workspace :=
  let knots : List KnotDim := (P.stages.map fun s => (s.ndx1, s.nu, s.nc, s.ndx1)) ++
    [(P.termNdx, 0, P.termNc, 0)]
  let xs := nx0 :: P.stages.map (·.nx2)
  let us := P.stages.map (·.nu)
  let vs := P.stages.map (·.nc) ++ [P.termNc]
  let lams := P.initNr :: P.stages.map (·.ndx2)
  let sol := lqrInit knots P.initNr
  { trial_xs := xs, trial_us := us, trial_vs := vs, trial_lams := lams
    prev_xs := xs, prev_us := us, prev_vs := vs
    vs_plus := vs, lams_plus := lams, dyn_slacks := lams
    stage_infeasibilities := vs, shifted_constraints := vs
    knots := knots, nc0 := P.initNr
    product_sets := P.stages.map (·.cdims) ++ [P.termDims]
    proj_jacs := (P.stages.map fun s => (s.cdims, s.ndx1, s.nu)) ++ [(P.termDims, P.termNdx, 0)]
    active := P.stages.map (·.nc) ++ [P.termNc]
    dxs := sol.1, dus := sol.2.1, dvs := sol.2.2.1, dlams := sol.2.2.2 }

/-- `WorkspaceTpl::cycleAppend` (solvers/proxddp/workspace.hxx:96-155), dimensions only; `P` is the problem
after the shift; `none` is undefined behaviour, `some none` the exception of the integrity check. -/
def Workspace.cycleAppend (w : Workspace) (P : Prob) : Option (Option Workspace) := do
  let N := P.stages.length
  let stage ← P.stages[N - 1]?
  if P.checkIntegrity = false then return none else
  let trial_xs ← rotateLeft w.trial_xs 1 0
  let trial_us ← rotateLeft w.trial_us 1 0
  let trial_vs ← rotateLeft w.trial_vs 0 1
  let trial_vs ← setAt trial_vs (N - 1) stage.nc
  let trial_lams ← rotateLeft w.trial_lams 1 0
  let prev_xs ← rotateLeft w.prev_xs 0 0
  let prev_us ← rotateLeft w.prev_us 0 0
  let prev_vs ← rotateLeft w.prev_vs 0 1
  let prev_vs ← setAt prev_vs (N - 1) stage.nc
  let knots ← rotateLeft w.knots 0 1
  let knots ← setAt knots (N - 1) (stage.ndx1, stage.nu, stage.nc, stage.ndx1)
  let product_sets ← rotateLeft w.product_sets 0 1
  let product_sets ← setAt product_sets (N - 1) stage.cdims
  let proj_jacs ← rotateLeft w.proj_jacs 0 1
  let proj_jacs ← setAt proj_jacs (N - 1) (stage.cdims, stage.ndx1, stage.nu)
  let active ← rotateLeft w.active 0 1
  let active ← setAt active (N - 1) stage.nc
  let sol := lqrInit knots w.nc0
  return some
    { trial_xs := trial_xs, trial_us := trial_us, trial_vs := trial_vs, trial_lams := trial_lams
      prev_xs := prev_xs, prev_us := prev_us, prev_vs := prev_vs
      vs_plus := trial_vs, lams_plus := trial_lams, dyn_slacks := trial_lams
      stage_infeasibilities := trial_vs, shifted_constraints := prev_vs
      knots := knots, nc0 := w.nc0
      product_sets := product_sets, proj_jacs := proj_jacs, active := active
      dxs := sol.1, dus := sol.2.1, dvs := sol.2.2.1, dlams := sol.2.2.2 }

/-- The dimensions of the buffers of `ProximalRiccatiSolver` (gar/proximal-riccati.hxx:11-31): the factors and
the initial-stage block `(nx, nc0)`. -/
structure SerialSolver where
  datas : List KnotDim
  kkt0 : ℕ × ℕ
  deriving DecidableEq

/-- The constructor (gar/proximal-riccati.hxx:11-31). -/
def SerialSolver.create (knots : List KnotDim) (nc0 : ℕ) : SerialSolver :=
  { datas := knots, kkt0 := ((knots.head?.map (·.1)).getD 0, nc0) }

/-- `ProximalRiccatiSolver::cycleAppend` (gar/proximal-riccati.hxx:78-86). -/
def SerialSolver.cycleAppend (s : SerialSolver) (knots : List KnotDim) (knot : KnotDim) :
    Option SerialSolver := do
  let datas ← rotateLeft s.datas 0 1
  let datas ← setAt datas (knots.length - 2) knot
  return { s with datas := datas }

/-! ### The other two linear solvers (dimensions only) -/

/-- A knot of the LQ subproblem with its parameter dimension `nth` (gar/lqr-problem.hpp:60-70). -/
structure PKnot where
  dim : KnotDim
  nth : ℕ
  deriving DecidableEq

/-- `LqrKnotTpl::addParameterization` (gar/lqr-problem.hxx:231-240): the parametric blocks are reallocated and
zeroed. -/
def PKnot.addParam (k : PKnot) (nth : ℕ) : PKnot := { k with nth := nth }

/-- The dimensions of the buffers of `RiccatiSolverDense` (gar/dense-riccati.hpp:25-41): the blocks of the stage
factors, the size of each factor's `ldl`, the value functions `Pxx[i]`, `Pxt[i]`, ... as `(nx, nth)`, the
initial-stage block and `thGrad`. -/
structure DenseSolver where
  factors : List PKnot
  ldl : List ℕ
  values : List (ℕ × ℕ)
  kkt0 : ℕ × ℕ
  nth : ℕ
  deriving DecidableEq

/-- Size of the stage system: `{nu, nc, nx2, nx2}` (gar/dense-kernel.hpp:29-36). -/
def PKnot.ntot (k : PKnot) : ℕ := k.dim.2.1 + k.dim.2.2.1 + 2 * k.dim.2.2.2

/-- The constructor (gar/dense-riccati.hxx:12-43). -/
def DenseSolver.create (knots : List PKnot) (nc0 : ℕ) : DenseSolver :=
  { factors := knots, ldl := knots.map PKnot.ntot, values := knots.map fun k => (k.dim.1, k.nth)
    kkt0 := ((knots.head?.map (·.dim.1)).getD 0, nc0), nth := (knots.head?.map (·.nth)).getD 0 }

/-- `RiccatiSolverDense::cycleAppend` (gar/dense-riccati.hxx:118-147): everything is rotated; at `N - 1` the
value function and the `ldl` get the size of the new knot, while `fN.setZero()` keeps the sizes of the blocks
that were rotated there. -/
def DenseSolver.cycleAppend (s : DenseSolver) (knots : List PKnot) (knot : PKnot) :
    Option DenseSolver := do
  let N := knots.length - 1
  let factors ← rotateLeft s.factors 0 1
  let values ← rotateLeft s.values 0 1
  let ldl ← rotateLeft s.ldl 0 1
  let ldl ← setAt ldl (N - 1) knot.ntot
  let values ← setAt values (N - 1) (knot.dim.1, knot.nth)
  return { s with factors := factors, ldl := ldl, values := values }

/-- The dimensions of the buffers of `ParallelRiccatiSolver` (gar/parallel-solver.hpp:85-110): factors, block
sizes of the condensed system, and the block lists of `condensedKktSystem` (sizes of the diagonal blocks, of the
superdiagonal and subdiagonal blocks, of the factors). -/
structure ParSolver where
  datas : List PKnot
  rhsDims : List ℕ
  vecDim : ℕ
  diagonal : List ℕ
  superdiagonal : List (ℕ × ℕ)
  subdiagonal : List (ℕ × ℕ)
  facs : List ℕ
  deriving DecidableEq

/-- `allocate_leg` (gar/parallel-solver.hxx:52-60): the knots of a leg, parametrised by the next state of the
last one unless it is the last leg; they are changed in place and the factors get the same sizes. `none`:
`stages[end - 1]` is out of range. -/
def allocateLeg (knots : List PKnot) (w : Gar.WorkRange) (lastLeg : Bool) : Option (List PKnot) :=
  if w.stop = 0 then none else
  match knots[w.stop - 1]? with
  | none => none
  | some e =>
    some (((knots.drop w.beg).take (w.stop - w.beg)).map fun k =>
      if lastLeg then k else k.addParam e.dim.2.2.2)

/-- The loop over the legs (gar/parallel-solver.hxx:62-66), first `i` legs of `n`. -/
def allocateLegs (knots : List PKnot) (n : ℕ) : ℕ → Option (List PKnot)
  | 0 => some []
  | i + 1 =>
    match allocateLegs knots n i,
      allocateLeg knots (Gar.getWork (knots.length - 1) i n) (i + 1 == n) with
    | some a, some l => some (a ++ l)
    | _, _ => none

/-- The loop filling `rhsDims_` (gar/parallel-solver.hxx:69-73), first `i` passes. -/
def linkDims (knots : List PKnot) (n : ℕ) : ℕ → Option (List ℕ)
  | 0 => some []
  | i + 1 =>
    let w := Gar.getWork (knots.length - 1) i n
    match linkDims knots n i, knots[w.beg]?, knots[w.stop - 1]? with
    | some l, some a, some b => some (l ++ [a.dim.1, b.dim.1])
    | _, _, _ => none

/-- `initialize()` (gar/parallel-solver.hxx:51-83) and `initializeTridiagSystem` (:260-290) on a solver whose
lists (`datas` and those of the condensed system) hold `old`: the new blocks are appended, `rhsDims_` and the
vectors are assigned. Returns the solver and the changed knots of the problem. -/
def ParSolver.initialize (old : ParSolver) (knots : List PKnot) (nc0 n : ℕ) :
    Option (ParSolver × List PKnot) :=
  match allocateLegs knots n n, knots.head?, linkDims knots n (n - 1) with
  | some legs, some k0, some links =>
    let dims := [nc0, k0.dim.1] ++ links
    some ({ datas := old.datas ++ legs, rhsDims := dims, vecDim := dims.sum
            diagonal := old.diagonal ++ dims
            superdiagonal := old.superdiagonal ++ dims.zip dims.tail
            subdiagonal := old.subdiagonal ++ dims.tail.zip dims
            facs := old.facs ++ dims }, legs)
  | _, _, _ => none

/-- Empty lists. -/
def ParSolver.cleared (s : ParSolver) : ParSolver :=
  { s with datas := [], diagonal := [], superdiagonal := [], subdiagonal := [], facs := [] }

/-- A solver before `initialize()`. -/
def ParSolver.empty : ParSolver := ⟨[], [], 0, [], [], [], []⟩

/-- The constructor (gar/parallel-solver.hxx:32-49); `none`: the exception for fewer than two threads, or an
access out of range. -/
def ParSolver.create (knots : List PKnot) (nc0 n : ℕ) : Option (ParSolver × List PKnot) :=
  if n < 2 then none else ParSolver.empty.initialize knots nc0 n

/-- `ParallelRiccatiSolver::cycleAppend` (gar/parallel-solver.hxx:245-258). -/
def ParSolver.cycleAppend (s : ParSolver) (knots : List PKnot) (nc0 n : ℕ) :
    Option (ParSolver × List PKnot) :=
  s.cleared.initialize (knots.map (·.addParam 0)) nc0 n

/-- The shift of the knots of the LQ subproblem (solvers/proxddp/workspace.hxx:127-131): rotation of all but the
terminal knot, then a new knot without parameter at `nsteps - 1`. -/
def shiftKnots (knots : List PKnot) (new : KnotDim) : Option (List PKnot) := do
  let knots ← rotateLeft knots 0 1
  setAt knots (knots.length - 2) ⟨new, 0⟩

end Aligator.Cycle
