import Mathlib.Analysis.SpecialFunctions.Pow.Real

/-!
# Model of the ProxDDP outer and inner loops

`include/aligator/solvers/proxddp/solver-proxddp.{hpp,hxx}`: control logic of `run` and `innerLoop` over
abstract problem functions.  Scalars are real numbers (no rounding, no NaN in the scalars; a NaN detected by
`computeMultipliers` is the outcome `none`).

* `X`: the iterate `(xs, us, vs, lams)`;  `V`: the previous multiplier estimate `prev_vs`;
* `W`: what `computeMultipliers` leaves in the workspace (`dyn_slacks`, `Lvs`, `vs_plus`, ...).

Costs, merit values, logging, callbacks and the default-initialised logger do not influence the control flow
and are left out; the linear solver, the rollout and the step acceptance strategy are one oracle which may
also throw.
-/

namespace Aligator.ProxDDP

/-- The user parameters: solver-proxddp.hpp:105-118 (`AlmParams`), 121-145, 167, 174-175, and `ls_params`
(`dphi_thresh`, `alpha_min`).  `targetDual` is `target_dual_tol_` after lines 427-428 of the .hxx
(`sync_dual_tol_`); `closeEps` is the precision of `math::scalar_close`. -/
structure Params where
  targetTol : ℝ
  targetDual : ℝ
  muInit : ℝ
  muLb : ℝ
  muFactor : ℝ
  primAlpha : ℝ
  primBeta : ℝ
  dualAlpha : ℝ
  dualBeta : ℝ
  innerTol0 : ℝ
  primTol0 : ℝ
  regMin : ℝ
  regMax : ℝ
  regInit : ℝ
  regInc : ℝ
  regIncFirst : ℝ
  regDec : ℝ
  dphiThresh : ℝ
  alphaMin : ℝ
  closeEps : ℝ
  maxIters : ℕ
  maxAlIters : ℕ

/-- Ghost record of the solver's parameters when an inner loop starts or when the LQ subproblem is solved. -/
structure Ev where
  mu : ℝ
  innerTol : ℝ
  primTol : ℝ
  preg : ℝ
  /-- true: `linear_solver_->backward(mu())`; false: start of an inner loop -/
  lq : Bool

/-- Solver state: the members of `SolverProxDDPTpl`, `results_` and `workspace_` that the loops read. -/
structure St (X V W : Type) where
  /-- `results_.xs, us, vs, lams` -/
  x : X
  /-- `workspace_.trial_*` -/
  trial : X
  /-- `workspace_.prev_vs` -/
  prevV : V
  /-- workspace buffers written by `computeMultipliers` -/
  ws : W
  mu : ℝ
  innerTol : ℝ
  primTol : ℝ
  preg : ℝ
  pregLast : ℝ
  /-- `results_.prim_infeas` -/
  prim : ℝ
  /-- `results_.dual_infeas` -/
  dual : ℝ
  /-- `workspace_.inner_criterion` -/
  crit : ℝ
  numIters : ℕ
  alIter : ℕ
  /-- ghost: history, newest first -/
  log : List Ev

/-- What one linear solve + line search may do (solver-proxddp.hxx:603-668). -/
inductive StepOutcome (X : Type)
  /-- an exception leaves `run` -/
  | raises
  /-- `dphi0`, the trial points evaluated by `forwardPass` in order, the returned step length -/
  | step (dphi0 : ℝ) (trials : List X) (alpha : ℝ)

/-- The problem and the algorithms around the loops. -/
structure Env (X V W : Type) where
  /-- `computeMultipliers` (solver-proxddp.hxx:220-318) after `problem.evaluate`: workspace content, and `prim_infeas` or the
  NaN early return -/
  mult : ℝ → V → X → W × Option ℝ
  /-- `results_.dual_infeas` from the Lagrangian gradient at the iterate (solver-proxddp.hxx:588-594, :729-731) -/
  dualInf : X → ℝ
  /-- `workspace_.inner_criterion` (solver-proxddp.hxx:728), from the Lagrangian gradient at the iterate and the workspace -/
  innerCrit : X → W → ℝ
  /-- multiplier update on success (solver-proxddp.hxx:495-507), any mode -/
  nextV : X → W → V
  /-- linear solver, rollout and step acceptance -/
  oracle : St X V W → StepOutcome X

variable {X V W : Type}

/-- `setAlmPenalty`, solver-proxddp.hpp:339-341. -/
noncomputable def setAlmPenalty (p : Params) (newMu : ℝ) (s : St X V W) : St X V W :=
  { s with mu := max newMu p.muLb }

/-- `updateTolsOnFailure`, solver-proxddp.hpp:326-330. -/
noncomputable def updateTolsOnFailure (p : Params) (s : St X V W) : St X V W :=
  { s with
    primTol := p.primTol0 * (min s.mu 0.99) ^ p.primAlpha
    innerTol := p.innerTol0 * (min s.mu 0.99) ^ p.dualAlpha }

/-- `updateTolsOnSuccess`, solver-proxddp.hpp:332-336. -/
noncomputable def updateTolsOnSuccess (p : Params) (s : St X V W) : St X V W :=
  { s with
    primTol := s.primTol * (min s.mu 0.99) ^ p.primBeta
    innerTol := s.innerTol * (min s.mu 0.99) ^ p.dualBeta }

open Classical in
/-- `initializeRegularization`, solver-proxddp.hpp:346-354. -/
noncomputable def initializeRegularization (p : Params) (s : St X V W) : St X V W :=
  if s.pregLast = 0 then { s with preg := max p.regInit p.regMin }
  else { s with preg := max p.regMin (s.pregLast * p.regDec) }

open Classical in
/-- `increaseRegularization`, solver-proxddp.hpp:356-361. -/
noncomputable def increaseRegularization (p : Params) (s : St X V W) : St X V W :=
  if s.pregLast = 0 then { s with preg := s.preg * p.regIncFirst }
  else { s with preg := s.preg * p.regInc }

/-- `computeCriterion` (solver-proxddp.hxx:703-732) together with the derivative evaluation before it (solver-proxddp.hxx:582-595). -/
def computeCriterion (e : Env X V W) (s : St X V W) : St X V W :=
  { s with crit := e.innerCrit s.x s.ws, dual := e.dualInf s.x }

/-- `computeMultipliers` at a point: the workspace is overwritten in any case, `prim_infeas` only when no NaN
is found (solver-proxddp.hxx:220-318). -/
def computeMultipliers (e : Env X V W) (x : X) (s : St X V W) : St X V W :=
  match e.mult s.mu s.prevV x with
  | (w, some pr) => { s with ws := w, prim := pr }
  | (w, none) => { s with ws := w }

/-- One merit evaluation `forwardPass` (solver-proxddp.hxx:535-552) at a trial point; the exception thrown when
`computeMultipliers` fails is caught by the step acceptance strategies. -/
def forwardPass (e : Env X V W) (s : St X V W) (t : X) : St X V W :=
  computeMultipliers e t { s with trial := t }

def St.push (lq : Bool) (s : St X V W) : St X V W :=
  { s with log := ⟨s.mu, s.innerTol, s.primTol, s.preg, lq⟩ :: s.log }

/-- How a loop ends. -/
inductive Out (X V W : Type)
  | raised (s : St X V W)
  /-- still inside the tolerance-tightening loop after the given number of passes -/
  | stuck (s : St X V W)
  | done (b : Bool) (s : St X V W)

open Classical in
/-- The `for` loop of `innerLoop`, solver-proxddp.hxx:576-669; the first argument is
`max_iters - num_iters`. -/
noncomputable def innerIter (p : Params) (e : Env X V W) : ℕ → St X V W → Out X V W
  | 0, s => .done false s
  | n + 1, s =>
    let s := computeCriterion e s
    if s.crit ≤ s.innerTol ∨ (s.dual ≤ p.targetDual ∧ s.prim ≤ p.targetTol) then .done true s
    else
      let s := (initializeRegularization p s).push true
      match e.oracle s with
      | .raises => .raised s
      | .step dphi0 trials alpha =>
        if |dphi0| ≤ p.dphiThresh then .done true s
        else
          let s := trials.foldl (forwardPass e) s
          let s := { s with x := s.trial }
          if alpha ≤ p.alphaMin then
            if p.regMax ≤ s.preg then .done false s
            else
              let s := increaseRegularization p s
              innerIter p e n { s with pregLast := s.preg, numIters := s.numIters + 1 }
          else innerIter p e n { s with pregLast := s.preg, numIters := s.numIters + 1 }

/-- `innerLoop`, solver-proxddp.hxx:555-670: evaluation at the current iterate (the result of
`computeMultipliers` is ignored, 572), then the loop. -/
noncomputable def innerLoop (p : Params) (e : Env X V W) (s : St X V W) : Out X V W :=
  let s := computeMultipliers e s.x (s.push false)
  innerIter p e (p.maxIters - s.numIters) s

open Classical in
/-- `do updateTolsOnSuccess(); while (inner_criterion < inner_tol_)`, solver-proxddp.hxx:491-493, at most
`fuel` passes; `none`: still looping. -/
noncomputable def tighten (p : Params) : ℕ → St X V W → Option (St X V W)
  | 0, _ => none
  | n + 1, s =>
    let s := updateTolsOnSuccess p s
    if s.crit < s.innerTol then tighten p n s else some s

open Classical in
/-- `math::scalar_close`, math.hpp:197-201. -/
noncomputable def scalarClose (eps a b : ℝ) : Bool :=
  decide (|a - b| < eps * (1 + max |a| |b|))

/-- The penalty decrease after an outer iteration with too large infeasibility, 514-521. -/
noncomputable def onFailure (p : Params) (s : St X V W) : St X V W :=
  let s := updateTolsOnFailure p (setAlmPenalty p (s.mu * p.muFactor) s)
  if scalarClose p.closeEps s.mu p.muLb then setAlmPenalty p p.muInit s else s

/-- solver-proxddp.hxx:523-526: clamping of the tolerances, `al_iter++`. -/
noncomputable def clamp (p : Params) (s : St X V W) : St X V W :=
  { s with innerTol := max s.innerTol (0.01 * p.targetDual), primTol := max s.primTol p.targetTol
           alIter := s.alIter + 1 }

open Classical in
/-- The outer `while` loop, solver-proxddp.hxx:479-527; the second argument is `max_al_iters - al_iter`. -/
noncomputable def outer (p : Params) (e : Env X V W) (fuel : ℕ) : ℕ → St X V W → Out X V W
  | 0, s => .done false s
  | n + 1, s =>
    if s.numIters < p.maxIters then
      match innerLoop p e s with
      | .raised s => .raised s
      | .stuck s => .stuck s
      | .done false s => .done false { s with alIter := s.alIter + 1 }
      | .done true s =>
        if s.prim ≤ s.primTol then
          match tighten p fuel s with
          | none => .stuck s
          | some s =>
            let s := { s with prevV := e.nextV s.x s.ws }
            if s.dual ≤ p.targetDual ∧ s.prim ≤ p.targetTol then .done true s
            else outer p e fuel n (clamp p s)
        else outer p e fuel n (clamp p (onFailure p s))
    else .done false s

/-- Initialisation of `run`, solver-proxddp.hxx:460-478, from the state left by the constructor, `setup`, a
previous run and the assignment of the initial guess. -/
noncomputable def initRun (p : Params) (v0 : V) (s : St X V W) : St X V W :=
  let s := setAlmPenalty p p.muInit s
  let s := { s with prevV := v0, innerTol := p.innerTol0, primTol := p.primTol0, pregLast := 0 }
  let s := updateTolsOnFailure p s
  { s with innerTol := max s.innerTol p.targetDual, primTol := max s.primTol p.targetTol
           alIter := 0, numIters := 0, log := [] }

/-- `run`, solver-proxddp.hxx:420-531, after the initial guess has been assigned. `v0` is
`results_.vs`. -/
noncomputable def run (p : Params) (e : Env X V W) (fuel : ℕ) (v0 : V) (s : St X V W) : Out X V W :=
  outer p e fuel p.maxAlIters (initRun p v0 s)

end Aligator.ProxDDP
