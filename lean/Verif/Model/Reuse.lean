import Verif.Model.ProxDDP
import Verif.Model.Linesearch
import Verif.Model.Filter

/-!
# Model: the members of a ProxDDP solver that survive a run

`include/aligator/solvers/proxddp/solver-proxddp.{hpp,hxx}`: the loops of `Verif.Model.ProxDDP` together with what
the solver object carries from one call of `run` to the next: trial buffers, workspace, gains in the results,
reported values, and the memory of the step acceptance strategies.  `setup`, `run` and `cycleProblem` are the
calls that a client makes.  Exact real arithmetic; a NaN is the failure of `computeMultipliers` or of the
rollout, merit values are real numbers (simplification).

* `X`: the iterate `(xs, us, vs, lams)`;  `V`: the multiplier estimate `prev_vs`;
* `W`: what `computeMultipliers` leaves in the workspace;  `D`: the step;  `G`: the gains in the results.
-/

namespace Aligator.Reuse

open ProxDDP (Params Ev)

/-- `StepAcceptanceStrategy` (core/enums.hpp:29-33). -/
inductive Strategy
  | armijo | nonmonotone | filter

/-- `LinesearchVariant::impl_` (solvers/proxddp/solver-proxddp.hpp:58-60): nothing, or a line search with the options
it was constructed with. -/
inductive LS
  | unset
  | armijo (o : Linesearch.Options)
  | nonmonotone (o : Linesearch.Options) (st : Linesearch.NMSt)

/-- `LinesearchVariant::reset` (solvers/proxddp/solver-proxddp.hpp:74-78): Armijo has nothing to reset
(core/linesearch-base.hpp:77). -/
def LS.reset : LS → LS
  | .nonmonotone o _ => .nonmonotone o .reset
  | l => l

/-- `LinesearchVariant::init` (solvers/proxddp/solver-proxddp.hpp:86-100), called by `setup` for the two line searches
only (solvers/proxddp/solver-proxddp.hxx:162-164). -/
def LS.init (sa : Strategy) (o : Linesearch.Options) (l : LS) : LS :=
  match sa with
  | .armijo => .armijo o
  | .nonmonotone => .nonmonotone o .reset
  | .filter => l

/-- Members of the solver, its results and its workspace. -/
structure St (X V W G : Type) where
  /-- `results_.xs, us, vs, lams` -/
  x : X
  /-- `workspace_.trial_*` -/
  trial : X
  prevV : V
  ws : W
  mu : ℝ
  innerTol : ℝ
  primTol : ℝ
  preg : ℝ
  pregLast : ℝ
  prim : ℝ
  dual : ℝ
  crit : ℝ
  /-- `results_.merit_value_` -/
  merit : ℝ
  /-- `results_.gains_` -/
  gains : G
  numIters : ℕ
  alIter : ℕ
  ls : LS
  filter : Filter.State ℝ
  /-- ghost: number of LQ subproblems solved in this run -/
  solves : ℕ
  /-- accepted step lengths of this run, oldest first (column "alpha" of the logger) -/
  alphas : List ℝ

/-- The problem and the algorithms around the loops. -/
structure Env (X V W D G : Type) where
  /-- path multipliers of an iterate -/
  vs : X → V
  /-- `computeMultipliers` (solvers/proxddp/solver-proxddp.hxx:220-316) after an evaluation; `none`: NaN found -/
  mult : ℝ → V → X → Option (W × ℝ)
  /-- what it leaves in the workspace when it returns early -/
  multNaN : ℝ → V → X → W → W
  /-- `ALFunction::evaluate` -/
  merit : ℝ → X → W → ℝ
  dualInf : X → ℝ
  innerCrit : X → W → ℝ
  nextV : X → W → V
  /-- subproblem, backward and forward pass: step, gains and `dphi0` (solvers/proxddp/solver-proxddp.hxx:603-641);
  `none`: an exception -/
  lin : X → W → ℝ → ℝ → Option (D × G × ℝ)
  /-- `tryLinearStep` or `tryNonlinearRollout`; an exception leaves the trial buffers partly written -/
  point : X → D → ℝ → Except (X → X) X
  /-- `workspace_.trial_xs[0]`, `trial_lams[0]` at the start of `run` (solvers/proxddp/solver-proxddp.hxx:454-457) -/
  prime : X → X
  /-- results and workspace that `setup` builds (solvers/proxddp/solver-proxddp.hxx:166-167) -/
  fresh : X × X × V × W × G

variable {X V W D G : Type}

/-- The pair (merit, infeasibility) that `forwardPass` yields at a step length; `none`: it throws
(solvers/proxddp/solver-proxddp.hxx:535-553, :562-568). -/
def Env.pair (e : Env X V W D G) (s : St X V W G) (d : D) (a : ℝ) : Option (ℝ × ℝ) :=
  match e.point s.x d a with
  | .error _ => none
  | .ok t =>
    match e.mult s.mu s.prevV t with
    | none => none
    | some (w, pr) => some (e.merit s.mu t w, pr)

/-- What `forwardPass` (solvers/proxddp/solver-proxddp.hxx:535-553) does to the solver. -/
def forwardPass (e : Env X V W D G) (d : D) (s : St X V W G) (a : ℝ) : St X V W G :=
  match e.point s.x d a with
  | .error g => { s with trial := g s.trial }
  | .ok t =>
    match e.mult s.mu s.prevV t with
    | none => { s with trial := t, ws := e.multNaN s.mu s.prevV t s.ws }
    | some (w, pr) => { s with trial := t, ws := w, prim := pr }

/-- Evaluation at the iterate when an inner loop starts (solvers/proxddp/solver-proxddp.hxx:570-574); the flag returned by
`computeMultipliers` is ignored. -/
def evaluateIterate (e : Env X V W D G) (s : St X V W G) : St X V W G :=
  let s := match e.mult s.mu s.prevV s.x with
    | none => { s with ws := e.multNaN s.mu s.prevV s.x s.ws }
    | some (w, pr) => { s with ws := w, prim := pr }
  { s with merit := e.merit s.mu s.x s.ws }

/-- `setAlmPenalty` (solvers/proxddp/solver-proxddp.hpp:339-341). -/
noncomputable def setAlmPenalty (p : Params) (newMu : ℝ) (s : St X V W G) : St X V W G :=
  { s with mu := max newMu p.muLb }

/-- `updateTolsOnFailure` (solvers/proxddp/solver-proxddp.hpp:326-330). -/
noncomputable def updateTolsOnFailure (p : Params) (s : St X V W G) : St X V W G :=
  { s with
    primTol := p.primTol0 * (min s.mu 0.99) ^ p.primAlpha
    innerTol := p.innerTol0 * (min s.mu 0.99) ^ p.dualAlpha }

/-- `updateTolsOnSuccess` (solvers/proxddp/solver-proxddp.hpp:332-336). -/
noncomputable def updateTolsOnSuccess (p : Params) (s : St X V W G) : St X V W G :=
  { s with
    primTol := s.primTol * (min s.mu 0.99) ^ p.primBeta
    innerTol := s.innerTol * (min s.mu 0.99) ^ p.dualBeta }

open Classical in
/-- `initializeRegularization` (solvers/proxddp/solver-proxddp.hpp:346-354). -/
noncomputable def initializeRegularization (p : Params) (s : St X V W G) : St X V W G :=
  { s with preg := if s.pregLast = 0 then max p.regInit p.regMin else max p.regMin (s.pregLast * p.regDec) }

open Classical in
/-- `increaseRegularization` (solvers/proxddp/solver-proxddp.hpp:356-361). -/
noncomputable def increaseRegularization (p : Params) (s : St X V W G) : St X V W G :=
  { s with preg := if s.pregLast = 0 then s.preg * p.regIncFirst else s.preg * p.regInc }

/-- How a step acceptance strategy ends. -/
inductive Ret
  | throws
  /-- `quiet_NaN()` from an empty variant -/
  | nan
  | ok (alpha phi : ℝ)

/-- A search: step lengths at which `forwardPass` was called, in order, the way it ended, and the memory it
leaves. -/
structure Search where
  calls : List ℝ
  ret : Ret
  ls : LS
  filter : Filter.State ℝ

open Classical in
/-- The loop of `NonmonotoneLinesearch::run` (core/linesearch-nonmonotone.hpp:28-42) with its calls, `beta_dec` 1/2. -/
noncomputable def nmCalls (o : Linesearch.Options) (movAvg : ℝ) (phi : ℝ → Option ℝ) (dphi0 : ℝ) :
    ℕ → ℝ → Option (List ℝ × Ret)
  | 0, _ => none
  | n + 1, a =>
    if o.alphaMin < a then
      match phi a with
      | some v =>
        if v ≤ movAvg + o.armijoC1 * a * dphi0 then some ([a], .ok a v)
        else (nmCalls o movAvg phi dphi0 n (a * (1 / 2))).map fun r => (a :: r.1, r.2)
      | none => (nmCalls o movAvg phi dphi0 n (a * (1 / 2))).map fun r => (a :: r.1, r.2)
    else
      match phi (max a o.alphaMin) with
      | some v => some ([max a o.alphaMin], .ok (max a o.alphaMin) v)
      | none => some ([max a o.alphaMin], .throws)

open Classical in
/-- First loop of `FilterTpl::run` (core/filter.hpp:47-58) with its calls. -/
noncomputable def filterFirst (phi : ℝ → Option (ℝ × ℝ)) (alphaMin : ℝ) : ℕ → ℝ → Option (List ℝ × ℝ × (ℝ × ℝ))
  | 0, _ => none
  | n + 1, a =>
    match phi a with
    | some p => some ([a], a, p)
    | none =>
      if a * (1 / 2) ≤ alphaMin then some ([a], alphaMin, (0, 0))
      else (filterFirst phi alphaMin n (a * (1 / 2))).map fun r => (a :: r.1, r.2)

open Classical in
/-- Second loop of `FilterTpl::run` (core/filter.hpp:61-72) with its calls. -/
noncomputable def filterLoop (phi : ℝ → Option (ℝ × ℝ)) :
    ℕ → Filter.State ℝ → ℝ → ℝ × ℝ → List ℝ × Filter.State ℝ × Ret
  | 0, s, a, p => ([], s, .ok a p.1)
  | n + 1, s, a, p =>
    if (Filter.acceptPair s p).2 then ([], (Filter.acceptPair s p).1, .ok a p.1)
    else
      if a * (1 / 2) ≤ s.alphaMin then
        match phi s.alphaMin with
        | none => ([s.alphaMin], s, .throws)
        | some p' => ([s.alphaMin], s, .ok s.alphaMin p'.1)
      else
        match phi (a * (1 / 2)) with
        | none => ([a * (1 / 2)], s, .throws)
        | some p' =>
          let r := filterLoop phi n s (a * (1 / 2)) p'
          (a * (1 / 2) :: r.1, r.2)

/-- The step acceptance (solvers/proxddp/solver-proxddp.hxx:648-662) with `phi0 = results_.merit_value_` (:584); `none`:
out of fuel.  `sa` is `sa_strategy_` at the time of the call, the line search and the filter keep the parameters
given to them by `setup`. -/
noncomputable def search (qr : Linesearch.Solve2) (fuel : ℕ) (sa : Strategy) (e : Env X V W D G) (s : St X V W G) (d : D)
    (dphi0 : ℝ) : Option Search :=
  match sa with
  | .filter =>
    match filterFirst (e.pair s d) s.filter.alphaMin fuel 1 with
    | none => none
    | some (c, a, p) =>
      let r := filterLoop (e.pair s d) s.filter.maxNumSteps s.filter a p
      some ⟨c ++ r.1, r.2.2, s.ls, r.2.1⟩
  | _ =>
    match s.ls with
    | .unset => some ⟨[], .nan, s.ls, s.filter⟩
    | .armijo o =>
      match Linesearch.armijoRun o qr fuel (fun a => (e.pair s d a).map fun q => .fin q.1) s.merit dphi0 with
      | none => none
      | some (a, v, calls) =>
        some ⟨calls.reverse, match v with | .fin r => .ok a r | _ => .nan, s.ls, s.filter⟩
    | .nonmonotone o st =>
      let st := st.update (17 / 20) s.merit
      match nmCalls o st.movAvg (fun a => (e.pair s d a).map Prod.fst) dphi0 fuel 1 with
      | none => none
      | some (c, r) => some ⟨c, r, .nonmonotone o st, s.filter⟩

/-- How a loop ends. -/
inductive Out (X V W G : Type)
  | raised (s : St X V W G)
  | stuck (s : St X V W G)
  | done (b : Bool) (s : St X V W G)

open Classical in
/-- The `for` loop of `innerLoop` (solvers/proxddp/solver-proxddp.hxx:576-669); the first argument is
`max_iters - num_iters`. -/
noncomputable def innerIter (qr : Linesearch.Solve2) (fuel : ℕ) (sa : Strategy) (p : Params) (e : Env X V W D G) :
    ℕ → St X V W G → Out X V W G
  | 0, s => .done false s
  | n + 1, s =>
    let s := { s with crit := e.innerCrit s.x s.ws, dual := e.dualInf s.x }
    if s.crit ≤ s.innerTol ∨ (s.dual ≤ p.targetDual ∧ s.prim ≤ p.targetTol) then .done true s
    else
      let s := initializeRegularization p s
      match e.lin s.x s.ws s.mu s.preg with
      | none => .raised s
      | some (d, g, dphi0) =>
        let s := { s with gains := g, solves := s.solves + 1 }
        if |dphi0| ≤ p.dphiThresh then .done true s
        else
          match search qr fuel sa e s d dphi0 with
          | none => .stuck s
          | some r =>
            let s := { r.calls.foldl (forwardPass e d) s with ls := r.ls, filter := r.filter }
            match r.ret with
            | .throws => .raised s
            | .nan => .raised { s with x := s.trial }
            | .ok a phi =>
              let s := { s with x := s.trial, merit := phi, alphas := s.alphas ++ [a] }
              if a ≤ p.alphaMin then
                if p.regMax ≤ s.preg then .done false s
                else
                  let s := increaseRegularization p s
                  innerIter qr fuel sa p e n { s with pregLast := s.preg, numIters := s.numIters + 1 }
              else innerIter qr fuel sa p e n { s with pregLast := s.preg, numIters := s.numIters + 1 }

/-- `innerLoop` (solvers/proxddp/solver-proxddp.hxx:555-670). -/
noncomputable def innerLoop (qr : Linesearch.Solve2) (fuel : ℕ) (sa : Strategy) (p : Params) (e : Env X V W D G)
    (s : St X V W G) : Out X V W G :=
  innerIter qr fuel sa p e (p.maxIters - s.numIters) (evaluateIterate e s)

open Classical in
/-- The loop tightening the tolerances (solvers/proxddp/solver-proxddp.hxx:491-493); `none`: still looping. -/
noncomputable def tighten (p : Params) : ℕ → St X V W G → Option (St X V W G)
  | 0, _ => none
  | n + 1, s =>
    let s := updateTolsOnSuccess p s
    if s.crit < s.innerTol then tighten p n s else some s

/-- Lines 514-521: penalty decrease. -/
noncomputable def onFailure (p : Params) (s : St X V W G) : St X V W G :=
  let s := updateTolsOnFailure p (setAlmPenalty p (s.mu * p.muFactor) s)
  if ProxDDP.scalarClose p.closeEps s.mu p.muLb then setAlmPenalty p p.muInit s else s

/-- Lines 523-526: clamping of the tolerances, `al_iter++` (solvers/proxddp/solver-proxddp.hxx:523-526). -/
noncomputable def clamp (p : Params) (s : St X V W G) : St X V W G :=
  { s with innerTol := max s.innerTol (0.01 * p.targetDual), primTol := max s.primTol p.targetTol
           alIter := s.alIter + 1 }

open Classical in
/-- The outer `while` loop (solvers/proxddp/solver-proxddp.hxx:479-527); the line search is reset after each inner loop
that returns true (:484). -/
noncomputable def outer (qr : Linesearch.Solve2) (fuel : ℕ) (sa : Strategy) (p : Params) (e : Env X V W D G) :
    ℕ → St X V W G → Out X V W G
  | 0, s => .done false s
  | n + 1, s =>
    if s.numIters < p.maxIters then
      match innerLoop qr fuel sa p e s with
      | .raised s => .raised s
      | .stuck s => .stuck s
      | .done false s => .done false { s with alIter := s.alIter + 1 }
      | .done true s =>
        let s := { s with ls := s.ls.reset }
        if s.prim ≤ s.primTol then
          match tighten p fuel s with
          | none => .stuck s
          | some s =>
            let s := { s with prevV := e.nextV s.x s.ws }
            if s.dual ≤ p.targetDual ∧ s.prim ≤ p.targetTol then .done true s
            else outer qr fuel sa p e n (clamp p s)
        else outer qr fuel sa p e n (clamp p (onFailure p s))
    else .done false s

/-- Start of `run` (solvers/proxddp/solver-proxddp.hxx:440-478) with guesses `g` for states, controls and multipliers. -/
noncomputable def initRun (p : Params) (e : Env X V W D G) (g : X) (s : St X V W G) : St X V W G :=
  let s := { s with x := g, trial := e.prime s.trial }
  let s := setAlmPenalty p p.muInit s
  let s := { s with prevV := e.vs g, innerTol := p.innerTol0, primTol := p.primTol0, pregLast := 0 }
  let s := updateTolsOnFailure p s
  { s with innerTol := max s.innerTol p.targetDual, primTol := max s.primTol p.targetTol
           alIter := 0, numIters := 0, solves := 0, alphas := [] }

/-- `run` (solvers/proxddp/solver-proxddp.hxx:420-531). -/
noncomputable def run (qr : Linesearch.Solve2) (fuel : ℕ) (sa : Strategy) (p : Params) (e : Env X V W D G) (g : X)
    (s : St X V W G) : Out X V W G :=
  outer qr fuel sa p e p.maxAlIters (initRun p e g s)

/-- `setup` (solvers/proxddp/solver-proxddp.hxx:158-200) on a problem that passes the integrity check: new line search
(unless the strategy is the filter), new results and workspace, empty filter.  Penalty, tolerances and
regularisation are left alone. -/
def setup (sa : Strategy) (o : Linesearch.Options) (e : Env X V W D G) (s : St X V W G) : St X V W G :=
  { s with
    ls := s.ls.init sa o
    x := e.fresh.1, trial := e.fresh.2.1, prevV := e.fresh.2.2.1, ws := e.fresh.2.2.2.1, gains := e.fresh.2.2.2.2
    prim := 0, dual := 0, crit := 0, merit := 0, numIters := 0, alIter := 0
    filter := Filter.reset 0 o.alphaMin o.maxNumSteps }

/-- `cycleProblem` (solvers/proxddp/solver-proxddp.hxx:202-210): results and workspace are shifted (`f`, see C31), line
search and filter are left alone. -/
def cycle (f : X × X × V × W × G → X × X × V × W × G) (s : St X V W G) : St X V W G :=
  let r := f (s.x, s.trial, s.prevV, s.ws, s.gains)
  { s with x := r.1, trial := r.2.1, prevV := r.2.2.1, ws := r.2.2.2.1, gains := r.2.2.2.2 }

/-- `run` with guesses `pg` for states and controls and, possibly, for path and dynamics multipliers: multipliers that are
not given are those in the results (solvers/proxddp/solver-proxddp.hxx:441-446). -/
noncomputable def runGiven {P M L : Type} (qr : Linesearch.Solve2) (fuel : ℕ) (sa : Strategy) (p : Params)
    (e : Env (P × M × L) V W D G) (pg : P) (vs : Option M) (lams : Option L) (s : St (P × M × L) V W G) :
    Out (P × M × L) V W G :=
  run qr fuel sa p e (pg, vs.getD s.x.2.1, lams.getD s.x.2.2) s

/-! ## Tolerances as settings -/

/-- `target_tol_`, `target_dual_tol_`, `sync_dual_tol_` (solvers/proxddp/solver-proxddp.hpp:127, :316-319). -/
structure Tols where
  target : ℝ
  dual : ℝ
  sync : Bool

/-- Constructor (solvers/proxddp/solver-proxddp.hxx:78, :90; solvers/proxddp/solver-proxddp.hpp:318). -/
def Tols.ctor (tol : ℝ) : Tols := ⟨tol, tol, true⟩

/-- What a client does with the tolerances. -/
inductive TolOp
  /-- assignment to the public member `target_tol_` -/
  | setTarget (t : ℝ)
  | setDual (t : ℝ)
  | run

/-- `setDualTolerance` (solvers/proxddp/solver-proxddp.hpp:198-201); start of `run`
(solvers/proxddp/solver-proxddp.hxx:427-428). -/
def TolOp.apply (s : Tols) : TolOp → Tols
  | .setTarget t => { s with target := t }
  | .setDual t => { s with dual := t, sync := false }
  | .run => if s.sync then { s with dual := s.target } else s

/-- `getDualTolerance` (solvers/proxddp/solver-proxddp.hpp:196). -/
def Tols.getDual (s : Tols) : ℝ := s.dual

/-- The settings with which a run on a solver with these members works (solvers/proxddp/solver-proxddp.hxx:427-428,
:471-472). -/
def Tols.params (p : Params) (s : Tols) : Params :=
  { p with targetTol := (TolOp.apply s .run).target, targetDual := (TolOp.apply s .run).dual }

end Aligator.Reuse
