import Verif.Model.ProxDDP
import Verif.Model.LQSubproblem
import Verif.Model.Linesearch

/-!
# Model: ProxDDP on an actual optimal control problem

The loops of `Verif.Model.ProxDDP` take the problem and the algorithms around them as arbitrary functions.  Here these functions
are filled in: problem callbacks, multiplier estimates, stopping criteria, directional derivative, linear step, Armijo line
search.  Exact real arithmetic, no NaN; vector-space states; linear rollouts.  The linear solver stays a parameter.
-/

namespace Aligator.Link

open Matrix CSets Lag LQ

/-- A constraint function: `evaluate` and `computeJacobians` of `StageFunctionTpl` (core/function-abstract.hpp:33-51), for
callbacks that depend on their arguments only. -/
structure CFun (n m : ℕ) where
  dim : ℕ
  g : (Fin n → ℝ) → (Fin m → ℝ) → Fin dim → ℝ
  Jx : (Fin n → ℝ) → (Fin m → ℝ) → Matrix (Fin dim) (Fin n) ℝ
  Ju : (Fin n → ℝ) → (Fin m → ℝ) → Matrix (Fin dim) (Fin m) ℝ

/-- An optimal control problem given by its callbacks (core/traj-opt-problem.hpp:102-127). -/
structure Prob (nx nu : ℕ → ℕ) (N : ℕ) where
  nc0 : ℕ
  h : (Fin (nx 0) → ℝ) → Fin nc0 → ℝ
  hx : (Fin (nx 0) → ℝ) → Matrix (Fin nc0) (Fin (nx 0)) ℝ
  l : ∀ i, (Fin (nx i) → ℝ) → (Fin (nu i) → ℝ) → ℝ
  lx : ∀ i, (Fin (nx i) → ℝ) → (Fin (nu i) → ℝ) → Fin (nx i) → ℝ
  lu : ∀ i, (Fin (nx i) → ℝ) → (Fin (nu i) → ℝ) → Fin (nu i) → ℝ
  f : ∀ i, (Fin (nx i) → ℝ) → (Fin (nu i) → ℝ) → Fin (nx (i + 1)) → ℝ
  fx : ∀ i, (Fin (nx i) → ℝ) → (Fin (nu i) → ℝ) → Matrix (Fin (nx (i + 1))) (Fin (nx i)) ℝ
  fu : ∀ i, (Fin (nx i) → ℝ) → (Fin (nu i) → ℝ) → Matrix (Fin (nx (i + 1))) (Fin (nu i)) ℝ
  c : ∀ i, List (CFun (nx i) (nu i))
  lN : (Fin (nx N) → ℝ) → ℝ
  lNx : (Fin (nx N) → ℝ) → Fin (nx N) → ℝ
  cN : List (CFun (nx N) 0)

variable {nx nu : ℕ → ℕ} {N : ℕ}

/-- Jacobians of a constraint at a point. -/
def CFun.data {n m : ℕ} (c : CFun n m) (x : Fin n → ℝ) (u : Fin m → ℝ) : CstrData n m := ⟨c.dim, c.Jx x u, c.Ju x u⟩

/-- `TrajOptProblemTpl::computeDerivatives` (core/traj-opt-problem.hxx:86-123), as in C32. -/
def Prob.data (P : Prob nx nu N) (x : ∀ i, Fin (nx i) → ℝ) (u : ∀ i, Fin (nu i) → ℝ) : ProbData nx nu N where
  nc0 := P.nc0
  initJx := P.hx (x 0)
  Lx i := P.lx i (x i) (u i)
  Lu i := P.lu i (x i) (u i)
  fx i := P.fx i (x i) (u i)
  fu i := P.fu i (x i) (u i)
  cstr i := (P.c i).map fun c => c.data (x i) (u i)
  termLx := P.lNx (x N)
  termCstr := P.cN.map fun c => c.data (x N) 0

/-- The blocks of a constraint vector, stacked (solvers/proxddp/solver-proxddp.hxx:271-276). -/
def stacked {n m : ℕ} (cs : List (CFun n m)) (x : Fin n → ℝ) (u : Fin m → ℝ) : CSets.Vec :=
  cs.flatMap fun c => List.ofFn (c.g x u)

/-- `TrajOptProblemTpl::evaluate` (core/traj-opt-problem.hxx:51-83), as in C32, and the slacks of the dynamics
(solvers/proxddp/solver-proxddp.hxx:246, :263). -/
def Prob.values (P : Prob nx nu N) (x : ∀ i, Fin (nx i) → ℝ) (u : ∀ i, Fin (nu i) → ℝ) : Values nx P.nc0 where
  cost := (List.range N).foldl (fun s i => s + P.l i (x i) (u i)) 0 + P.lN (x N)
  init := P.h (x 0)
  gap i := P.f i (x i) (u i) - x (i + 1)
  c i := if i < N then stacked (P.c i) (x i) (u i) else stacked P.cN (x N) 0

/-- `results_.xs, us, lams, vs` (solvers/results-base.hpp:30-33, solvers/proxddp/results.hpp:22-25). -/
structure Iter (nx nu : ℕ → ℕ) (nc0 : ℕ) where
  x : ∀ i, Fin (nx i) → ℝ
  u : ∀ i, Fin (nu i) → ℝ
  lam : Lams nx nc0
  vs : ℕ → CSets.Vec

/-- What `computeMultipliers` leaves in the workspace. -/
structure WS (nx : ℕ → ℕ) (nc0 : ℕ) where
  V : Values nx nc0
  ms : ℕ → MultStep

/-- `MultiplierUpdateMode` (core/enums.hpp:23). -/
inductive Mode
  | newton | primal | primalDual

/-- The fixed ingredients of a solver: product sets (solvers/proxddp/workspace.hxx:64, :73-74), `force_initial_condition_`,
multiplier update mode, the content of the projection buffers, and the number of constraints of each stage. -/
structure Setup where
  op : ℕ → CSet
  force : Bool
  mode : Mode
  out : ℕ → CSets.Vec
  nc : ℕ → ℕ

/-- `computeMultipliers` (solvers/proxddp/solver-proxddp.hxx:220-316) after an evaluation at the iterate. -/
noncomputable def mult (P : Prob nx nu N) (S : Setup) (mu : ℝ) (vPrev : ℕ → CSets.Vec) (it : Iter nx nu P.nc0) :
    WS nx P.nc0 × Option ℝ :=
  let V := P.values it.x it.u
  let ms := fun i => multiplierStep (S.op i) mu (V.c i) (vPrev i) (it.vs i) (S.out i) []
  (⟨V, ms⟩, some (primInfeas N (fun i => (ms i).infeas) (slacks V)))

/-- `Lxs`, `Lus` at the head of an inner iteration (solvers/proxddp/solver-proxddp.hxx:588-594). -/
def gradAt (P : Prob nx nu N) (force : Bool) (it : Iter nx nu P.nc0) : Grad nx nu :=
  let g := compute (P.data it.x it.u) (some it.lam) it.vs
  if force then g.setX 0 0 else g

/-- The multiplier update of the outer loop (solvers/proxddp/solver-proxddp.hxx:495-507).  `vs_pdal` is zero since its creation
(solvers/proxddp/workspace.hxx:34): no other statement of the repository writes it. -/
def nextV {nc0 : ℕ} (S : Setup) (it : Iter nx nu nc0) (w : WS nx nc0) : ℕ → CSets.Vec :=
  match S.mode with
  | .newton => it.vs
  | .primal => fun i => (w.ms i).vsPlus
  | .primalDual => fun i => List.replicate (S.nc i) 0

/-- The problem and the stopping criteria as the loops see them. -/
noncomputable def env (P : Prob nx nu N) (S : Setup)
    (oracle : ProxDDP.St (Iter nx nu P.nc0) (ℕ → CSets.Vec) (WS nx P.nc0) → ProxDDP.StepOutcome (Iter nx nu P.nc0)) :
    ProxDDP.Env (Iter nx nu P.nc0) (ℕ → CSets.Vec) (WS nx P.nc0) where
  mult := mult P S
  dualInf it := (LQ.computeCriterion N (gradAt P S.force it) (fun _ => []) fun _ => []).dual
  innerCrit it w := (LQ.computeCriterion N (gradAt P S.force it) (slacks w.V) fun i => (w.ms i).Lvs).inner
  nextV := nextV S
  oracle := oracle

/-- `workspace_.dxs, dus, dlams, dvs`. -/
structure Dir (nx nu : ℕ → ℕ) (nc0 : ℕ) where
  dx : ∀ i, Fin (nx i) → ℝ
  du : ∀ i, Fin (nu i) → ℝ
  dlam : Lams nx nc0
  dv : ℕ → CSets.Vec

/-- With a forced initial condition the first state and its multiplier do not move
(solvers/proxddp/solver-proxddp.hxx:635-638). -/
def Dir.forced {nc0 : ℕ} (force : Bool) (d : Dir nx nu nc0) : Dir nx nu nc0 :=
  if force then { d with dx := Function.update d.dx 0 0, dlam := { d.dlam with init := 0 } } else d

/-- `tryLinearStep` (solvers/proxddp/solver-proxddp.hxx:111-155), at least one stage. -/
def linearStep {nc0 : ℕ} (it : Iter nx nu nc0) (d : Dir nx nu nc0) (a : ℝ) : Iter nx nu nc0 where
  x i := it.x i + a • d.dx i
  u i := it.u i + a • d.du i
  lam := ⟨it.lam.init + a • d.dlam.init, fun i => it.lam.dyn i + a • d.dlam.dyn i⟩
  vs i := List.zipWith (· + ·) (it.vs i) ((d.dv i).map (a * ·))

/-- The value of the merit function at a point: `computeMultipliers`, then `ALFunction::evaluate`
(solvers/proxddp/solver-proxddp.hxx:547-551, :573-575); `mu_dyn()` is `0.1 mu` (solvers/proxddp/solver-proxddp.hpp:313). -/
noncomputable def merit (P : Prob nx nu N) (S : Setup) (mu : ℝ) (vPrev : ℕ → CSets.Vec) (it : Iter nx nu P.nc0) : ℝ :=
  let w := (mult P S mu vPrev it).1
  meritEvaluate (0.1 * mu) mu N w.V.cost (lamsPlus mu (0.1 * mu) it.lam w.V) fun i => (w.ms i).vsPlus

/-- A line search: merit and derivative at zero, merit function; returns the step length and the calls of the merit function in
order, `none` for an exception. -/
abbrev Search := ℝ → ℝ → (ℝ → ℝ) → Option (ℝ × List ℝ)

/-- `ArmijoLinesearch::run` (core/linesearch-armijo.hpp:59-147), see C22. -/
noncomputable def armijo (o : Linesearch.Options) (qr : Linesearch.Solve2) (fuel : ℕ) : Search := fun phi0 dphi0 phi =>
  (Linesearch.armijoRun o qr fuel (fun a => some (.fin (phi a))) phi0 dphi0).map fun r => (r.1, r.2.2.reverse)

open Classical in
/-- The loop of `NonmonotoneLinesearch::run` (core/linesearch-nonmonotone.hpp:28-42), see C24, with the calls of the merit
function. -/
noncomputable def nmCalls (o : Linesearch.Options) (betaDec movAvg : ℝ) (phi : ℝ → ℝ) (dphi0 : ℝ) :
    ℕ → ℝ → Option (ℝ × List ℝ)
  | 0, _ => none
  | n + 1, a =>
    if o.alphaMin < a then
      if phi a ≤ movAvg + o.armijoC1 * a * dphi0 then some (a, [a])
      else (nmCalls o betaDec movAvg phi dphi0 n (a * betaDec)).map fun r => (r.1, a :: r.2)
    else some (max a o.alphaMin, [max a o.alphaMin])

/-- `NonmonotoneLinesearch::run` (core/linesearch-nonmonotone.hpp:22-43) from the members left by earlier calls; on entry
`a_opt` is 1 (solvers/proxddp/solver-proxddp.hxx:648). -/
noncomputable def nonmonotone (o : Linesearch.Options) (eta betaDec : ℝ) (fuel : ℕ) (st : Linesearch.NMSt) : Search :=
  fun phi0 dphi0 phi => nmCalls o betaDec (st.update eta phi0).movAvg phi dphi0 fuel 1

/-- One linear solve and step acceptance (solvers/proxddp/solver-proxddp.hxx:603-668) with linear rollouts and a line search.
`solve` is the linear solver applied to the subproblem of the current state; `none` is an exception.  The line search may have
internal state: it is chosen by the solver state.  Simplification: `phi0` is the merit of the iterate, the code takes the value
that the previous line search returned. -/
noncomputable def oracle (P : Prob nx nu N) (S : Setup)
    (search : ProxDDP.St (Iter nx nu P.nc0) (ℕ → CSets.Vec) (WS nx P.nc0) → Search)
    (solve : ProxDDP.St (Iter nx nu P.nc0) (ℕ → CSets.Vec) (WS nx P.nc0) → Option (Dir nx nu P.nc0))
    (s : ProxDDP.St (Iter nx nu P.nc0) (ℕ → CSets.Vec) (WS nx P.nc0)) : ProxDDP.StepOutcome (Iter nx nu P.nc0) :=
  match solve s with
  | none => .raises
  | some d =>
    let d := d.forced S.force
    let dphi0 := directionalDerivative (P.data s.x.x s.x.u) (lamsPlus s.mu (0.1 * s.mu) s.x.lam s.ws.V)
      (fun i => (s.ws.ms i).vsPlus) d.dx d.du
    match search s (merit P S s.mu s.prevV s.x) dphi0 (fun a => merit P S s.mu s.prevV (linearStep s.x d a)) with
    | none => .raises
    | some (a, calls) => .step dphi0 (calls.map (linearStep s.x d)) a

end Aligator.Link
