import Verif.Model.Solver

/-!
# Model: the nonlinear rollout of ProxDDP

`tryNonlinearRollout` overwrites the linear step `dxs, dus, dvs` in the workspace while it simulates the dynamics.  The
workspace is a record of arrays, changed entry by entry.  Spaces, dynamics and gains are arbitrary; exact arithmetic, no NaN.
-/

namespace Aligator.NLRoll

open Matrix

variable {X U : ℕ → Type} {nx nu nc : ℕ → ℕ} {nc0 : ℕ}

/-- The spaces and dynamics of the stages: `ManifoldAbstract::integrate` and `difference` (core/manifold-base.hpp:62-63,
:78-79), `ExplicitDynamicsModel::forward` (core/explicit-dynamics.hpp:46-47), for callbacks that depend on their arguments
only. -/
structure Sys (X U : ℕ → Type) (nx nu : ℕ → ℕ) where
  xint : ∀ i, X i → (Fin (nx i) → ℝ) → X i
  xdiff : ∀ i, X i → X i → Fin (nx i) → ℝ
  uint : ∀ i, U i → (Fin (nu i) → ℝ) → U i
  f : ∀ i, X i → U i → X (i + 1)

/-- A trajectory with multipliers; the entries `vs N` belong to the terminal constraints. -/
@[ext] structure Traj (X U : ℕ → Type) (nx nc : ℕ → ℕ) (nc0 : ℕ) where
  x : ∀ i, X i
  u : ∀ i, U i
  vs : ∀ i, Fin (nc i) → ℝ
  lam0 : Fin nc0 → ℝ
  lam : ∀ i, Fin (nx (i + 1)) → ℝ

/-- The first two block rows of `getFeedforward` and `getFeedback` of the linear solver
(solvers/proxddp/solver-proxddp.hxx:356-364, :397-407). -/
structure Gains (nx nu nc : ℕ → ℕ) where
  k : ∀ i, Fin (nu i) → ℝ
  K : ∀ i, Matrix (Fin (nu i)) (Fin (nx i)) ℝ
  z : ∀ i, Fin (nc i) → ℝ
  Z : ∀ i, Matrix (Fin (nc i)) (Fin (nx i)) ℝ

/-- The part of the workspace the rollout works on: `trial_*` and `dxs, dus, dvs, dlams`. -/
@[ext] structure Work (X U : ℕ → Type) (nx nu nc : ℕ → ℕ) (nc0 : ℕ) where
  trial : Traj X U nx nc nc0
  dx : ∀ i, Fin (nx i) → ℝ
  du : ∀ i, Fin (nu i) → ℝ
  dv : ∀ i, Fin (nc i) → ℝ
  dlam0 : Fin nc0 → ℝ
  dlam : ∀ i, Fin (nx (i + 1)) → ℝ

/-- First block of `tryNonlinearRollout` (solvers/proxddp/solver-proxddp.hxx:341-349). -/
def head (S : Sys X U nx nu) (it : Traj X U nx nc nc0) (a : ℝ) (w : Work X U nx nu nc nc0) : Work X U nx nu nc nc0 :=
  { w with trial := { w.trial with
      x := Function.update w.trial.x 0 (S.xint 0 (it.x 0) (a • w.dx 0))
      lam0 := it.lam0 + a • w.dlam0 } }

/-- The multiplier update of one node (solvers/proxddp/solver-proxddp.hxx:370-372, :409-411). -/
def dual (it : Traj X U nx nc nc0) (g : Gains nx nu nc) (a : ℝ) (t : ℕ) (w : Work X U nx nu nc nc0) : Work X U nx nu nc nc0 :=
  let dv := a • g.z t + g.Z t *ᵥ w.dx t
  { w with
    dv := Function.update w.dv t dv
    trial := { w.trial with vs := Function.update w.trial.vs t (it.vs t + dv) } }

/-- The control update of one stage (solvers/proxddp/solver-proxddp.hxx:366-368). -/
def control (S : Sys X U nx nu) (it : Traj X U nx nc nc0) (g : Gains nx nu nc) (a : ℝ) (t : ℕ) (w : Work X U nx nu nc nc0) :
    Work X U nx nu nc nc0 :=
  let du := a • g.k t + g.K t *ᵥ w.dx t
  { w with
    du := Function.update w.du t du
    trial := { w.trial with u := Function.update w.trial.u t (S.uint t (it.u t) du) } }

/-- The state update of one stage (solvers/proxddp/solver-proxddp.hxx:374-378). -/
def state (S : Sys X U nx nu) (it : Traj X U nx nc nc0) (a : ℝ) (t : ℕ) (w : Work X U nx nu nc nc0) : Work X U nx nu nc nc0 :=
  let x' := S.f t (w.trial.x t) (w.trial.u t)
  { w with
    dx := Function.update w.dx (t + 1) (S.xdiff (t + 1) (it.x (t + 1)) x')
    trial := { w.trial with
      x := Function.update w.trial.x (t + 1) x'
      lam := Function.update w.trial.lam t (it.lam t + a • w.dlam t) } }

/-- One pass of the loop (solvers/proxddp/solver-proxddp.hxx:351-383). -/
def stage (S : Sys X U nx nu) (it : Traj X U nx nc nc0) (g : Gains nx nu nc) (a : ℝ) (w : Work X U nx nu nc nc0) (t : ℕ) :
    Work X U nx nu nc nc0 :=
  state S it a t (dual it g a t (control S it g a t w))

/-- `tryNonlinearRollout` (solvers/proxddp/solver-proxddp.hxx:322-416) without the evaluation of costs and constraints.  The
terminal update is guarded by `!term_cstrs_.empty()`; without terminal constraints the vectors are empty. -/
def rollout (S : Sys X U nx nu) (N : ℕ) (it : Traj X U nx nc nc0) (g : Gains nx nu nc) (w : Work X U nx nu nc nc0) (a : ℝ) :
    Work X U nx nu nc nc0 :=
  dual it g a N ((List.range N).foldl (stage S it g a) (head S it a w))

/-- `tryLinearStep` (solvers/proxddp/solver-proxddp.hxx:111-155) on the same data. -/
def linear (S : Sys X U nx nu) (it : Traj X U nx nc nc0) (w : Work X U nx nu nc nc0) (a : ℝ) : Traj X U nx nc nc0 where
  x i := S.xint i (it.x i) (a • w.dx i)
  u i := S.uint i (it.u i) (a • w.du i)
  vs i := it.vs i + a • w.dv i
  lam0 := it.lam0 + a • w.dlam0
  lam i := it.lam i + a • w.dlam i

/-- Vector spaces (core/vector-space.hpp:52-55, :67-70). -/
def vecSys (f : ∀ i, (Fin (nx i) → ℝ) → (Fin (nu i) → ℝ) → Fin (nx (i + 1)) → ℝ) :
    Sys (fun i => Fin (nx i) → ℝ) (fun i => Fin (nu i) → ℝ) nx nu where
  xint _ x d := x + d
  xdiff _ x y := y - x
  uint _ u d := u + d
  f := f

/-! ### The inner loop with nonlinear rollouts

`tryNonlinearRollout` evaluates stages, terminal cost and terminal constraints, but not the initial condition: `init_data->value_`
keeps the value of the last `TrajOptProblem::evaluate`, which is the one at the head of `innerLoop`. -/

section loop

open Link Lag LQ

variable {N : ℕ}

/-- Iterate, and the value of the initial condition held in the problem data. -/
structure NLIter (nx nu : ℕ → ℕ) (nc0 : ℕ) where
  it : Link.Iter nx nu nc0
  init : Fin nc0 → ℝ

/-- What `TrajOptProblem::evaluate` at the head of `innerLoop` does to the held value
(solvers/proxddp/solver-proxddp.hxx:570-571, core/traj-opt-problem.hxx:51-83). -/
def refresh (P : Prob nx nu N) (x : NLIter nx nu P.nc0) : NLIter nx nu P.nc0 := { x with init := P.h (x.it.x 0) }

/-- The values in the problem data (core/traj-opt-problem.hxx:51-83, solvers/proxddp/solver-proxddp.hxx:380, :387-395). -/
def heldValues (P : Prob nx nu N) (x : NLIter nx nu P.nc0) : Values nx P.nc0 := { P.values x.it.x x.it.u with init := x.init }

/-- `computeMultipliers` (solvers/proxddp/solver-proxddp.hxx:220-316) on the held values. -/
noncomputable def multNL (P : Prob nx nu N) (S : Setup) (mu : ℝ) (vPrev : ℕ → CSets.Vec) (x : NLIter nx nu P.nc0) :
    WS nx P.nc0 × Option ℝ :=
  let V := heldValues P x
  let ms := fun i => CSets.multiplierStep (S.op i) mu (V.c i) (vPrev i) (x.it.vs i) (S.out i) []
  (⟨V, ms⟩, some (primInfeas N (fun i => (ms i).infeas) (slacks V)))

/-- Problem and stopping criteria as the inner loop sees them. -/
noncomputable def envNL (P : Prob nx nu N) (S : Setup)
    (oracle : ProxDDP.St (NLIter nx nu P.nc0) (ℕ → CSets.Vec) (WS nx P.nc0) → ProxDDP.StepOutcome (NLIter nx nu P.nc0)) :
    ProxDDP.Env (NLIter nx nu P.nc0) (ℕ → CSets.Vec) (WS nx P.nc0) where
  mult := multNL P S
  dualInf x := (LQ.computeCriterion N (gradAt P S.force x.it) (fun _ => []) fun _ => []).dual
  innerCrit x w := (LQ.computeCriterion N (gradAt P S.force x.it) (slacks w.V) fun i => (w.ms i).Lvs).inner
  nextV x w := nextV S x.it w
  oracle := oracle

/-- The iterate with its multipliers as blocks. -/
def toTraj {nc0 : ℕ} (nc : ℕ → ℕ) (it : Link.Iter nx nu nc0) :
    Traj (fun i => Fin (nx i) → ℝ) (fun i => Fin (nu i) → ℝ) nx nc nc0 :=
  ⟨it.x, it.u, fun i k => (it.vs i).getD k 0, it.lam.init, it.lam.dyn⟩

/-- And back. -/
def ofTraj {nc0 : ℕ} {nc : ℕ → ℕ} (t : Traj (fun i => Fin (nx i) → ℝ) (fun i => Fin (nu i) → ℝ) nx nc nc0) :
    Link.Iter nx nu nc0 :=
  ⟨t.x, t.u, ⟨t.lam0, t.lam⟩, fun i => List.ofFn (t.vs i)⟩

/-- Trial point of the nonlinear rollout from the directions and gains of the linear solver.  By `C58_history_independent` the
workspace left by earlier calls plays no role, so that every call starts from the directions of the linear solver. -/
def trialNL (P : Prob nx nu N) (nc : ℕ → ℕ) (x : NLIter nx nu P.nc0) (g : Gains nx nu nc)
    (w : Work (fun i => Fin (nx i) → ℝ) (fun i => Fin (nu i) → ℝ) nx nu nc P.nc0) (a : ℝ) : NLIter nx nu P.nc0 :=
  ⟨ofTraj (rollout (vecSys P.f) N (toTraj nc x.it) g w a).trial, x.init⟩

/-- One linear solve and step acceptance (solvers/proxddp/solver-proxddp.hxx:603-668) with nonlinear rollouts; the linear solver
and the step acceptance stay parameters. -/
noncomputable def oracleNL (P : Prob nx nu N) (S : Setup)
    (search : ProxDDP.St (NLIter nx nu P.nc0) (ℕ → CSets.Vec) (WS nx P.nc0) → Search)
    (solve : ProxDDP.St (NLIter nx nu P.nc0) (ℕ → CSets.Vec) (WS nx P.nc0) →
      Option (Gains nx nu S.nc × Work (fun i => Fin (nx i) → ℝ) (fun i => Fin (nu i) → ℝ) nx nu S.nc P.nc0))
    (s : ProxDDP.St (NLIter nx nu P.nc0) (ℕ → CSets.Vec) (WS nx P.nc0)) : ProxDDP.StepOutcome (NLIter nx nu P.nc0) :=
  match solve s with
  | none => .raises
  | some (g, w) =>
    let w := if S.force then { w with dx := Function.update w.dx 0 0, dlam0 := 0 } else w
    let dphi0 := directionalDerivative (P.data s.x.it.x s.x.it.u) (lamsPlus s.mu (0.1 * s.mu) s.x.it.lam s.ws.V)
      (fun i => (s.ws.ms i).vsPlus) w.dx w.du
    let phi := fun x : NLIter nx nu P.nc0 =>
      let m := (multNL P S s.mu s.prevV x).1
      meritEvaluate (0.1 * s.mu) s.mu N m.V.cost (lamsPlus s.mu (0.1 * s.mu) x.it.lam m.V) fun i => (m.ms i).vsPlus
    match search s (phi s.x) dphi0 (fun a => phi (trialNL P S.nc s.x g w a)) with
    | none => .raises
    | some (a, calls) => .step dphi0 (calls.map (trialNL P S.nc s.x g w)) a

/-- `innerLoop` (solvers/proxddp/solver-proxddp.hxx:555-701) with nonlinear rollouts. -/
noncomputable def innerLoopNL (P : Prob nx nu N) (p : ProxDDP.Params)
    (e : ProxDDP.Env (NLIter nx nu P.nc0) (ℕ → CSets.Vec) (WS nx P.nc0))
    (s : ProxDDP.St (NLIter nx nu P.nc0) (ℕ → CSets.Vec) (WS nx P.nc0)) :
    ProxDDP.Out (NLIter nx nu P.nc0) (ℕ → CSets.Vec) (WS nx P.nc0) :=
  ProxDDP.innerLoop p e { s with x := refresh P s.x }

open Classical in
/-- The outer `while` loop (solvers/proxddp/solver-proxddp.hxx:479-527) with nonlinear rollouts; the statements around `innerLoop`
are those of `ProxDDP.outer`. -/
noncomputable def outerNL (P : Prob nx nu N) (p : ProxDDP.Params)
    (e : ProxDDP.Env (NLIter nx nu P.nc0) (ℕ → CSets.Vec) (WS nx P.nc0)) (fuel : ℕ) :
    ℕ → ProxDDP.St (NLIter nx nu P.nc0) (ℕ → CSets.Vec) (WS nx P.nc0) →
      ProxDDP.Out (NLIter nx nu P.nc0) (ℕ → CSets.Vec) (WS nx P.nc0)
  | 0, s => .done false s
  | n + 1, s =>
    if s.numIters < p.maxIters then
      match innerLoopNL P p e s with
      | .raised s => .raised s
      | .stuck s => .stuck s
      | .done false s => .done false { s with alIter := s.alIter + 1 }
      | .done true s =>
        if s.prim ≤ s.primTol then
          match ProxDDP.tighten p fuel s with
          | none => .stuck s
          | some s =>
            let s := { s with prevV := e.nextV s.x s.ws }
            if s.dual ≤ p.targetDual ∧ s.prim ≤ p.targetTol then .done true s
            else outerNL P p e fuel n (ProxDDP.clamp p s)
        else outerNL P p e fuel n (ProxDDP.clamp p (ProxDDP.onFailure p s))
    else .done false s

/-- `run` (solvers/proxddp/solver-proxddp.hxx:420-531) with nonlinear rollouts, after the initial guess has been assigned. -/
noncomputable def runNL (P : Prob nx nu N) (p : ProxDDP.Params)
    (e : ProxDDP.Env (NLIter nx nu P.nc0) (ℕ → CSets.Vec) (WS nx P.nc0)) (fuel : ℕ) (v0 : ℕ → CSets.Vec)
    (s : ProxDDP.St (NLIter nx nu P.nc0) (ℕ → CSets.Vec) (WS nx P.nc0)) :
    ProxDDP.Out (NLIter nx nu P.nc0) (ℕ → CSets.Vec) (WS nx P.nc0) :=
  outerNL P p e fuel p.maxAlIters (ProxDDP.initRun p v0 s)

end loop

end Aligator.NLRoll
