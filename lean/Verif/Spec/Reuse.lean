import Verif.Model.Reuse

/-!
# Specification: what a run reports, and histories of calls
-/

namespace Aligator.Reuse

variable {X V W D G : Type}

/-- The state in which a call leaves the solver. -/
def Out.state : Out X V W G → St X V W G
  | .raised s => s
  | .stuck s => s
  | .done _ s => s

/-- The parts of the results and of the log that a client sees after a run.  Gains are reported if the run solved a
subproblem (otherwise the results hold what they held before, see C68). -/
structure SameResults (s s' : St X V W G) : Prop where
  iterate : s.x = s'.x
  prim : s.prim = s'.prim
  dual : s.dual = s'.dual
  merit : s.merit = s'.merit
  numIters : s.numIters = s'.numIters
  alIter : s.alIter = s'.alIter
  steps : s.alphas = s'.alphas
  gains : 0 < s.solves → s.gains = s'.gains

/-- Two runs end in the same way, with the same flag and the same results. -/
def SameReport : Out X V W G → Out X V W G → Prop
  | .raised s, .raised s' => SameResults s s'
  | .stuck s, .stuck s' => SameResults s s'
  | .done b s, .done b' s' => b = b' ∧ SameResults s s'
  | _, _ => False

/-- No callback, rollout or multiplier estimate produces a NaN or throws. -/
structure Total (e : Env X V W D G) : Prop where
  mult : ∀ mu v x, ∃ r, e.mult mu v x = some r
  point : ∀ x d a, ∃ t, e.point x d a = .ok t

/-- A call that a client makes after `setup`: a run on any problem from any guess, or a shift of the horizon. -/
inductive Call (X V W D G : Type)
  | run (p : ProxDDP.Params) (e : Env X V W D G) (g : X)
  | cycle (f : X × X × V × W × G → X × X × V × W × G)

/-- The solver after a call. -/
noncomputable def Call.after (qr : Linesearch.Solve2) (fuel : ℕ) (sa : Strategy) (s : St X V W G) :
    Call X V W D G → St X V W G
  | .run p e g => (Reuse.run qr fuel sa p e g s).state
  | .cycle f => Reuse.cycle f s

/-- Penalty with which every run starts. -/
noncomputable def mu0 (p : ProxDDP.Params) : ℝ := max p.muInit p.muLb

/-- The first thing that a run from guess `g` does is to search along the step `d`: the guess is evaluated to `(w, pr)`,
it does not pass the convergence test, and the first subproblem has step `d`, gains `gn` and slope `dphi0`. -/
structure FirstStep (p : ProxDDP.Params) (e : Env X V W D G) (g : X) (w : W) (pr : ℝ) (d : D) (gn : G) (dphi0 : ℝ) :
    Prop where
  iters : 0 < p.maxIters
  alIters : 0 < p.maxAlIters
  mult : e.mult (mu0 p) (e.vs g) g = some (w, pr)
  busy : ¬ (e.innerCrit g w ≤ max (p.innerTol0 * (min (mu0 p) 0.99) ^ p.dualAlpha) p.targetDual ∨
    (e.dualInf g ≤ p.targetDual ∧ pr ≤ p.targetTol))
  lin : e.lin g w (mu0 p) (max p.regInit p.regMin) = some (d, gn, dphi0)
  slope : p.dphiThresh < |dphi0|

/-- Merit value and infeasibility of the full step from the guess. -/
structure FullStep (p : ProxDDP.Params) (e : Env X V W D G) (g : X) (d : D) (q : ℝ × ℝ) : Prop where
  point : ∃ t w', e.point g d 1 = .ok t ∧ e.mult (mu0 p) (e.vs g) t = some (w', q.2) ∧ e.merit (mu0 p) t w' = q.1

/-- The last value assigned to `target_tol_`. -/
def lastTarget (tol : ℝ) : List TolOp → ℝ
  | [] => tol
  | .setTarget t :: l => lastTarget t l
  | _ :: l => lastTarget tol l

/-- The last argument of `setDualTolerance`. -/
def lastDual (d : Option ℝ) : List TolOp → Option ℝ
  | [] => d
  | .setDual t :: l => lastDual (some t) l
  | _ :: l => lastDual d l

end Aligator.Reuse
