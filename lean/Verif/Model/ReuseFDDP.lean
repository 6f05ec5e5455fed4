import Verif.Model.FDDP

/-!
# Model: the members of an FDDP solver that survive a run

`include/aligator/solvers/fddp/solver-fddp.{hpp,hxx}`, `linesearch.hpp`, `workspace.hpp`: the loop of
`Verif.Model.FDDP` together with the trial buffers, the slope `d1_` and the gains that the solver object carries
from one call of `run` to the next, and with forward passes that may throw.  Costs and criteria are real numbers
(NaN: see C20); exceptions outside the line search end the run.
-/

namespace Aligator.FReuse

open FDDP (Params increaseReg decreaseReg)

/-- Members of the solver, its results and its workspace. -/
structure St (X G : Type) where
  /-- `results_.xs, us` -/
  x : X
  /-- `workspace_.trial_xs, trial_us` -/
  trial : X
  /-- `workspace_.d1_` (solvers/fddp/workspace.hpp:42) -/
  d1 : ℝ
  preg : ℝ
  cost : ℝ
  prim : ℝ
  dual : ℝ
  /-- `results_.gains_` -/
  gains : G
  conv : Bool
  iters : ℕ

/-- A forward pass that returns: trial trajectory, its cost, model value minus `phi0`, slope `d1`. -/
structure Pass (X : Type) where
  trial : X
  cost : ℝ
  dV : ℝ
  d1 : ℝ

/-- What the loop calls. -/
structure Env (X G : Type) where
  /-- `problem.evaluate` at the guess (solvers/fddp/solver-fddp.hxx:328-329) -/
  cost : X → ℝ
  /-- derivatives, gaps, backward pass, criterion (solvers/fddp/solver-fddp.hxx:333-340): primal and dual infeasibility, gains;
  `none`: an exception -/
  check : X → ℝ → Option (ℝ × ℝ × G)
  /-- `forwardPass` with step `alpha` and, if it returns, `ls_model` (solvers/fddp/solver-fddp.hxx:59-119, :322-325) at an
  iterate with a regularisation; an exception leaves the trial buffers partly written -/
  fwd : X → ℝ → ℝ → Except (X → X) (Pass X)
  /-- `trial_xs[0]` at the start of `run` (solvers/fddp/solver-fddp.hxx:295-297) -/
  prime : X → X
  /-- results, trial buffers and gains that `setup` builds (solvers/fddp/solver-fddp.hxx:33-36) -/
  fresh : X × X × G

/-- Constants of the line search (solvers/fddp/linesearch.hpp:17-25). -/
structure LS where
  alphaMin : ℝ
  beta : ℝ
  eps : ℝ
  thAccept : ℝ
  thAcceptNeg : ℝ

variable {X G : Type}

open Classical in
/-- `fddp_goldstein_linesearch` (solvers/fddp/linesearch.hpp:17-55) with the trial buffers and `d1`; arguments: remaining fuel,
`atry`, `phitry`, trial buffers, `d1`.  Result: step, value, trial buffers, `d1`. -/
noncomputable def search (o : LS) (thGrad phi0 : ℝ) (fwd : ℝ → Except (X → X) (Pass X)) :
    ℕ → ℝ → ℝ → X → ℝ → Option (ℝ × ℝ × X × ℝ)
  | 0, _, _, _, _ => none
  | n + 1, a, phi, t, d1 =>
    if a < o.alphaMin + o.eps then some (a, phi, t, d1)
    else
      match fwd a with
      | .error g => search o thGrad phi0 fwd n (a * o.beta) phi (g t) d1
      | .ok r =>
        if (r.dV < 0 ∧ (|r.d1| < thGrad ∨ r.cost - phi0 ≤ o.thAccept * r.dV)) ∨
            (¬ r.dV < 0 ∧ r.cost - phi0 ≤ o.thAcceptNeg * r.dV) then some (a, r.cost, r.trial, r.d1)
        else search o thGrad phi0 fwd n (max (a * o.beta) o.alphaMin) r.cost r.trial r.d1

/-- How `run` ends. -/
inductive Out (X G : Type)
  | raised (s : St X G)
  | stuck (s : St X G)
  | done (s : St X G)

open Classical in
/-- The loop (solvers/fddp/solver-fddp.hxx:331-393); first argument: `max_iters - iter`. -/
noncomputable def loop (o : LS) (fuel : ℕ) (p : Params) (e : Env X G) : ℕ → St X G → Out X G
  | 0, s => .done s
  | n + 1, s =>
    match e.check s.x s.preg with
    | none => .raised s
    | some (prim, dual, g) =>
      let s := { s with prim, dual }
      if max prim dual < p.targetTol then .done { s with conv := true }
      else
        let s := { s with gains := g }
        match search o p.thGrad s.cost (e.fwd s.x s.preg) fuel 1 s.cost s.trial s.d1 with
        | none => .stuck s
        | some (a, phi, t, d1) =>
          let s := { s with cost := phi, trial := t, d1, x := t }
          if |d1| < p.thGrad then .done { s with conv := true }
          else
            let r := if p.thStepDec < a then decreaseReg p s.preg else s.preg
            if a ≤ p.thStepInc then
              if increaseReg p r = p.regMax then .done { s with preg := increaseReg p r, conv := false }
              else loop o fuel p e n { s with preg := increaseReg p r, iters := s.iters + 1 }
            else loop o fuel p e n { s with preg := r, iters := s.iters + 1 }

/-- `run` (solvers/fddp/solver-fddp.hxx:282-399) from a guess. -/
noncomputable def run (o : LS) (fuel : ℕ) (p : Params) (e : Env X G) (g : X) (s : St X G) : Out X G :=
  loop o fuel p e p.maxIters
    { s with preg := p.regInit, x := g, trial := e.prime s.trial, conv := false, cost := e.cost g, iters := 0 }

/-- `setup` (solvers/fddp/solver-fddp.hxx:30-56): new results and workspace (whose slope is 0, solvers/fddp/workspace.hpp:42);
`preg_` is left alone. -/
def setup (e : Env X G) (s : St X G) : St X G :=
  { s with
    x := e.fresh.1, trial := e.fresh.2.1, gains := e.fresh.2.2, d1 := 0, cost := 0, prim := 0, dual := 0, conv := false
    iters := 0 }

end Aligator.FReuse
