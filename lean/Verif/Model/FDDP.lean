import Verif.Model.Linesearch

/-!
# Model of the FDDP main loop

`include/aligator/solvers/fddp/solver-fddp.hxx`, `solver-fddp.hpp`.

The problem functions and passes are an environment quantified over in the theorems: gaps, gradients and line search
are arbitrary functions of the iterate, the regularisation and the current cost.  An exception is a distinct outcome.
Logging and callbacks are left out.
-/

namespace Aligator.FDDP

open Linesearch (Fl)

/-- Parameters: solver-fddp.hpp:47-69 (members that the loop reads). -/
structure Params where
  targetTol : ℝ
  regInit : ℝ
  regMin : ℝ
  regMax : ℝ
  regDec : ℝ
  regInc : ℝ
  thGrad : ℝ
  thStepDec : ℝ
  thStepInc : ℝ
  maxIters : ℕ

/-- Result of one line search, solver-fddp.hxx:356-374: step, new cost, new iterate, and the slope `d1` left by the
last call of the model. -/
structure Step (X : Type) where
  alpha : ℝ
  cost : ℝ
  x : X
  d1 : ℝ

open Classical in
/-- `std::max`: keeps the first argument when the second is NaN -/
noncomputable def stdMax (a b : Fl) : Fl := if Fl.lt a b then b else a

/-- `infty_norm` of a vector of vectors, math.hpp:158-166, and the loop of `computeCriterion`,
solver-fddp.hxx:194-198: `std::max` of the norms of the entries, starting from zero.  The norm of one entry is
Eigen's and not modelled: it is any number, possibly NaN. -/
noncomputable def maxNorm (l : List Fl) : Fl := l.foldl stdMax (.fin 0)

/-- What the loop calls. -/
structure Env (X : Type) where
  /-- norms of the gaps, `computeInfeasibility`, solver-fddp.hxx:168-188 -/
  gaps : X → List Fl
  /-- norms of the control gradients after `backwardPass`, solver-fddp.hxx:190-280 -/
  grads : X → ℝ → List Fl
  /-- line search with all it needs, solver-fddp.hxx:349-374; `none`: an exception, or a NaN or infinite step or
  cost (361-362) -/
  search : X → ℝ → ℝ → Option (Step X)

/-- `increaseRegularization`, solver-fddp.hpp:151-154. -/
noncomputable def increaseReg (p : Params) (r : ℝ) : ℝ := min (r * p.regInc) p.regMax

/-- `decreaseRegularization`, solver-fddp.hpp:156-159. -/
noncomputable def decreaseReg (p : Params) (r : ℝ) : ℝ := max (r * p.regDec) p.regMin

/-- Solver state that the loop changes; `regs` (ghost) lists the regularisations used by the backward passes,
newest first. -/
structure St (X : Type) where
  x : X
  preg : ℝ
  cost : Fl
  prim : Fl
  dual : Fl
  conv : Bool
  iters : ℕ
  regs : List ℝ

/-- Outcome of `run`. -/
inductive Out (X : Type)
  /-- an exception leaves `run` -/
  | raised (s : St X)
  | done (s : St X)

open Classical in
/-- The loop, solver-fddp.hxx:331-393; first argument: `max_iters - iter`.  `ALIGATOR_RAISE_IF_NAN`
(fwd.hpp:19-21, math.hpp:169-187) raises for NaN and infinities. -/
noncomputable def loop {X : Type} (p : Params) (e : Env X) : ℕ → St X → Out X
  | 0, s => .done s
  | n + 1, s =>
    match maxNorm (e.gaps s.x) with
    | .fin prim =>
      match maxNorm (e.grads s.x s.preg) with
      | .fin dual =>
        let s := { s with prim := .fin prim, dual := .fin dual, regs := s.preg :: s.regs }
        if max prim dual < p.targetTol then .done { s with conv := true }
        else
          match s.cost with
          | .fin phi0 =>
            match e.search s.x s.preg phi0 with
            | none => .raised s
            | some t =>
              let s := { s with cost := .fin t.cost, x := t.x }
              if |t.d1| < p.thGrad then .done { s with conv := true }
              else
                let r := if p.thStepDec < t.alpha then decreaseReg p s.preg else s.preg
                if t.alpha ≤ p.thStepInc then
                  if increaseReg p r = p.regMax then .done { s with preg := increaseReg p r, conv := false }
                  else loop p e n { s with preg := increaseReg p r, iters := s.iters + 1 }
                else loop p e n { s with preg := r, iters := s.iters + 1 }
          | _ => .raised s
      | d => .raised { s with prim := .fin prim, dual := d, regs := s.preg :: s.regs }
    | q => .raised { s with prim := q }

/-- `run`, solver-fddp.hxx:282-399, after the initial guess is stored (`x`) and evaluated (`cost`, possibly NaN);
`prim`, `dual`: what the results held before. -/
noncomputable def run {X : Type} (p : Params) (e : Env X) (x : X) (cost prim dual : Fl) : Out X :=
  loop p e p.maxIters ⟨x, p.regInit, cost, prim, dual, false, 0, []⟩

end Aligator.FDDP
