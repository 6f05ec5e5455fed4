import Verif.Model.ProxDDP

/-!
# Model: the tolerance updates of `run` with rounding

`solvers/proxddp/solver-proxddp.hpp:332-336` and `solvers/proxddp/solver-proxddp.hxx:479-527`.  The loop that tightens the
tolerances is the one loop of `run` that no counter bounds, so that what the products round to decides whether it ends.
-/

namespace Aligator.ProxDDP

variable {X V W : Type}

/-- The arithmetic of the loop: rounding of a product, and `std::pow` as the library computes it. -/
structure Arith where
  rnd : ℝ → ℝ
  pow : ℝ → ℝ → ℝ

/-- `updateTolsOnSuccess` (solvers/proxddp/solver-proxddp.hpp:332-336), rounded. -/
noncomputable def updateTolsOnSuccessR (A : Arith) (p : Params) (s : St X V W) : St X V W :=
  { s with
    primTol := A.rnd (s.primTol * A.pow (min s.mu 0.99) p.primBeta)
    innerTol := A.rnd (s.innerTol * A.pow (min s.mu 0.99) p.dualBeta) }

open Classical in
/-- `do updateTolsOnSuccess(); while (inner_criterion < inner_tol_)` (solvers/proxddp/solver-proxddp.hxx:491-493), rounded; at
most the given number of passes, `none`: still looping. -/
noncomputable def tightenR (A : Arith) (p : Params) : ℕ → St X V W → Option (St X V W)
  | 0, _ => none
  | n + 1, s =>
    let s := updateTolsOnSuccessR A p s
    if s.crit < s.innerTol then tightenR A p n s else some s

open Classical in
/-- The outer loop (solvers/proxddp/solver-proxddp.hxx:479-527) with that loop.  Simplification: all other arithmetic is exact. -/
noncomputable def outerR (A : Arith) (p : Params) (e : Env X V W) (fuel : ℕ) : ℕ → St X V W → Out X V W
  | 0, s => .done false s
  | n + 1, s =>
    if s.numIters < p.maxIters then
      match innerLoop p e s with
      | .raised s => .raised s
      | .stuck s => .stuck s
      | .done false s => .done false { s with alIter := s.alIter + 1 }
      | .done true s =>
        if s.prim ≤ s.primTol then
          match tightenR A p fuel s with
          | none => .stuck s
          | some s =>
            let s := { s with prevV := e.nextV s.x s.ws }
            if s.dual ≤ p.targetDual ∧ s.prim ≤ p.targetTol then .done true s
            else outerR A p e fuel n (clamp p s)
        else outerR A p e fuel n (clamp p (onFailure p s))
    else .done false s

/-- `run` (solvers/proxddp/solver-proxddp.hxx:420-531) with that loop. -/
noncomputable def runR (A : Arith) (p : Params) (e : Env X V W) (fuel : ℕ) (v0 : V) (s : St X V W) : Out X V W :=
  outerR A p e fuel p.maxAlIters (initRun p v0 s)

end Aligator.ProxDDP
