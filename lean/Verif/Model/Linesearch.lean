import Mathlib.Analysis.Real.Sqrt

/-!
# Model of the line searches

`include/aligator/core/linesearch-armijo.hpp`, `linesearch-nonmonotone.hpp`, `linesearch-base.hpp`,
`solvers/fddp/linesearch.hpp`.

Merit values are floating-point-like numbers `Fl`: real numbers extended by infinities and NaN with the IEEE
rules for comparison and arithmetic, no rounding, one zero.  A merit function is `ℝ → Option Fl`, `none`: the
call throws `std::runtime_error`.
-/

namespace Aligator.Linesearch

/-- Extended numbers: IEEE 754 without rounding and with one zero. -/
inductive Fl
  | nan
  | inf (neg : Bool)
  | fin (x : ℝ)

namespace Fl

open Classical in
noncomputable def sgn (x : ℝ) : Bool := decide (x < 0)

noncomputable def neg : Fl → Fl
  | nan => nan
  | inf b => inf (!b)
  | fin x => fin (-x)

noncomputable def add : Fl → Fl → Fl
  | nan, _ => nan
  | _, nan => nan
  | inf a, inf b => if a = b then inf a else nan
  | inf a, fin _ => inf a
  | fin _, inf b => inf b
  | fin x, fin y => fin (x + y)

noncomputable def sub (a b : Fl) : Fl := add a (neg b)

open Classical in
noncomputable def mul : Fl → Fl → Fl
  | nan, _ => nan
  | _, nan => nan
  | inf a, inf b => inf (a != b)
  | inf a, fin y => if y = 0 then nan else inf (a != sgn y)
  | fin x, inf b => if x = 0 then nan else inf (sgn x != b)
  | fin x, fin y => fin (x * y)

open Classical in
noncomputable def div : Fl → Fl → Fl
  | nan, _ => nan
  | _, nan => nan
  | inf _, inf _ => nan
  | inf a, fin y => inf (a != sgn y)
  | fin _, inf _ => fin 0
  | fin x, fin y => if y = 0 then (if x = 0 then nan else inf (sgn x)) else fin (x / y)

open Classical in
noncomputable def sqrt : Fl → Fl
  | nan => nan
  | inf false => inf false
  | inf true => nan
  | fin x => if x < 0 then nan else fin (Real.sqrt x)

/-- `a <= b`: false when one is NaN -/
def le : Fl → Fl → Prop
  | nan, _ => False
  | _, nan => False
  | inf true, _ => True
  | inf false, inf b => b = false
  | inf false, fin _ => False
  | fin _, inf b => b = false
  | fin x, fin y => x ≤ y

/-- `a < b`: false when one is NaN -/
def lt : Fl → Fl → Prop
  | nan, _ => False
  | _, nan => False
  | inf true, inf b => b = false
  | inf true, fin _ => True
  | inf false, _ => False
  | fin _, inf b => b = false
  | fin x, fin y => x < y

end Fl

/-- `LSInterpolation`, linesearch-base.hpp:11. -/
inductive Interp
  | bisection
  | quadratic
  | cubic
  deriving DecidableEq

/-- `LinesearchOptions`, linesearch-base.hpp:13-42 (fields that are read). -/
structure Options where
  armijoC1 : ℝ
  dphiThresh : ℝ
  alphaMin : ℝ
  maxNumSteps : ℕ
  interp : Interp
  contractionMin : ℝ
  contractionMax : ℝ

/-- `FunctionSample`, linesearch-base.hpp:53-73 (`dphi` is only used for the lower bound). -/
structure Sample where
  alpha : ℝ
  phi : Fl
  valid : Bool

/-- default constructor, linesearch-base.hpp:58-62 -/
noncomputable def Sample.default : Sample := ⟨0, .fin 0, false⟩

/-- `PolynomialTpl::evaluate` (Horner), linesearch-armijo.hpp:24-30. -/
noncomputable def polyEval (coeffs : List Fl) (a : ℝ) : Fl :=
  coeffs.foldl (fun r c => Fl.add (Fl.mul r (.fin a)) c) (.fin 0)

/-- `PolynomialTpl::derivative`, linesearch-armijo.hpp:31-40, over the reals. -/
noncomputable def polyDeriv (coeffs : List ℝ) : List ℝ :=
  if coeffs.length - 1 = 0 then [0]
  else (List.range (coeffs.length - 1)).map
    (fun i => coeffs.getD i 0 * (((coeffs.length - 1 : ℕ) : ℝ) - i))

/-- Result of `HouseholderQR::solve` for a 2×2 system, linesearch-armijo.hpp:193-194: the matrix by rows, then
the right-hand side. Eigen's kernel is not modelled: it is a parameter. -/
abbrev Solve2 := ℝ → ℝ → ℝ → ℝ → Fl → Fl → Fl × Fl

/-- exact on regular systems with finite data -/
def Solve2.Exact (s : Solve2) : Prop :=
  ∀ a b c d x y : ℝ, a * d - b * c ≠ 0 → ∃ u v : ℝ, s a b c d (.fin x) (.fin y) = (.fin u, .fin v) ∧
    a * u + b * v = x ∧ c * u + d * v = y

/-- Quadratic branch, linesearch-armijo.hpp:165-175: coefficients and stationary point. -/
noncomputable def quadInterp (phi0 dphi0 : ℝ) (c0 : Sample) : List Fl × Fl :=
  let a := Fl.div (Fl.sub (Fl.sub c0.phi (.fin phi0)) (.fin (c0.alpha * dphi0))) (.fin (c0.alpha * c0.alpha))
  ([a, .fin dphi0, .fin phi0], Fl.div (.fin (-dphi0)) (Fl.mul (.fin 2) a))

/-- Cubic branch, linesearch-armijo.hpp:176-205: coefficients and candidate minimiser.  The right-hand side has
`cand1` first (line 190) while the first matrix row belongs to `cand0` (line 185). -/
noncomputable def cubicInterp (solve : Solve2) (phi0 dphi0 : ℝ) (c0 c1 : Sample) : List Fl × Fl :=
  let a0 := c0.alpha
  let a1 := c1.alpha
  let r := solve (a0 * a0 * a0) (a0 * a0) (a1 * a1 * a1) (a1 * a1)
    (Fl.sub (Fl.sub c1.phi (.fin phi0)) (.fin (dphi0 * a1)))
    (Fl.sub (Fl.sub c0.phi (.fin phi0)) (.fin (dphi0 * a0)))
  let c3 := r.1
  let c2 := r.2
  ([c3, c2, .fin dphi0, .fin phi0],
   Fl.div (Fl.add (Fl.neg c2)
      (Fl.sqrt (Fl.sub (Fl.mul c2 c2) (Fl.mul (Fl.mul (.fin 3) c3) (.fin dphi0)))))
    (Fl.mul (.fin 3) c3))

open Classical in
/-- Safeguard at the end of `minimize_interpolant`, linesearch-armijo.hpp:210-221. -/
noncomputable def safeguard (coeffs : List Fl) (anext : Fl) (lo hi : ℝ) : Fl :=
  if Fl.lt (.fin hi) anext ∨ Fl.lt anext (.fin lo) then
    if Fl.lt (polyEval coeffs lo) (polyEval coeffs hi) then .fin lo else .fin hi
  else anext

/-- Choice of the interpolant by the number of samples, linesearch-armijo.hpp:160-208. -/
noncomputable def interpolant (solve : Solve2) (phi0 dphi0 : ℝ) (c0 : Sample) : Option Sample → List Fl × Fl
  | none => quadInterp phi0 dphi0 c0
  | some c1 => cubicInterp solve phi0 dphi0 c0 c1

/-- `minimize_interpolant`, linesearch-armijo.hpp:150-222; the samples after the lower bound. -/
noncomputable def minimizeInterpolant (solve : Solve2) (phi0 dphi0 : ℝ) (c0 : Sample) (c1 : Option Sample)
    (lo hi : ℝ) : Fl :=
  safeguard (interpolant solve phi0 dphi0 c0 c1).1 (interpolant solve phi0 dphi0 c0 c1).2 lo hi

/-- State of the Armijo search: current step, last two samples, and (ghost) the steps at which the merit function
was called, newest first. -/
structure ASt where
  alpha : ℝ
  latest : Sample
  previous : Sample
  calls : List ℝ

open Classical in
/-- First phase, linesearch-armijo.hpp:69-80: halve until no exception; `none`: out of fuel. -/
noncomputable def armijoFirst (o : Options) (phi : ℝ → Option Fl) : ℕ → ASt → Option ASt
  | 0, _ => none
  | n + 1, s =>
    let s := { s with calls := s.alpha :: s.calls }
    match phi s.alpha with
    | some v => some { s with latest := ⟨s.alpha, v, true⟩ }
    | none =>
      let a := s.alpha * 0.5
      if a ≤ o.alphaMin then some { s with alpha := o.alphaMin }
      else armijoFirst o phi n { s with alpha := a }

open Classical in
/-- The next trial step, linesearch-armijo.hpp:93-132. -/
noncomputable def nextAlpha (o : Options) (solve : Solve2) (phi0 dphi0 : ℝ) (s : ASt) : ℝ :=
  let a : Fl := match o.interp with
    | .bisection => .fin (s.alpha * 0.5)
    | .quadratic => minimizeInterpolant solve phi0 dphi0 s.latest none
        (o.contractionMin * s.alpha) (o.contractionMax * s.alpha)
    | .cubic => minimizeInterpolant solve phi0 dphi0 s.latest
        (if s.previous.valid then some s.previous else none)
        (o.contractionMin * s.alpha) (o.contractionMax * s.alpha)
  match a with
  | .nan => o.contractionMin * s.previous.alpha
  | .fin x => max x o.alphaMin
  | .inf _ => o.alphaMin -- unreachable: `minimizeInterpolant_cases`

open Classical in
/-- Main loop, linesearch-armijo.hpp:86-144, with the remaining number of steps. -/
noncomputable def armijoLoop (o : Options) (solve : Solve2) (phi : ℝ → Option Fl) (phi0 dphi0 : ℝ) :
    ℕ → ASt → ASt
  | 0, s => s
  | n + 1, s =>
    if Fl.le (Fl.sub s.latest.phi (.fin phi0)) (.fin (o.armijoC1 * s.alpha * dphi0)) then s
    else
      let a := nextAlpha o solve phi0 dphi0 s
      let s := { s with alpha := a, previous := s.latest, calls := a :: s.calls }
      match phi a with
      | none => armijoLoop o solve phi phi0 dphi0 n s
      | some v =>
        let s := { s with latest := ⟨a, v, true⟩ }
        if a ≤ o.alphaMin then s else armijoLoop o solve phi phi0 dphi0 n s

open Classical in
/-- `ArmijoLinesearch::run`, linesearch-armijo.hpp:59-147: step, value, calls of the merit function (newest
first); `none`: out of fuel in the first phase. -/
noncomputable def armijoRun (o : Options) (solve : Solve2) (fuel : ℕ) (phi : ℝ → Option Fl) (phi0 dphi0 : ℝ) :
    Option (ℝ × Fl × List ℝ) :=
  match armijoFirst o phi fuel ⟨1, .default, .default, []⟩ with
  | none => none
  | some s =>
    if |dphi0| < o.dphiThresh then some (s.alpha, s.latest.phi, s.calls)
    else
      let s := armijoLoop o solve phi phi0 dphi0 o.maxNumSteps s
      some (max s.alpha o.alphaMin, s.latest.phi, s.calls)

/-! ## Nonmonotone search -/

/-- Members of `NonmonotoneLinesearch`, linesearch-nonmonotone.hpp:50-56. -/
structure NMSt where
  movAvg : ℝ
  avgWeight : ℝ

/-- `reset` and the constructor, linesearch-nonmonotone.hpp:17-20, 45-48. -/
def NMSt.reset : NMSt := ⟨0, 0⟩

/-- Update of the reference value, linesearch-nonmonotone.hpp:24-26. -/
noncomputable def NMSt.update (eta : ℝ) (s : NMSt) (phi0 : ℝ) : NMSt :=
  ⟨(eta * s.avgWeight * s.movAvg + phi0) / (eta * s.avgWeight + 1), eta * s.avgWeight + 1⟩

/-- Outcome of one nonmonotone search. -/
inductive NMOut
  | outOfFuel
  /-- the exception of the last, unguarded evaluation leaves `run` -/
  | throws (alpha : ℝ)
  | ret (alpha : ℝ) (v : Fl)

open Classical in
/-- The loop, linesearch-nonmonotone.hpp:28-42. -/
noncomputable def nmLoop (o : Options) (betaDec movAvg : ℝ) (f : ℝ → Option Fl) (dphi0 : ℝ) : ℕ → ℝ → NMOut
  | 0, _ => .outOfFuel
  | n + 1, a =>
    if o.alphaMin < a then
      match f a with
      | some v =>
        if Fl.le v (.fin (movAvg + o.armijoC1 * a * dphi0)) then .ret a v
        else nmLoop o betaDec movAvg f dphi0 n (a * betaDec)
      | none => nmLoop o betaDec movAvg f dphi0 n (a * betaDec)
    else
      match f (max a o.alphaMin) with
      | some v => .ret (max a o.alphaMin) v
      | none => .throws (max a o.alphaMin)

/-- `NonmonotoneLinesearch::run`, linesearch-nonmonotone.hpp:22-43; `a` is the value of `a_opt` on entry. -/
noncomputable def nmRun (o : Options) (eta betaDec : ℝ) (fuel : ℕ) (s : NMSt) (f : ℝ → Option Fl)
    (phi0 dphi0 a : ℝ) : NMSt × NMOut :=
  let s := s.update eta phi0
  (s, nmLoop o betaDec s.movAvg f dphi0 fuel a)

/-! ## FDDP search -/

open Classical in
/-- Loop of `fddp_goldstein_linesearch`, solvers/fddp/linesearch.hpp:28-53: state `(atry, phitry)`, result with a
flag telling whether the acceptance test passed.  `model` returns the model value and the updated `d1`
(it is evaluated after the merit function).  Model values are finite reals, a simplification. -/
noncomputable def goldsteinLoop (o : Options) (eps thGrad thAccept thAcceptNeg phi0 : ℝ)
    (phi : ℝ → Option Fl) (model : ℝ → ℝ × ℝ) : ℕ → ℝ → Fl → Option (ℝ × Fl × Bool)
  | 0, _, _ => none
  | n + 1, a, v =>
    if a < o.alphaMin + eps then some (a, v, false)
    else
      match phi a with
      | none => goldsteinLoop o eps thGrad thAccept thAcceptNeg phi0 phi model n (a * o.contractionMin) v
      | some w =>
        let dVreal := Fl.sub w (.fin phi0)
        let dVmodel := (model a).1 - phi0
        if (dVmodel < 0 ∧ (|(model a).2| < thGrad ∨ Fl.le dVreal (.fin (thAccept * dVmodel)))) ∨
            (¬ dVmodel < 0 ∧ Fl.le dVreal (.fin (thAcceptNeg * dVmodel))) then some (a, w, true)
        else goldsteinLoop o eps thGrad thAccept thAcceptNeg phi0 phi model n
          (max (a * o.contractionMin) o.alphaMin) w

/-- `fddp_goldstein_linesearch`, solvers/fddp/linesearch.hpp:17-55. -/
noncomputable def goldstein (o : Options) (eps thGrad thAccept thAcceptNeg phi0 : ℝ)
    (phi : ℝ → Option Fl) (model : ℝ → ℝ × ℝ) (fuel : ℕ) : Option (ℝ × Fl × Bool) :=
  goldsteinLoop o eps thGrad thAccept thAcceptNeg phi0 phi model fuel 1 (.fin phi0)

end Aligator.Linesearch
