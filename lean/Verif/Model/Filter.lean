import Mathlib.Algebra.Order.Field.Basic

/-!
# Model of the filter line search

Models `include/aligator/core/filter.hpp`.
-/

namespace Aligator.Filter

variable {R : Type*} [Field R] [LinearOrder R]

/-- State of `FilterTpl` (core/filter.hpp:17-22): the stored pairs (oldest first) and the three
parameters `beta_`, `alpha_min_`, `max_num_steps_`. -/
structure State (R : Type*) where
  pairs : List (R × R)
  beta : R
  alphaMin : R
  maxNumSteps : Nat

/-- Constructor and `resetFilter` (core/filter.hpp:24-30 and 34-40): set the parameters and clear the
pairs (the constructor does the same on a fresh object). -/
def reset (beta alphaMin : R) (maxNumSteps : Nat) : State R :=
  { pairs := [], beta, alphaMin, maxNumSteps }

/-- The rejection test of one stored element against the candidate (core/filter.hpp:82-83). Note that
the margin of the first coordinate is `beta_ * element.second`, as in the code. -/
def blocks (beta : R) (e f : R × R) : Bool :=
  decide (e.1 + beta * e.2 ≤ f.1) && decide (e.2 + beta * e.2 ≤ f.2)

/-- The removal test (core/filter.hpp:91): the stored element is componentwise `≥` the candidate. -/
def dominatedBy (f e : R × R) : Bool :=
  decide (f.1 ≤ e.1) && decide (f.2 ≤ e.2)

/-- `accept_pair` (core/filter.hpp:78-102): returns the new state and the returned flag.
The two loops over the vector are `List.any` and `List.filter`. -/
def acceptPair (s : State R) (f : R × R) : State R × Bool :=
  if s.pairs.any (fun e => blocks s.beta e f) then (s, false)
  else ({ s with pairs := s.pairs.filter (fun e => !dominatedBy f e) ++ [f] }, true)

/-- First loop of `run` (core/filter.hpp:47-58): halve the step until `phi` does not throw (`none` is a
thrown `std::runtime_error`) or the step goes below `alpha_min_`. If `phi` always throws, `fpair`
keeps its value-initialised content `(0, 0)` (core/filter.hpp:45). `fuel` bounds the number of
halvings; `none` is returned when it runs out (see `runFirst_terminates`). -/
def runFirst (phi : R → Option (R × R)) (alphaMin : R) : Nat → R → Option (R × (R × R))
  | 0, _ => none
  | fuel + 1, a =>
    match phi a with
    | some p => some (a, p)
    | none =>
      let a' := a * (1 / 2)
      if a' ≤ alphaMin then some (alphaMin, (0, 0))
      else runFirst phi alphaMin fuel a'

/-- Outcome of `run`: either normal return (final state, final step, returned value) or the exception
thrown by an unguarded call of `phi` (core/filter.hpp:66, 69), which propagates to the caller while the
filter keeps the state reached so far. -/
inductive Outcome (R : Type*)
  | ret (s : State R) (alpha : R) (pair : R × R)
  | threw (s : State R)

/-- Second loop of `run` (core/filter.hpp:61-72), `n` remaining iterations. -/
def runLoop (phi : R → Option (R × R)) : Nat → State R → R → R × R → Outcome R
  | 0, s, a, p => .ret s a p
  | n + 1, s, a, p =>
    match acceptPair s p with
    | (s', true) => .ret s' a p
    | (s', false) =>
      let a' := a * (1 / 2)
      if a' ≤ s'.alphaMin then
        match phi s'.alphaMin with
        | none => .threw s'
        | some p' => .ret s' s'.alphaMin p'
      else
        match phi a' with
        | none => .threw s'
        | some p' => runLoop phi n s' a' p'

/-- `FilterTpl::run` (core/filter.hpp:42-76). -/
def run (phi : R → Option (R × R)) (fuel : Nat) (s : State R) : Option (Outcome R) :=
  match runFirst phi s.alphaMin fuel 1 with
  | none => none
  | some (a, p) => some (runLoop phi s.maxNumSteps s a p)

/-- An operation on a filter: test a pair, or reset with new parameters. -/
inductive Op (R : Type*)
  | accept (f : R × R)
  | reset (beta alphaMin : R) (maxNumSteps : Nat)

/-- One step of the filter state machine. -/
def step (s : State R) : Op R → State R
  | .accept f => (acceptPair s f).1
  | .reset b a n => reset b a n

end Aligator.Filter
