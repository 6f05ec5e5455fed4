import Verif.Model.Settings

/-!
# Specification: what a solver that was set up uses
-/

namespace Aligator.Settings.Spec
open Aligator.Settings

variable {D : Type}

/-- The combinations of settings `setup` may accept: the parallel solver only in builds with threads, with linear
rollouts and at least two threads (counted modulo 2^32, the type of the constructor's argument). -/
def Supported (mt : Bool) (c : Cfg) : Prop :=
  c.choice = .parallel → c.rollout = .linear ∧ mt = true ∧ 2 ≤ c.threads % 2 ^ 32

/-- Problems for which results and workspace can be allocated. -/
def Allocates (p : Prob D) : Prop := p.integrity = true ∧ p.resultsOk = true ∧ p.workspaceOk = true

/-- The linear solver selected by a call. -/
def choice? : Op D → Option Choice | .setChoice x => some x | _ => none
/-- The rollout selected by a call. -/
def rollout? : Op D → Option Rollout | .setRollout x => some x | _ => none
/-- The number of threads set by a call. -/
def threads? : Op D → Option ℕ | .setThreads x => some x | _ => none
/-- The strategy selected by a call. -/
def strategy? : Op D → Option Strategy | .setStrategy x => some x | _ => none
/-- The stage appended by a call. -/
def stage? : Op D → Option D | .shift d _ => some d | _ => none

/-- The settings after a sequence of calls: the last value given to each. -/
def settings (c : Cfg) (h : List (Op D)) : Cfg where
  choice := (h.filterMap choice?).getLastD c.choice
  rollout := (h.filterMap rollout?).getLastD c.rollout
  threads := (h.filterMap threads?).getLastD c.threads
  strategy := (h.filterMap strategy?).getLastD c.strategy

/-- Threads of the linear solver. -/
def linThreads (c : Cfg) : ℕ := if c.choice = .parallel then c.threads % 2 ^ 32 else 1

/-- The line search in force after a `setup` with strategy `a` on a solver whose last line search was `l`. -/
def lineSearch (a : Strategy) (l : Option Strategy) : Option Strategy := if a = .filter then l else some a

/-- A sequence of calls that neither sets up again nor shifts to a problem that fails its integrity check. -/
def Continues (h : List (Op D)) : Prop :=
  ∀ o ∈ h, (∀ p, o ≠ .setup p) ∧ ∀ d, o ≠ .shift d false

/-- The horizon is not empty when it is shifted. -/
def Shiftable (s : Sizes D) (h : List (Op D)) : Prop := s.stages = [] → ∀ o ∈ h, ∀ d i, o ≠ Op.shift d i

/-- Sizes after the shifts of a sequence of calls. -/
def shifted (s : Sizes D) (h : List (Op D)) : Sizes D :=
  ⟨(s.stages ++ h.filterMap stage?).drop (h.filterMap stage?).length, s.term⟩

end Aligator.Settings.Spec
