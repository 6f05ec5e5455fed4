import Mathlib.Data.List.Basic

/-!
# Model: which constraint sets a ProxDDP run uses

The sets of a stage (their kinds, limits and parameters) are one value of an arbitrary type `S`.  The constraint functions
are not modelled: a run evaluates those of the problem it is given.
-/

namespace Aligator.SSets

variable {S : Type}

/-- The sets held by a problem: those of the stages and the terminal ones (core/traj-opt-problem.hpp `stages_`,
`term_cstrs_`, core/constraint.hpp `sets`). -/
structure Prob (S : Type) where
  stages : List S
  term : S

/-- `rotate_vec_left` (utils/mpc-util.hpp:17-22) with `n_head = 0`. -/
def rotateLeft {α : Type} (l : List α) (nTail : ℕ) : List α :=
  let n := l.length - nTail
  ((l.take n).drop 1 ++ (l.take n).take 1) ++ l.drop n

/-- `replaceStageCircular` (core/traj-opt-problem.hxx:167-174). -/
def Prob.replaceStageCircular (P : Prob S) (s : S) : Prob S :=
  { P with stages := (rotateLeft (P.stages ++ [s]) 0).dropLast }

/-- `nsteps` and `cstr_product_sets` of the workspace (solvers/proxddp/workspace.hpp:81). -/
structure Ws (S : Type) where
  nsteps : ℕ
  sets : List S

/-- The constructor (solvers/proxddp/workspace.hxx:57-77 with solvers/proxddp/workspace.hpp:16-23): copies of the sets. -/
def Ws.create (P : Prob S) : Ws S := ⟨P.stages.length, P.stages ++ [P.term]⟩

/-- `cycleAppend` (solvers/proxddp/workspace.hxx:103, :133-135).  `none` is an access out of bounds. -/
def Ws.cycleAppend (w : Ws S) (P : Prob S) : Option (Ws S) := do
  let s ← if w.nsteps = 0 then none else P.stages[w.nsteps - 1]?
  if w.nsteps - 1 < w.sets.length then some { w with sets := (rotateLeft w.sets 1).set (w.nsteps - 1) s } else none

/-- A problem and a solver. -/
structure State (S : Type) where
  prob : Prob S
  ws : Option (Ws S)

/-- What a client does: set up the solver, change the sets of a stage or of the terminal node in place, replace the first
stage, shift the solver, run it. -/
inductive Op (S : Type)
  | setup
  | edit (i : ℕ) (s : S)
  | editTerm (s : S)
  | replace (s : S)
  | cycle
  | run

/-- One call; a run shows the sets it projects with, stage by stage and the terminal ones last
(solvers/proxddp/solver-proxddp.hxx:269, :279-281, :294, :303-305).  `none`: an access out of bounds, or a solver that was
not set up. -/
def step (st : State S) : Op S → Option (State S × List (List S))
  | .setup => some ({ st with ws := some (Ws.create st.prob) }, [])
  | .edit i s => if i < st.prob.stages.length then
      some ({ st with prob := { st.prob with stages := st.prob.stages.set i s } }, []) else none
  | .editTerm s => some ({ st with prob := { st.prob with term := s } }, [])
  | .replace s => some ({ st with prob := st.prob.replaceStageCircular s }, [])
  | .cycle => do
    let w ← st.ws
    let w ← w.cycleAppend st.prob
    pure ({ st with ws := some w }, [])
  | .run => do
    let w ← st.ws
    pure (st, [w.sets])

/-- A program; the result is the state and what the runs show. -/
def exec : State S → List (Op S) → Option (State S × List (List S))
  | st, [] => some (st, [])
  | st, o :: os => do
    let (st, a) ← step st o
    let (st, b) ← exec st os
    pure (st, a ++ b)

end Aligator.SSets
