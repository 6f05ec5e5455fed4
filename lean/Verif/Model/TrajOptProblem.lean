import Verif.Model.Schedule
import Mathlib.Algebra.BigOperators.Group.List.Basic
import Mathlib.Data.Real.Basic

/-!
# Model of trajectory problems: evaluation, data, receding-horizon shift
-/

namespace Aligator.Prob

open Aligator.Sched

variable {A X U D : Type*} [DecidableEq A]

/-- A user callback: for given arguments, a finite sequence of elementary updates of the data object it
receives (`evaluate(x, u, data)`, `computeJacobians(x, u, data)`, ...). -/
abbrev Callback (X U D : Type*) := X → U → List (D → D)

/-- The steps of a callback executed on the data object stored at address `a`. -/
def Callback.at (f : Callback X U D) (x : X) (u : U) (a : A) : List (Op A D) :=
  (f x u).map fun g =>
    { reads := fun b => b = a, tgt := a, val := fun m => g (m a), dep := fun m m' h => by rw [h a rfl] }

/-- The callbacks of a constraint function (core/function-abstract.hpp) or of the initial condition. -/
structure Func (X U D : Type*) where
  evaluate : Callback X U D
  computeJacobians : Callback X U D

/-- The callbacks of a cost (core/cost-abstract.hpp). -/
structure Cost (X U D : Type*) where
  evaluate : Callback X U D
  computeGradients : Callback X U D
  computeHessians : Callback X U D

/-- The callbacks of the dynamics (core/explicit-dynamics.hpp). -/
structure Dyn (X U D : Type*) where
  forward : Callback X U D
  dForward : Callback X U D

/-- `StageModelTpl` (core/stage-model.hpp): cost, dynamics, constraint functions. -/
structure StageModel (X U D : Type*) where
  cost : Cost X U D
  dynamics : Dyn X U D
  constraints : List (Func X U D)

/-- `StageDataTpl` (core/stage-data.hpp): the addresses of the data objects. -/
structure StageData (A : Type*) where
  constraint_data : List A
  cost_data : A
  dynamics_data : A

/-- All the addresses of a stage's data. -/
def StageData.addrs (d : StageData A) : List A := d.constraint_data ++ [d.cost_data, d.dynamics_data]

/-- The loops over `constraints_.funcs[j]`, `data.constraint_data[j]` (core/stage-model.hxx:47-49). -/
def constraintLoop (sel : Func X U D → Callback X U D) (x : X) (u : U) :
    List (Func X U D) → List A → List (Op A D)
  | f :: fs, a :: as => (sel f).at x u a ++ constraintLoop sel x u fs as
  | _, _ => []

/-- `StageModelTpl::evaluate` (core/stage-model.hxx:41-51). -/
def StageModel.evaluate (s : StageModel X U D) (x : X) (u : U) (d : StageData A) : List (Op A D) :=
  s.dynamics.forward.at x u d.dynamics_data ++
  constraintLoop Func.evaluate x u s.constraints d.constraint_data ++
  s.cost.evaluate.at x u d.cost_data

/-- `StageModelTpl::computeFirstOrderDerivatives` (core/stage-model.hxx:53-62). -/
def StageModel.computeFirstOrderDerivatives (s : StageModel X U D) (x : X) (u : U) (d : StageData A) :
    List (Op A D) :=
  s.dynamics.dForward.at x u d.dynamics_data ++
  constraintLoop Func.computeJacobians x u s.constraints d.constraint_data ++
  s.cost.computeGradients.at x u d.cost_data

/-- `StageModelTpl::computeSecondOrderDerivatives` (core/stage-model.hxx:64-69). -/
def StageModel.computeSecondOrderDerivatives (s : StageModel X U D) (x : X) (u : U) (d : StageData A) :
    List (Op A D) :=
  s.cost.computeHessians.at x u d.cost_data

/-- `TrajOptProblemTpl` (core/traj-opt-problem.hpp:101-128): initial condition, stages, terminal cost,
terminal constraints, dummy control. -/
structure Problem (X U D : Type*) where
  init_constraint : Func X U D
  stages : List (StageModel X U D)
  term_cost : Cost X U D
  term_cstrs : List (Func X U D)
  unone : U

/-- `TrajOptDataTpl` (core/traj-opt-data.hpp:10-30): the addresses of the data objects. -/
structure Data (A : Type*) where
  init_data : A
  stage_data : List (StageData A)
  term_cost_data : A
  term_cstr_data : List A

/-- All the addresses of a problem's data. -/
def Data.addrs (d : Data A) : List A :=
  d.init_data :: d.term_cost_data :: d.term_cstr_data ++ d.stage_data.flatMap StageData.addrs

/-- What a call can do: throw, run into undefined behaviour, or return a memory and a value. -/
inductive Outcome (M R : Type*)
  | error | ub | ok (m : M) (r : R)

/-- `computeTrajectoryCost` (core/traj-opt-data.hxx:31-47): sum over the stages *of the data*, then the
terminal cost.  `value` reads the field `value_` of a cost data object.  The `omp simd reduction` is a
sum over the reals. -/
def computeTrajectoryCost (value : D → ℝ) (d : Data A) (m : A → D) : ℝ :=
  d.stage_data.foldl (fun s sd => s + value (m sd.cost_data)) 0 + value (m d.term_cost_data)

/-- The accesses `sds[i]`, `data.constraint_data[j]`, `term_cstr_data[k]` are in range. -/
def InRange (P : Problem X U D) (d : Data A) : Prop :=
  P.stages.length ≤ d.stage_data.length ∧
  (∀ i (h : i < P.stages.length) (h' : i < d.stage_data.length),
    (P.stages[i]).constraints.length ≤ (d.stage_data[i]).constraint_data.length) ∧
  P.term_cstrs.length ≤ d.term_cstr_data.length

/-- Iteration `i` of the loop in `evaluate` (core/traj-opt-problem.hxx:69-71). -/
def evaluateStage (P : Problem X U D) (xs : List X) (us : List U) (d : Data A) (i : ℕ) : List (Op A D) :=
  match P.stages[i]?, xs[i]?, us[i]?, d.stage_data[i]? with
  | some s, some x, some u, some sd => s.evaluate x u sd
  | _, _, _, _ => []

/-- Iteration `i` of the loop in `computeDerivatives` (core/traj-opt-problem.hxx:105-110). -/
def derivativesStage (P : Problem X U D) (second : Bool) (xs : List X) (us : List U) (d : Data A) (i : ℕ) :
    List (Op A D) :=
  match P.stages[i]?, xs[i]?, us[i]?, d.stage_data[i]? with
  | some s, some x, some u, some sd =>
    s.computeFirstOrderDerivatives x u sd ++
      if second then s.computeSecondOrderDerivatives x u sd else []
  | _, _, _, _ => []

/-- The part of `evaluate` after the loop (core/traj-opt-problem.hxx:74-80). -/
def evaluateTerm (P : Problem X U D) (x : X) (d : Data A) : List (Op A D) :=
  P.term_cost.evaluate.at x P.unone d.term_cost_data ++
  constraintLoop Func.evaluate x P.unone P.term_cstrs d.term_cstr_data

/-- The part of `computeDerivatives` after the loop (core/traj-opt-problem.hxx:113-122). -/
def derivativesTerm (P : Problem X U D) (second : Bool) (x : X) (d : Data A) : List (Op A D) :=
  P.term_cost.computeGradients.at x P.unone d.term_cost_data ++
  (if second then P.term_cost.computeHessians.at x P.unone d.term_cost_data else []) ++
  constraintLoop Func.computeJacobians x P.unone P.term_cstrs d.term_cstr_data

/-- `TrajOptProblemTpl::evaluate` (core/traj-opt-problem.hxx:50-83) executed with any number of threads:
`evaluate ... m o` says that `o` is a possible outcome from the memory `m`.  `init_constraint_` receives
only `xs[0]`; the model passes the dummy control as well. -/
inductive Evaluate (value : D → ℝ) (P : Problem X U D) (xs : List X) (us : List U) (d : Data A)
    (m : A → D) : Outcome (A → D) ℝ → Prop
  | error : (xs.length ≠ P.stages.length + 1 ∨ us.length ≠ P.stages.length) →
      Evaluate value P xs us d m .error
  | ub : xs.length = P.stages.length + 1 → us.length = P.stages.length → ¬ InRange P d →
      Evaluate value P xs us d m .ub
  | ok (x0 xN : X) (m' : A → D) : xs.length = P.stages.length + 1 → us.length = P.stages.length →
      InRange P d → xs[0]? = some x0 → xs[P.stages.length]? = some xN →
      ParallelFor (evaluateStage P xs us d) P.stages.length
        (run (P.init_constraint.evaluate.at x0 P.unone d.init_data) m) m' →
      Evaluate value P xs us d m
        (.ok (run (evaluateTerm P xN d) m')
          (computeTrajectoryCost value d (run (evaluateTerm P xN d) m')))

/-- `TrajOptProblemTpl::computeDerivatives` (core/traj-opt-problem.hxx:85-123). -/
inductive ComputeDerivatives (P : Problem X U D) (second : Bool) (xs : List X) (us : List U) (d : Data A)
    (m : A → D) : Outcome (A → D) Unit → Prop
  | error : (xs.length ≠ P.stages.length + 1 ∨ us.length ≠ P.stages.length) →
      ComputeDerivatives P second xs us d m .error
  | ub : xs.length = P.stages.length + 1 → us.length = P.stages.length → ¬ InRange P d →
      ComputeDerivatives P second xs us d m .ub
  | ok (x0 xN : X) (m' : A → D) : xs.length = P.stages.length + 1 → us.length = P.stages.length →
      InRange P d → xs[0]? = some x0 → xs[P.stages.length]? = some xN →
      ParallelFor (derivativesStage P second xs us d) P.stages.length
        (run (P.init_constraint.computeJacobians.at x0 P.unone d.init_data) m) m' →
      ComputeDerivatives P second xs us d m (.ok (run (derivativesTerm P second xN d) m') ())

/-- `StageModelTpl::createData` / the constructor of `StageDataTpl` (core/stage-data.hxx:10-21) with an
allocator that returns the next unused address: every `createData()` makes a new object. -/
def StageModel.createData (s : StageModel X U D) (next : ℕ) : StageData ℕ × ℕ :=
  ({ constraint_data := (List.range' (next + 2) s.constraints.length)
     cost_data := next
     dynamics_data := next + 1 }, next + 2 + s.constraints.length)

/-- The stage loop of the constructor of `TrajOptDataTpl` (core/traj-opt-data.hxx:17-20). -/
def createStageData : List (StageModel X U D) → ℕ → List (StageData ℕ) × ℕ
  | [], next => ([], next)
  | s :: ss, next =>
    let sd := s.createData next
    let r := createStageData ss sd.2
    (sd.1 :: r.1, r.2)

/-- The constructor of `TrajOptDataTpl` (core/traj-opt-data.hxx:13-29). -/
def Problem.createData (P : Problem X U D) (next : ℕ) : Data ℕ × ℕ :=
  let st := createStageData P.stages (next + 1)
  ({ init_data := next
     stage_data := st.1
     term_cost_data := st.2
     term_cstr_data := List.range' (st.2 + 1) P.term_cstrs.length },
   st.2 + 1 + P.term_cstrs.length)

end Aligator.Prob
