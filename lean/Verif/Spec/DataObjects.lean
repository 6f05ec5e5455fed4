import Verif.Model.DataObjects
import Verif.Spec.TrajOptProblem

/-!
# Specification: data objects as values

Problem data is the tree of the contents itself, without pointers; evaluating with one changes that one only.  The data of a
stage that was handed over belongs to the receiver.
-/

namespace Aligator.DataObj.Spec

open Prob

variable {X U D : Type}

/-- New stage data. -/
def newStage (new : New X U D) (s : StageModel X U D) : StageData D :=
  ⟨s.constraints.map new.func, new.cost s.cost, new.dyn s.dynamics⟩

/-- New problem data. -/
def newData (new : New X U D) (P : Problem X U D) : Prob.Data D :=
  ⟨new.func P.init_constraint, P.stages.map (newStage new), new.cost P.term_cost, P.term_cstrs.map new.func⟩

/-- The data has the shape of the problem. -/
def Fits (P : Problem X U D) (v : Prob.Data D) : Prop :=
  v.stage_data.map (·.constraint_data.length) = P.stages.map (·.constraints.length) ∧
  v.term_cstr_data.length = P.term_cstrs.length

instance (P : Problem X U D) (v : Prob.Data D) : Decidable (Fits P v) := by unfold Fits; infer_instance

/-- All stages, the initial and the terminal functions update their own content at their own point. -/
def evaluate (P : Problem X U D) (x0 xN : X) (xs : List X) (us : List U) (v : Prob.Data D) : Prob.Data D where
  init_data := after (P.init_constraint.evaluate x0 P.unone) v.init_data
  stage_data := List.zipWith (fun (s, x, u) d =>
    ⟨List.zipWith (fun f o => after (f.evaluate x u) o) s.constraints d.constraint_data,
      after (s.cost.evaluate x u) d.cost_data, after (s.dynamics.forward x u) d.dynamics_data⟩)
    (P.stages.zip (xs.zip us)) v.stage_data
  term_cost_data := after (P.term_cost.evaluate xN P.unone) v.term_cost_data
  term_cstr_data := List.zipWith (fun f o => after (f.evaluate xN P.unone) o) P.term_cstrs v.term_cstr_data

/-- The same for the derivatives. -/
def derivatives (P : Problem X U D) (second : Bool) (x0 xN : X) (xs : List X) (us : List U) (v : Prob.Data D) : Prob.Data D :=
  let hess (c : Cost X U D) (x : X) (u : U) : D → D := if second then after (c.computeHessians x u) else id
  { init_data := after (P.init_constraint.computeJacobians x0 P.unone) v.init_data
    stage_data := List.zipWith (fun (s, x, u) d =>
      ⟨List.zipWith (fun f o => after (f.computeJacobians x u) o) s.constraints d.constraint_data,
        hess s.cost x u (after (s.cost.computeGradients x u) d.cost_data),
        after (s.dynamics.dForward x u) d.dynamics_data⟩)
      (P.stages.zip (xs.zip us)) v.stage_data
    term_cost_data := hess P.term_cost xN P.unone (after (P.term_cost.computeGradients xN P.unone) v.term_cost_data)
    term_cstr_data := List.zipWith (fun f o => after (f.computeJacobians xN P.unone) o) P.term_cstrs v.term_cstr_data }

/-- Sum of the costs. -/
def total (value : D → ℝ) (v : Prob.Data D) : ℝ := (v.stage_data.map fun d => value d.cost_data).sum + value v.term_cost_data

/-- Values of the variables. -/
structure State (D : Type) where
  data : ℕ → Option (Prob.Data D × ℝ)
  stage : ℕ → Option (StageData D)

/-- Statements on values; `none` is a misuse: copying problem data, using the data of a stage after handing it over, shifting
data without stages, evaluating a problem of another shape. -/
noncomputable def step (new : New X U D) (value : D → ℝ) (s : State D) : Op X U D → Option (State D × Out D)
  | .create n P => some ({ s with data := Function.update s.data n (some (newData new P, 0)) }, .unit)
  | .createStage k m => some ({ s with stage := Function.update s.stage k (some (newStage new m)) }, .unit)
  | .copy _ _ => none
  | .drop n => some ({ s with data := Function.update s.data n none }, .unit)
  | .shift n k | .append n k => match s.data n, s.stage k with
    | some (v, c), some d => match v.stage_data with
      | [] => none
      | _ :: l => some (⟨Function.update s.data n (some ({ v with stage_data := l ++ [d] }, c)),
          Function.update s.stage k none⟩, .unit)
    | _, _ => none
  | .rotate n => match s.data n with
    | some (v, c) => match v.stage_data with
      | [] => none
      | a :: l => some ({ s with data := Function.update s.data n (some ({ v with stage_data := l ++ [a] }, c)) }, .unit)
    | none => none
  | .evaluate n P xs us => match s.data n with
    | some (v, _) =>
      if xs.length = P.stages.length + 1 ∧ us.length = P.stages.length then
        match xs[0]?, xs[P.stages.length]? with
        | some x0, some xN =>
          if Fits P v then
            let v' := evaluate P x0 xN xs us v
            some ({ s with data := Function.update s.data n (some (v', total value v')) }, .cost (total value v'))
          else none
        | _, _ => none
      else some (s, .thrown)
    | none => none
  | .derivatives n P second xs us => match s.data n with
    | some (v, c) =>
      if xs.length = P.stages.length + 1 ∧ us.length = P.stages.length then
        match xs[0]?, xs[P.stages.length]? with
        | some x0, some xN =>
          if Fits P v then
            some ({ s with data := Function.update s.data n (some (derivatives P second x0 xN xs us v, c)) }, .unit)
          else none
        | _, _ => none
      else some (s, .thrown)
    | none => none
  | .total n => match s.data n with
    | some (v, _) => some (s, .cost (total value v))
    | none => none
  | .readCost n => match s.data n with
    | some (_, c) => some (s, .cost c)
    | none => none
  | .look n => match s.data n with
    | some (v, _) => some (s, .contents v)
    | none => none

/-- Programs on values. -/
noncomputable def run (new : New X U D) (value : D → ℝ) : State D → List (Op X U D) → Option (State D × List (Out D))
  | s, [] => some (s, [])
  | s, o :: os => match step new value s o with
    | some (s, x) => (run new value s os).map fun r => (r.1, x :: r.2)
    | none => none

end Aligator.DataObj.Spec
