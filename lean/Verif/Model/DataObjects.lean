import Verif.Model.TrajOptProblem

/-!
# Model: the data objects of problems and who owns them

`TrajOptDataTpl` is a cost and shared pointers to the data objects of the functions of a problem; solvers hold one, clients
make others, copy them, and hand the data of a new stage to a solver when they shift a problem.  Memory is a map from addresses
to contents; an address stands for a shared pointer.  Simplifications: the pointers inside a `StageDataTpl` are not changed
after its construction, so the object is identified with them; objects are never freed (shared ownership keeps them alive).
-/

namespace Aligator.DataObj

open Prob

variable {X U D : Type}

/-- `createData()` of the functions of a problem (core/function-abstract.hpp, core/cost-abstract.hpp, core/explicit-dynamics.hpp):
what a new data object contains. -/
structure New (X U D : Type) where
  func : Func X U D → D
  cost : Cost X U D → D
  dyn : Dyn X U D → D

/-- Contents of the objects that the constructor of `StageDataTpl` makes (core/stage-data.hxx:10-21), by address. -/
def stageNew (new : New X U D) (s : StageModel X U D) : List D :=
  new.cost s.cost :: new.dyn s.dynamics :: s.constraints.map new.func

/-- The same for the constructor of `TrajOptDataTpl` (core/traj-opt-data.hxx:13-29). -/
def problemNew (new : New X U D) (P : Problem X U D) : List D :=
  new.func P.init_constraint :: (P.stages.flatMap (stageNew new) ++ new.cost P.term_cost :: P.term_cstrs.map new.func)

/-- New objects at the addresses from `a0` on. -/
def store (a0 : ℕ) (l : List D) (m : ℕ → D) : ℕ → D := fun a => if a0 ≤ a then (l[a - a0]?).getD (m a) else m a

/-- `TrajOptDataTpl` (core/traj-opt-data.hpp:19-29): `cost_` and the pointers. -/
structure Obj where
  d : Prob.Data ℕ
  cost : ℝ

/-- Memory, the first unused address, the variables of the client and of the solvers: problem data, stage data. -/
structure World (D : Type) where
  mem : ℕ → D
  next : ℕ
  data : ℕ → Option Obj
  stage : ℕ → Option (StageData ℕ)

/-- Statements. -/
inductive Op (X U D : Type)
  /-- `TrajOptDataTpl(problem)`; also what the constructor of a workspace does (solvers/workspace-base.hpp:61-68). -/
  | create (n : ℕ) (P : Problem X U D)
  /-- `stage.createData()` (core/stage-model.hxx:72-75). -/
  | createStage (k : ℕ) (s : StageModel X U D)
  /-- Copy of problem data: implicit copy constructor of core/traj-opt-data.hpp:10-33. -/
  | copy (n m : ℕ)
  | drop (n : ℕ)
  /-- `WorkspaceTpl::cycleAppend` (solvers/proxddp/workspace.hxx:99-100). -/
  | shift (n k : ℕ)
  /-- `WorkspaceBaseTpl::cycleAppend` (solvers/workspace-base.hpp:52-56). -/
  | append (n k : ℕ)
  /-- `WorkspaceBaseTpl::cycleLeft` (solvers/workspace-base.hpp:70-71). -/
  | rotate (n : ℕ)
  | evaluate (n : ℕ) (P : Problem X U D) (xs : List X) (us : List U)
  | derivatives (n : ℕ) (P : Problem X U D) (second : Bool) (xs : List X) (us : List U)
  /-- `computeTrajectoryCost` (core/traj-opt-data.hxx:31-47). -/
  | total (n : ℕ)
  /-- Reading `cost_`. -/
  | readCost (n : ℕ)
  /-- Reading everything the pointers lead to. -/
  | look (n : ℕ)

/-- What a statement shows. -/
inductive Out (D : Type)
  | unit | thrown
  | cost (c : ℝ)
  | contents (v : Prob.Data D)

/-- Result of a statement. -/
inductive Res (D : Type)
  | ok (w : World D) (o : Out D)
  | ub

/-- The contents behind the pointers of a stage. -/
def show1 (m : ℕ → D) (d : StageData ℕ) : StageData D := ⟨d.constraint_data.map m, m d.cost_data, m d.dynamics_data⟩

/-- The contents behind the pointers of a problem. -/
def showAll (m : ℕ → D) (d : Prob.Data ℕ) : Prob.Data D :=
  ⟨m d.init_data, d.stage_data.map (show1 m), m d.term_cost_data, d.term_cstr_data.map m⟩

/-- `rotate_vec_left(v)` (utils/mpc-util.hpp:17-22): undefined on an empty vector. -/
def rotateLeft {α : Type} : List α → Option (List α)
  | [] => none
  | a :: l => some (l ++ [a])

/-- `rotate_vec_left(stage_data); stage_data[nsteps - 1] = data;` (solvers/proxddp/workspace.hxx:99-100), `nsteps` being the
number of stages. -/
def shiftList {α : Type} (l : List α) (a : α) : Option (List α) := do
  let l ← rotateLeft l
  some (l.set (l.length - 1) a)

/-- `emplace_back(data); cycleLeft(); pop_back();` (solvers/workspace-base.hpp:53-55). -/
def appendList {α : Type} (l : List α) (a : α) : Option (List α) := do
  let l ← rotateLeft (l ++ [a])
  some l.dropLast

/-- One statement; evaluations run on any number of threads with any schedule, so there may be several results. -/
def Step (new : New X U D) (value : D → ℝ) (w : World D) : Op X U D → Res D → Prop
  | .create n P, r =>
    r = .ok { w with mem := store w.next (problemNew new P) w.mem, next := (P.createData w.next).2,
                     data := Function.update w.data n (some ⟨(P.createData w.next).1, 0⟩) } .unit
  | .createStage k s, r =>
    r = .ok { w with mem := store w.next (stageNew new s) w.mem, next := (s.createData w.next).2,
                     stage := Function.update w.stage k (some (s.createData w.next).1) } .unit
  | .copy n m, r => match w.data m with
    | some o => r = .ok { w with data := Function.update w.data n (some o) } .unit
    | none => r = .ub
  | .drop n, r => r = .ok { w with data := Function.update w.data n none } .unit
  | .shift n k, r => match w.data n, w.stage k with
    | some o, some sd => match shiftList o.d.stage_data sd with
      | some l => r = .ok { w with data := Function.update w.data n (some ⟨{ o.d with stage_data := l }, o.cost⟩) } .unit
      | none => r = .ub
    | _, _ => r = .ub
  | .append n k, r => match w.data n, w.stage k with
    | some o, some sd => match appendList o.d.stage_data sd with
      | some l => r = .ok { w with data := Function.update w.data n (some ⟨{ o.d with stage_data := l }, o.cost⟩) } .unit
      | none => r = .ub
    | _, _ => r = .ub
  | .rotate n, r => match w.data n with
    | some o => match rotateLeft o.d.stage_data with
      | some l => r = .ok { w with data := Function.update w.data n (some ⟨{ o.d with stage_data := l }, o.cost⟩) } .unit
      | none => r = .ub
    | none => r = .ub
  -- `prob_data.cost_ = computeTrajectoryCost(prob_data); return prob_data.cost_;` (core/traj-opt-problem.hxx:81-82)
  | .evaluate n P xs us, r => match w.data n with
    | some o => ∃ c, Evaluate value P xs us o.d w.mem c ∧ r = match c with
      | .error => .ok w .thrown
      | .ub => .ub
      | .ok m c => .ok { w with mem := m, data := Function.update w.data n (some ⟨o.d, c⟩) } (.cost c)
    | none => r = .ub
  | .derivatives n P second xs us, r => match w.data n with
    | some o => ∃ c, ComputeDerivatives P second xs us o.d w.mem c ∧ r = match c with
      | .error => .ok w .thrown
      | .ub => .ub
      | .ok m _ => .ok { w with mem := m } .unit
    | none => r = .ub
  | .total n, r => match w.data n with
    | some o => r = .ok w (.cost (computeTrajectoryCost value o.d w.mem))
    | none => r = .ub
  | .readCost n, r => match w.data n with
    | some o => r = .ok w (.cost o.cost)
    | none => r = .ub
  | .look n, r => match w.data n with
    | some o => r = .ok w (.contents (showAll w.mem o.d))
    | none => r = .ub

/-- Programs: a possible final world (`none`: undefined behaviour) and what was shown. -/
inductive Runs (new : New X U D) (value : D → ℝ) : World D → List (Op X U D) → Option (World D) → List (Out D) → Prop
  | nil (w : World D) : Runs new value w [] (some w) []
  | ub (w : World D) (o : Op X U D) (os : List (Op X U D)) : Step new value w o .ub → Runs new value w (o :: os) none []
  | cons (w w' : World D) (o : Op X U D) (os : List (Op X U D)) (x : Out D) (r : Option (World D)) (xs : List (Out D)) :
      Step new value w o (.ok w' x) → Runs new value w' os r xs → Runs new value w (o :: os) r (x :: xs)

/-- No variables. -/
def empty (m : ℕ → D) : World D := ⟨m, 0, fun _ => none, fun _ => none⟩

end Aligator.DataObj
