import Verif.Model.ProblemData

/-!
# Model: wrappers around Crocoddyl's models

Crocoddyl's states, costs and action models are arbitrary: an action model owns data of any type, which its methods change
and from which results are read.  Real arithmetic, sizes right.
-/

namespace Aligator.Croc

open PData (FunData FunCB)

variable {a n m : ℕ} {σ : Type}

/-- Vectors of Eigen. -/
abbrev Vec (n : ℕ) := Fin n → ℝ

/-- Matrices of Eigen. -/
abbrev Mat (r c : ℕ) := Matrix (Fin r) (Fin c) ℝ

/-- A `crocoddyl::ActionModelAbstractTpl`, as called by the wrappers (compat/crocoddyl/action-model-wrap.hxx:28, :41,
compat/crocoddyl/cost-wrap.hpp:43, :57): states of `a` coordinates and `n` tangent directions, controls of `m`; `calcX` and
`calcDiffX` are the overloads without control. -/
structure Action (a n m : ℕ) (σ : Type) where
  createData : σ
  calcU : σ → Vec a → Vec m → σ
  calcDiffU : σ → Vec a → Vec m → σ
  calcX : σ → Vec a → σ
  calcDiffX : σ → Vec a → σ
  cost : σ → ℝ
  xnext : σ → Vec a
  Lx : σ → Vec n
  Lu : σ → Vec m
  Lxx : σ → Mat n n
  Lxu : σ → Mat n m
  Luu : σ → Mat m m
  Fx : σ → Mat n n
  Fu : σ → Mat n m

/-! ### States -/

/-- `crocoddyl::Jcomponent`. -/
inductive Jcomponent
  | first
  | second
  | both

/-- `convert_to_firstsecond` (compat/crocoddyl/state-wrap.hpp:31-39). -/
def convertToFirstSecond (arg : ℤ) : Jcomponent := if arg = 0 then .first else if arg = 1 then .second else .both

/-- A `crocoddyl::StateAbstractTpl`: the two Jacobians of each operation, of which a call writes the first, the second or
both into its two arguments. -/
structure State (a n : ℕ) where
  zero : Vec a
  integrate : Vec a → Vec n → Vec a
  diff : Vec a → Vec a → Vec n
  Jint1 : Vec a → Vec n → Mat n n
  Jint2 : Vec a → Vec n → Mat n n
  Jdiff1 : Vec a → Vec a → Mat n n
  Jdiff2 : Vec a → Vec a → Mat n n

/-- A call of a Jacobian with one buffer for both arguments: the second is written last. -/
def writeBoth (J1 J2 _old : Mat n n) : Jcomponent → Mat n n
  | .first => J1
  | .second => J2
  | .both => J2

/-- `Jintegrate_impl` (compat/crocoddyl/state-wrap.hpp:51-54). -/
def State.Jintegrate (S : State a n) (x : Vec a) (v : Vec n) (Jout : Mat n n) (arg : ℤ) : Mat n n :=
  writeBoth (S.Jint1 x v) (S.Jint2 x v) Jout (convertToFirstSecond arg)

/-- `Jdifference_impl` (compat/crocoddyl/state-wrap.hpp:61-64). -/
def State.Jdifference (S : State a n) (x0 x1 : Vec a) (Jout : Mat n n) (arg : ℤ) : Mat n n :=
  writeBoth (S.Jdiff1 x0 x1) (S.Jdiff2 x0 x1) Jout (convertToFirstSecond arg)

/-! ### Stages -/

/-- `CostDataAbstractTpl` (core/cost-abstract.hpp:94-108), with both mixed blocks of `hess_`. -/
structure CostData (n m : ℕ) where
  value : ℝ
  Lx : Vec n
  Lu : Vec m
  Lxx : Mat n n
  Lxu : Mat n m
  Lux : Mat m n
  Luu : Mat m m

/-- `ExplicitDynamicsDataTpl` (core/explicit-dynamics.hpp:68-84, :101-104). -/
structure DynData (a n m : ℕ) where
  xnext : Vec a
  Jx : Mat n n
  Ju : Mat n m

/-- A stage function with its own creation of data (core/function-abstract.hpp:42-65); `nu` is the size of control it wants. -/
structure Fun (n : ℕ) where
  nu : ℕ
  nr : ℕ
  cb : FunCB n nu nr

/-- `ActionModelWrapperTpl` (compat/crocoddyl/action-model-wrap.hpp:59): the action model, and the constraints of the base
class. -/
structure Stage (a n m : ℕ) (σ : Type) where
  action : Action a n m σ
  constraints : List (Fun n)

/-- The constructor (compat/crocoddyl/action-model-wrap.hxx:14-20). -/
def newStage (A : Action a n m σ) : Stage a n m σ := ⟨A, []⟩

/-- `addConstraint` of the base class (core/stage-model.hxx:31-39); `none` is an exception. -/
def Stage.addConstraint (s : Stage a n m σ) (f : Fun n) : Option (Stage a n m σ) :=
  if f.nu ≠ m then none else some { s with constraints := s.constraints ++ [f] }

/-- `ActionDataWrapperTpl` (compat/crocoddyl/action-model-wrap.hpp:84-100, core/stage-data.hpp:20-24). -/
structure StageData (s : Stage a n m σ) where
  croc : σ
  cost : CostData n m
  dyn : DynData a n m
  cstr : ∀ i : Fin s.constraints.length, FunData n s.constraints[i].nu s.constraints[i].nr

/-- The constructor (compat/crocoddyl/action-model-wrap.hxx:64-74, core/stage-data.hxx:11-21). -/
def Stage.createData (s : Stage a n m σ) : StageData s where
  croc := s.action.createData
  cost := ⟨0, 0, 0, 0, 0, 0, 0⟩
  dyn := ⟨0, 0, 0⟩
  cstr _ := .create

/-- `evaluate` (compat/crocoddyl/action-model-wrap.hxx:23-34). -/
def Stage.evaluate (s : Stage a n m σ) (x : Vec a) (u : Vec m) (d : StageData s) : StageData s :=
  let d := { d with croc := s.action.calcU d.croc x u }
  let d := { d with cost := { d.cost with value := s.action.cost d.croc } }
  { d with dyn := { d.dyn with xnext := s.action.xnext d.croc } }

/-- `computeFirstOrderDerivatives` (compat/crocoddyl/action-model-wrap.hxx:37-54). -/
def Stage.firstOrder (s : Stage a n m σ) (x : Vec a) (u : Vec m) (d : StageData s) : StageData s :=
  let d := { d with croc := s.action.calcDiffU d.croc x u }
  let d := { d with cost := { d.cost with Lx := s.action.Lx d.croc } }
  let d := { d with cost := { d.cost with Lu := s.action.Lu d.croc } }
  let d := { d with cost := { d.cost with Lxx := s.action.Lxx d.croc } }
  let d := { d with cost := { d.cost with Lxu := s.action.Lxu d.croc } }
  let d := { d with cost := { d.cost with Luu := s.action.Luu d.croc } }
  let d := { d with dyn := { d.dyn with Jx := s.action.Fx d.croc } }
  { d with dyn := { d.dyn with Ju := s.action.Fu d.croc } }

/-- `computeSecondOrderDerivatives` (compat/crocoddyl/action-model-wrap.hpp:73-75). -/
def Stage.secondOrder (s : Stage a n m σ) (_ : Vec a) (_ : Vec m) (d : StageData s) : StageData s := d

/-- The three calls on the data of a stage (core/stage-model.hpp:112-123). -/
inductive Call (a m : ℕ)
  | evaluate (x : Vec a) (u : Vec m)
  | first (x : Vec a) (u : Vec m)
  | second (x : Vec a) (u : Vec m)

/-- One call. -/
def Stage.call (s : Stage a n m σ) (d : StageData s) : Call a m → StageData s
  | .evaluate x u => s.evaluate x u d
  | .first x u => s.firstOrder x u d
  | .second x u => s.secondOrder x u d

/-- The dynamics model of a stage: `forward` and `dForward` of `NoOpDynamics` (compat/crocoddyl/action-model-wrap.hpp:26-30) on
their own data (core/explicit-dynamics.hpp:106-110). -/
def noOpForward (_ : Vec a) (_ : Vec m) (d : DynData a n m) : DynData a n m := d

/-- The data of `NoOpDynamics` (core/explicit-dynamics.hpp:106-110, compat/crocoddyl/state-wrap.hpp:42). -/
def noOpData (S : State a n) : DynData a n m := ⟨S.zero, 0, 0⟩

/-- `rollout` of one dynamics model (utils/rollout.hpp:86-99). -/
def rolloutFrom (S : State a n) (x0 : Vec a) (us : List (Vec m)) : List (Vec a) :=
  x0 :: (us.foldl (fun (p : DynData a n m × Vec a × List (Vec a)) u =>
    let d := noOpForward p.2.1 u p.1
    (d, d.xnext, p.2.2 ++ [d.xnext])) (noOpData S, x0, [])).2.2

/-! ### Terminal costs -/

/-- `CrocCostModelWrapperTpl` (compat/crocoddyl/cost-wrap.hpp:22-33): of a cost model or of an action model. -/
inductive CostWrap (a n m : ℕ) (σ : Type)
  | cost
  | action (A : Action a n m σ)

/-- `CrocCostDataWrapperTpl` (compat/crocoddyl/cost-wrap.hpp:93-107). -/
structure TermData (n m : ℕ) (σ : Type) where
  croc : σ
  cost : CostData n m

/-- `createData` (compat/crocoddyl/cost-wrap.hpp:80-89); `none` is an exception. -/
def CostWrap.createData : CostWrap a n m σ → Option (TermData n m σ)
  | .action A => some ⟨A.createData, ⟨0, 0, 0, 0, 0, 0, 0⟩⟩
  | .cost => none

/-- `evaluate` with an action model (compat/crocoddyl/cost-wrap.hpp:35-46). -/
def termEvaluate (A : Action a n m σ) (x : Vec a) (d : TermData n m σ) : TermData n m σ :=
  let d := { d with croc := A.calcX d.croc x }
  { d with cost := { d.cost with value := A.cost d.croc } }

/-- `computeGradients` with an action model (compat/crocoddyl/cost-wrap.hpp:48-61). -/
def termGradients (A : Action a n m σ) (x : Vec a) (d : TermData n m σ) : TermData n m σ :=
  let d := { d with croc := A.calcDiffX d.croc x }
  let d := { d with cost := { d.cost with Lx := A.Lx d.croc } }
  { d with cost := { d.cost with Lu := A.Lu d.croc } }

/-- `computeHessians` with an action model (compat/crocoddyl/cost-wrap.hpp:63-78). -/
def termHessians (A : Action a n m σ) (x : Vec a) (d : TermData n m σ) : TermData n m σ :=
  let d := { d with croc := A.calcDiffX d.croc x }
  let d := { d with cost := { d.cost with Lxx := A.Lxx d.croc } }
  let d := { d with cost := { d.cost with Lxu := A.Lxu d.croc } }
  { d with cost := { d.cost with Luu := A.Luu d.croc } }

/-! ### Problems -/

/-- A `crocoddyl::ShootingProblemTpl`: running models of one state and a terminal model. -/
structure Shooting (a n : ℕ) where
  x0 : Vec a
  T : ℕ
  nu : ℕ → ℕ
  σ : ℕ → Type
  running : ∀ i, Action a n (nu i) (σ i)
  terminal : Action a n (nu T) (σ T)

/-- The problem made of it (core/traj-opt-problem.hxx:29-35). -/
structure Problem (a n : ℕ) where
  x0 : Vec a
  N : ℕ
  nu : ℕ → ℕ
  σ : ℕ → Type
  stage : ∀ i, Stage a n (nu i) (σ i)
  term : CostWrap a n (nu N) (σ N)

/-- `convertCrocoddylProblem` (compat/crocoddyl/problem-wrap.hxx:13-35); without running models the constructor of the problem
reads a stage that does not exist (core/traj-opt-problem.hxx:34). -/
def convert (P : Shooting a n) : Option (Problem a n) :=
  if P.T = 0 then none else some ⟨P.x0, P.T, P.nu, P.σ, fun i => newStage (P.running i), .action P.terminal⟩

/-- The data of a problem (core/traj-opt-data.hxx:14-29); stages from `N` on do not exist. -/
structure Data (P : Problem a n) where
  stage : ∀ i, StageData (P.stage i)
  term : TermData n (P.nu P.N) (P.σ P.N)

/-- The constructor (core/traj-opt-data.hxx:14-29). -/
def Data.create (P : Problem a n) : Option (Data P) := do
  let t ← P.term.createData
  pure ⟨fun i => (P.stage i).createData, t⟩

/-- `TrajOptProblemTpl::evaluate` (core/traj-opt-problem.hxx:51-83) without the initial condition: data and cost.  With a cost
model as terminal cost there is no data to call it on. -/
def evaluate (P : Problem a n) (x : ℕ → Vec a) (u : ∀ i, Vec (P.nu i)) (d : Data P) : Data P where
  stage i := (P.stage i).evaluate (x i) (u i) (d.stage i)
  term := match P.term with
    | .action A => termEvaluate A (x P.N) d.term
    | .cost => d.term

/-- `computeTrajectoryCost` (core/traj-opt-data.hxx:31-47). -/
def trajectoryCost (P : Problem a n) (d : Data P) : ℝ :=
  (List.range P.N).foldl (fun c i => c + (d.stage i).cost.value) 0 + d.term.cost.value

/-- `TrajOptProblemTpl::computeDerivatives` (core/traj-opt-problem.hxx:86-123) without the initial condition. -/
def computeDerivatives (P : Problem a n) (x : ℕ → Vec a) (u : ∀ i, Vec (P.nu i)) (second : Bool) (d : Data P) : Data P where
  stage i :=
    let e := (P.stage i).firstOrder (x i) (u i) (d.stage i)
    if second then (P.stage i).secondOrder (x i) (u i) e else e
  term := match P.term with
    | .action A =>
      let e := termGradients A (x P.N) d.term
      if second then termHessians A (x P.N) e else e
    | .cost => d.term

/-- The calls of a client on the data of a problem. -/
inductive PCall {a n : ℕ} (P : Problem a n)
  | evaluate (x : ℕ → Vec a) (u : ∀ i, Vec (P.nu i))
  | derivatives (x : ℕ → Vec a) (u : ∀ i, Vec (P.nu i)) (second : Bool)

/-- One call. -/
def pcall (P : Problem a n) (d : Data P) : PCall P → Data P
  | .evaluate x u => evaluate P x u d
  | .derivatives x u second => computeDerivatives P x u second d

end Aligator.Croc
