import Verif.Model.LQSubproblem

/-!
# Model: the data of a problem and the calls that fill it

A problem is a family of callbacks; each receives the point and its data, which it may change in any way.  The data of one
stage or function is written by its own callbacks only.  Exact real arithmetic.
-/

namespace Aligator.PData

open Matrix Lag LQ

/-- `ExplicitDynamicsDataTpl` (core/explicit-dynamics.hpp:64-99). -/
structure DynData (n m k : ℕ) where
  xnext : Fin k → ℝ
  Jx : Matrix (Fin k) (Fin n) ℝ
  Ju : Matrix (Fin k) (Fin m) ℝ
  Hxx : Matrix (Fin n) (Fin n) ℝ
  Hxu : Matrix (Fin n) (Fin m) ℝ
  Huu : Matrix (Fin m) (Fin m) ℝ

/-- `StageFunctionDataTpl` (core/function-abstract.hpp:73-110). -/
structure FunData (n m r : ℕ) where
  value : Fin r → ℝ
  Jx : Matrix (Fin r) (Fin n) ℝ
  Ju : Matrix (Fin r) (Fin m) ℝ
  Hxx : Matrix (Fin n) (Fin n) ℝ
  Hxu : Matrix (Fin n) (Fin m) ℝ
  Huu : Matrix (Fin m) (Fin m) ℝ

/-- `CostDataAbstractTpl` (core/cost-abstract.hpp:94-108). -/
structure CostData (n m : ℕ) where
  value : ℝ
  Lx : Fin n → ℝ
  Lu : Fin m → ℝ
  Lxx : Matrix (Fin n) (Fin n) ℝ
  Lxu : Matrix (Fin n) (Fin m) ℝ
  Luu : Matrix (Fin m) (Fin m) ℝ

/-- The constructor (core/explicit-dynamics.hpp:68-84, :105-110); `neutral` is the neutral element of the state space. -/
def DynData.create {n m k : ℕ} (neutral : Fin k → ℝ) : DynData n m k := ⟨neutral, 0, 0, 0, 0, 0⟩

/-- The constructor (core/function-abstract.hxx:28-48). -/
def FunData.create {n m r : ℕ} : FunData n m r := ⟨0, 0, 0, 0, 0, 0⟩

/-- The constructor (core/cost-abstract.hpp:94-108). -/
def CostData.create {n m : ℕ} : CostData n m := ⟨0, 0, 0, 0, 0, 0⟩

/-- The callbacks of an explicit dynamics model (core/explicit-dynamics.hpp:46-51): there is none for second-order terms. -/
structure DynCB (n m k : ℕ) where
  neutral : Fin k → ℝ
  forward : (Fin n → ℝ) → (Fin m → ℝ) → DynData n m k → DynData n m k
  dForward : (Fin n → ℝ) → (Fin m → ℝ) → DynData n m k → DynData n m k

/-- The callbacks of a stage function (core/function-abstract.hpp:42-65); `vhp` is `computeVectorHessianProducts`. -/
structure FunCB (n m r : ℕ) where
  evaluate : (Fin n → ℝ) → (Fin m → ℝ) → FunData n m r → FunData n m r
  computeJacobians : (Fin n → ℝ) → (Fin m → ℝ) → FunData n m r → FunData n m r
  vhp : (Fin n → ℝ) → (Fin m → ℝ) → (Fin r → ℝ) → FunData n m r → FunData n m r

/-- The callbacks of a cost (core/cost-abstract.hpp:32-42). -/
structure CostCB (n m : ℕ) where
  evaluate : (Fin n → ℝ) → (Fin m → ℝ) → CostData n m → CostData n m
  computeGradients : (Fin n → ℝ) → (Fin m → ℝ) → CostData n m → CostData n m
  computeHessians : (Fin n → ℝ) → (Fin m → ℝ) → CostData n m → CostData n m

variable {nx nu : ℕ → ℕ} {N : ℕ}

/-- A problem (core/traj-opt-problem.hpp:95-120, core/stage-model.hpp:40-56): stage `i` has `ncs i` constraint functions, the
`j`-th of dimension `dim i j`; the terminal constraints are those of stage `N`, without control. -/
structure Model (nx nu : ℕ → ℕ) (N : ℕ) where
  nc0 : ℕ
  init : FunCB (nx 0) 0 nc0
  dyn : ∀ i, DynCB (nx i) (nu i) (nx (i + 1))
  cost : ∀ i, CostCB (nx i) (nu i)
  ncs : ℕ → ℕ
  dim : ℕ → ℕ → ℕ
  cstr : ∀ i j, FunCB (nx i) (nu i) (dim i j)
  termCost : CostCB (nx N) 0
  ncsN : ℕ
  dimN : ℕ → ℕ
  termCstr : ∀ j, FunCB (nx N) 0 (dimN j)

/-- `TrajOptDataTpl` (core/traj-opt-data.hxx:14-29, core/stage-data.hxx:10-21). -/
structure Data (M : Model nx nu N) where
  init : FunData (nx 0) 0 M.nc0
  dyn : ∀ i, DynData (nx i) (nu i) (nx (i + 1))
  cost : ∀ i, CostData (nx i) (nu i)
  cstr : ∀ i j, FunData (nx i) (nu i) (M.dim i j)
  termCost : CostData (nx N) 0
  termCstr : ∀ j, FunData (nx N) 0 (M.dimN j)

/-- The constructor (core/traj-opt-data.hxx:14-29). -/
def Data.create (M : Model nx nu N) : Data M where
  init := .create
  dyn i := .create (M.dyn i).neutral
  cost _ := .create
  cstr _ _ := .create
  termCost := .create
  termCstr _ := .create

/-- `TrajOptProblemTpl::evaluate` (core/traj-opt-problem.hxx:64-82) with `StageModelTpl::evaluate` (core/stage-model.hxx:42-52);
the sizes of the lists are right.  The data of stages and constraints out of range do not exist. -/
def evaluate (M : Model nx nu N) (x : ∀ i, Fin (nx i) → ℝ) (u : ∀ i, Fin (nu i) → ℝ) (d : Data M) : Data M where
  init := M.init.evaluate (x 0) 0 d.init
  dyn i := (M.dyn i).forward (x i) (u i) (d.dyn i)
  cost i := (M.cost i).evaluate (x i) (u i) (d.cost i)
  cstr i j := (M.cstr i j).evaluate (x i) (u i) (d.cstr i j)
  termCost := M.termCost.evaluate (x N) 0 d.termCost
  termCstr j := (M.termCstr j).evaluate (x N) 0 (d.termCstr j)

/-- `TrajOptProblemTpl::computeDerivatives` (core/traj-opt-problem.hxx:99-122) with `computeFirstOrderDerivatives` and
`computeSecondOrderDerivatives` of the stages (core/stage-model.hxx:54-70). -/
def computeDerivatives (M : Model nx nu N) (x : ∀ i, Fin (nx i) → ℝ) (u : ∀ i, Fin (nu i) → ℝ) (second : Bool) (d : Data M) :
    Data M where
  init := M.init.computeJacobians (x 0) 0 d.init
  dyn i := (M.dyn i).dForward (x i) (u i) (d.dyn i)
  cost i :=
    let c := (M.cost i).computeGradients (x i) (u i) (d.cost i)
    if second then (M.cost i).computeHessians (x i) (u i) c else c
  cstr i j := (M.cstr i j).computeJacobians (x i) (u i) (d.cstr i j)
  termCost :=
    let c := M.termCost.computeGradients (x N) 0 d.termCost
    if second then M.termCost.computeHessians (x N) 0 c else c
  termCstr j := (M.termCstr j).computeJacobians (x N) 0 (d.termCstr j)

/-- The evaluations during a nonlinear rollout (solvers/proxddp/solver-proxddp.hxx:374, :386-393): all of `evaluate` except the
initial condition. -/
def rolloutEvaluate (M : Model nx nu N) (x : ∀ i, Fin (nx i) → ℝ) (u : ∀ i, Fin (nu i) → ℝ) (d : Data M) : Data M :=
  { evaluate M x u d with init := d.init }

/-- The calls that ProxDDP makes on the data of a problem (solvers/proxddp/solver-proxddp.hxx:153, :374, :386-393, :571, :582). -/
inductive Call (nx nu : ℕ → ℕ) where
  | evaluate (x : ∀ i, Fin (nx i) → ℝ) (u : ∀ i, Fin (nu i) → ℝ)
  | rollout (x : ∀ i, Fin (nx i) → ℝ) (u : ∀ i, Fin (nu i) → ℝ)
  | derivatives (x : ∀ i, Fin (nx i) → ℝ) (u : ∀ i, Fin (nu i) → ℝ) (second : Bool)

/-- One call. -/
def step (M : Model nx nu N) (d : Data M) : Call nx nu → Data M
  | .evaluate x u => evaluate M x u d
  | .rollout x u => rolloutEvaluate M x u d
  | .derivatives x u second => computeDerivatives M x u second d

/-- The data after a sequence of calls. -/
def calls (M : Model nx nu N) (cs : List (Call nx nu)) : Data M := cs.foldl (step M) (Data.create M)

/-- The second-order data that `updateLQSubproblem` reads (solvers/proxddp/solver-proxddp.hxx:763-775, :790-791, :803-804). -/
def Data.hess {M : Model nx nu N} (d : Data M) : Hess nx nu N where
  Lxx i := (d.cost i).Lxx
  Lxu i := (d.cost i).Lxu
  Luu i := (d.cost i).Luu
  Hxx i := (d.dyn i).Hxx
  Hxu i := (d.dyn i).Hxu
  Huu i := (d.dyn i).Huu
  termLxx := d.termCost.Lxx
  initHxx := d.init.Hxx

/-- The first-order data that `updateLQSubproblem` and `LagrangianDerivatives::compute` read (core/lagrangian.hpp:50-91,
solvers/proxddp/solver-proxddp.hxx:759-761). -/
def Data.first {M : Model nx nu N} (d : Data M) : ProbData nx nu N where
  nc0 := M.nc0
  initJx := d.init.Jx
  Lx i := (d.cost i).Lx
  Lu i := (d.cost i).Lu
  fx i := (d.dyn i).Jx
  fu i := (d.dyn i).Ju
  cstr i := (List.range (M.ncs i)).map fun j => ⟨M.dim i j, (d.cstr i j).Jx, (d.cstr i j).Ju⟩
  termLx := d.termCost.Lx
  termCstr := (List.range M.ncsN).map fun j => ⟨M.dimN j, (d.termCstr j).Jx, (d.termCstr j).Ju⟩

end Aligator.PData
