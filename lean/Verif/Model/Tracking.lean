import Mathlib.Data.Matrix.Mul
import Mathlib.Data.Real.Basic
import Mathlib.Data.Fin.Tuple.Basic
import Verif.Model.Wrappers

/-!
# Model: errors to a target, and the tracking costs built on them

Real arithmetic.  A target is a vector of whatever size the client passed: the methods that use it with another size than
the space wants are undefined (`none`).
-/

namespace Aligator.Track

open Matrix Aligator.Wrap

variable {a n m r : ℕ}

/-- What the residuals need of a manifold with points of `a` coordinates and tangent vectors of `n`
(core/manifold-base.hpp:52-84): `difference`, `Jdifference` for the second argument, `isNormalized`, and
`integrate`, by which directions are followed. -/
structure Space (a n : ℕ) where
  integrate : Vec a → Vec n → Vec a
  difference : Vec a → Vec a → Vec n
  Jdifference1 : Vec a → Vec a → Mat n n
  isNormalized : List ℝ → Bool

/-- `VectorSpaceTpl` (core/vector-space.hpp:52-84); `isNormalized` is inherited and accepts everything
(core/manifold-base.hpp:52). -/
def euclid (n : ℕ) : Space n n where
  integrate x v := x + v
  difference x y := y - x
  Jdifference1 _ _ := 1
  isNormalized _ := true

/-- A list as a vector of a wanted size. -/
def vec? (a : ℕ) (t : List ℝ) : Option (Vec a) := if h : t.length = a then some fun i => t.get (i.cast h.symm) else none

/-- The entries of a vector. -/
def toList (x : Vec a) : List ℝ := List.ofFn x

/-! ### Residuals -/

/-- The state error (modelling/state-error.hpp:21-66). -/
structure StateError (a n m : ℕ) where
  space : Space a n
  target : List ℝ

/-- The constructor of the state error (modelling/state-error.hpp:33-39, :60-65); `none` is an exception. -/
def newStateError (m : ℕ) (space : Space a n) (target : List ℝ) : Option (StateError a n m) :=
  if space.isNormalized target then some ⟨space, target⟩ else none

/-- Writing the columns of the state (`Jx_`, core/function-abstract.hxx:39). -/
def setLeft (J : Mat r (n + m)) (A : Mat r n) : Mat r (n + m) := fun i => Fin.append (A i) fun j => J i (Fin.natAdd n j)

/-- Writing the columns of the control (`Ju_`, core/function-abstract.hxx:40). -/
def setRight (J : Mat r (n + m)) (B : Mat r m) : Mat r (n + m) := fun i => Fin.append (fun j => J i (Fin.castAdd m j)) (B i)

/-- `evaluate` of the state error (modelling/state-error.hpp:51-53; core/unary-function.hpp:26-29). -/
def StateError.evaluate (f : StateError a n m) (x : Vec a) (_ : Vec m) (d : FData n m n) : Option (FData n m n) :=
  match vec? a f.target with
  | none => none
  | some t => some { d with value := f.space.difference t x }

/-- `computeJacobians` of the state error (modelling/state-error.hpp:55-57; core/unary-function.hpp:31-34). -/
def StateError.computeJacobians (f : StateError a n m) (x : Vec a) (_ : Vec m) (d : FData n m n) :
    Option (FData n m n) :=
  match vec? a f.target with
  | none => none
  | some t => some { d with jac := setLeft d.jac (f.space.Jdifference1 t x) }

/-- The control error (modelling/state-error.hpp:69-143): the function takes `nu = uspace.nx()` controls and has
`nr = uspace.ndx()` rows, the state has `n` tangent coordinates. -/
structure ControlError (n b p : ℕ) where
  space : Space b p
  target : List ℝ

variable {b p : ℕ}

/-- The constructor from a control space and a target (modelling/state-error.hpp:93-100, :137-142). -/
def newControlError (n : ℕ) (space : Space b p) (target : List ℝ) : Option (ControlError n b p) :=
  if space.isNormalized target then some ⟨space, target⟩ else none

/-- The constructor from a dimension (modelling/state-error.hpp:102-105): the target is the neutral element. -/
def newControlErrorDim (n nu : ℕ) : ControlError n nu nu := ⟨euclid nu, List.replicate nu 0⟩

/-- The constructor from a target alone (modelling/state-error.hpp:109-112). -/
def newControlErrorTarget (n : ℕ) (target : List ℝ) : ControlError n target.length target.length :=
  { newControlErrorDim n target.length with target := target }

/-- `evaluate` of the control error (modelling/state-error.hpp:114-123). -/
def ControlError.evaluate (f : ControlError n b p) (_ : Vec a) (u : Vec b) (d : FData n b p) : Option (FData n b p) :=
  match vec? b f.target with
  | none => none
  | some t => some { d with value := f.space.difference t u }

/-- `computeJacobians` of the control error (modelling/state-error.hpp:125-134): the manifold writes a matrix with `p`
columns into the `nu = b` columns of the buffer; another size is undefined. -/
def ControlError.computeJacobians (f : ControlError n b p) (_ : Vec a) (u : Vec b) (d : FData n b p) :
    Option (FData n b p) :=
  match vec? b f.target with
  | none => none
  | some t =>
    if h : p = b then some { d with jac := setRight d.jac (h ▸ f.space.Jdifference1 t u : Mat p b) } else none

/-! ### Tracking costs -/

/-- A residual that depends on a target: its methods for every target. -/
structure TargetFun (a n m r : ℕ) where
  evaluate : List ℝ → Vec a → Vec m → FData n m r → Option (FData n m r)
  computeJacobians : List ℝ → Vec a → Vec m → FData n m r → Option (FData n m r)

/-- The residual of `QuadraticStateCostTpl` (modelling/costs/quad-state-cost.hpp:21-27). -/
def stateFun (m : ℕ) (S : Space a n) : TargetFun a n m n where
  evaluate t := (⟨S, t⟩ : StateError a n m).evaluate
  computeJacobians t := (⟨S, t⟩ : StateError a n m).computeJacobians

/-- The residual of `QuadraticControlCostTpl` (modelling/costs/quad-state-cost.hpp:54-68). -/
def controlFun (a n : ℕ) (S : Space b p) : TargetFun a n b p where
  evaluate t := (⟨S, t⟩ : ControlError n b p).evaluate
  computeJacobians t := (⟨S, t⟩ : ControlError n b p).computeJacobians

/-- `QuadraticStateCostTpl` and `QuadraticControlCostTpl`: weights, the target kept in the residual, and the Hessian mode
(modelling/costs/quad-residual-cost.hpp:27-29, modelling/state-error.hpp:30-31). -/
structure Cost (r : ℕ) where
  W : Mat r r
  target : List ℝ
  gaussNewton : Bool

/-- The check of the constructor (modelling/costs/quad-residual-cost.hxx:10-20): sizes of the weights and of the residual;
whether it throws. -/
def weightsThrow (_rows cols nr : ℕ) : Bool := nr != cols

/-- The constructor of `QuadraticStateCostTpl` (modelling/costs/quad-state-cost.hpp:24-27, default of
modelling/costs/quad-residual-cost.hpp:29). -/
def newStateCost (S : Space a n) (target : List ℝ) (W : Mat n n) : Option (Cost n) :=
  match newStateError 0 S target with
  | none => none
  | some e => some ⟨W, e.target, true⟩

/-- The constructor of `QuadraticControlCostTpl` from a target (modelling/costs/quad-state-cost.hpp:64-68). -/
def newControlCost (n : ℕ) (target : List ℝ) (W : Mat target.length target.length) : Cost target.length :=
  ⟨W, (newControlErrorTarget n target).target, true⟩

/-- `CompositeCostDataTpl` (modelling/costs/composite-costs.hpp:14-33; core/cost-abstract.hpp:73-108). -/
structure Data (n m r : ℕ) where
  value : ℝ
  grad : Vec (n + m)
  hess : Mat (n + m) (n + m)
  res : FData n m r
  JtW : Mat (n + m) r
  Wv : Vec r

/-- `createData` (modelling/costs/quad-residual-cost.hpp:44-47). -/
def Data.new : Data n m r := ⟨0, 0, 0, FData.new, 0, 0⟩

/-- `evaluate` (modelling/costs/quad-residual-cost.hxx:22-32). -/
noncomputable def Cost.evaluate (f : TargetFun a n m r) (c : Cost r) (x : Vec a) (u : Vec m) (d : Data n m r) :
    Option (Data n m r) := do
  let res ← f.evaluate c.target x u d.res
  let d := { d with res := res }
  let d := { d with Wv := c.W *ᵥ d.res.value }
  pure { d with value := 1 / 2 * (d.res.value ⬝ᵥ d.Wv) }

/-- `computeGradients` (modelling/costs/quad-residual-cost.hxx:34-46). -/
def Cost.computeGradients (f : TargetFun a n m r) (c : Cost r) (x : Vec a) (u : Vec m) (d : Data n m r) :
    Option (Data n m r) := do
  let res ← f.computeJacobians c.target x u d.res
  let d := { d with res := res }
  let d := { d with Wv := c.W *ᵥ d.res.value }
  pure { d with grad := d.res.jacᵀ *ᵥ d.Wv }

/-- `computeHessians` (modelling/costs/quad-residual-cost.hxx:48-64); the vector-Hessian products of the two residuals are
the inherited ones, which do nothing (core/unary-function.hpp:22-24, core/function-abstract.hxx:16-19). -/
def Cost.computeHessians (c : Cost r) (d : Data n m r) : Data n m r :=
  let d := { d with JtW := d.res.jacᵀ * c.W }
  let d := { d with hess := d.JtW * d.res.jac }
  if !c.gaussNewton then { d with hess := d.res.vhp } else d

/-- `setTarget` (modelling/costs/quad-state-cost.hpp:36, :70): no check. -/
def Cost.setTarget (c : Cost r) (t : List ℝ) : Cost r := { c with target := t }

/-- Calls of a client: the three methods on one data object, and changes of the target. -/
inductive Call (a m : ℕ)
  | value (x : Vec a) (u : Vec m)
  | grad (x : Vec a) (u : Vec m)
  | hess (x : Vec a) (u : Vec m)
  | target (t : List ℝ)

/-- One call. -/
noncomputable def call (f : TargetFun a n m r) (s : Cost r × Data n m r) : Call a m → Option (Cost r × Data n m r)
  | .value x u => (s.1.evaluate f x u s.2).map fun d => (s.1, d)
  | .grad x u => (s.1.computeGradients f x u s.2).map fun d => (s.1, d)
  | .hess _ _ => some (s.1, s.1.computeHessians s.2)
  | .target t => some (s.1.setTarget t, s.2)

end Aligator.Track
