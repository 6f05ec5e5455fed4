import Verif.Model.Wrappers

/-!
# Model: affine stage functions, linear dynamics, control boxes and constant costs

Real arithmetic.  Sizes that the constructors take from the client's matrices are natural numbers of their own; a use with
sizes that do not fit is undefined (`none`).
-/

namespace Aligator.Aff

open Matrix Aligator.Wrap

variable {n m r : ℕ}

/-- A matrix with its sizes, as `MatrixXs`. -/
structure Mx where
  rows : ℕ
  cols : ℕ
  val : Mat rows cols

/-- A vector with its size. -/
structure Vx where
  size : ℕ
  val : Vec size

/-- A matrix as one of wanted sizes; other sizes are undefined. -/
def Mx.as (A : Mx) (r n : ℕ) : Option (Mat r n) :=
  if h : A.rows = r ∧ A.cols = n then some (fun i j => A.val (i.cast h.1.symm) (j.cast h.2.symm)) else none

/-- A vector as one of a wanted size. -/
def Vx.as (d : Vx) (r : ℕ) : Option (Vec r) := if h : d.size = r then some (fun i => d.val (i.cast h.symm)) else none

/-! ### Linear functions -/

/-- `LinearFunctionTpl` (modelling/linear-function.hpp:15-17). -/
structure LinFun where
  A : Mx
  B : Mx
  d : Vx

/-- Dimensions given to the base class (modelling/linear-function.hpp:64-74); the consistency of the rows is an assertion
only. -/
abbrev LinFun.ndx (f : LinFun) : ℕ := f.A.cols
/-- See `LinFun.ndx`. -/
abbrev LinFun.nu (f : LinFun) : ℕ := f.B.cols
/-- See `LinFun.ndx`. -/
abbrev LinFun.nr (f : LinFun) : ℕ := f.d.size

/-- The constructor from dimensions (modelling/linear-function.hpp:52-62). -/
def newLinFunDim (ndx nu nr : ℕ) : LinFun := ⟨⟨nr, ndx, 0⟩, ⟨nr, nu, 0⟩, ⟨nr, 0⟩⟩

/-- Stacking the columns of state and control (core/function-abstract.hxx:39-40). -/
def cols (A : Mat r n) (B : Mat r m) : Mat r (n + m) := fun i => Fin.append (A i) (B i)

/-- `createData` (modelling/linear-function.hpp:44-49). -/
def LinFun.createData (f : LinFun) : Option (FData f.ndx f.nu f.nr) := do
  let A ← f.A.as f.nr f.ndx
  let B ← f.B.as f.nr f.nu
  pure { (FData.new : FData f.ndx f.nu f.nr) with jac := cols A B }

/-- `evaluate` (modelling/linear-function.hpp:24-29); the state is a vector of `ndx` coordinates. -/
def LinFun.evaluate (f : LinFun) (x : Vec f.ndx) (u : Vec f.nu) (d : FData f.ndx f.nu f.nr) :
    Option (FData f.ndx f.nu f.nr) := do
  let A ← f.A.as f.nr f.ndx
  let B ← f.B.as f.nr f.nu
  let d := { d with value := (f.d.val : Vec f.nr) }
  let d := { d with value := d.value + A *ᵥ x }
  pure { d with value := d.value + B *ᵥ u }

/-- `computeJacobians` (modelling/linear-function.hpp:36-40). -/
def LinFun.computeJacobians (f : LinFun) (_ : Vec f.ndx) (_ : Vec f.nu) (d : FData f.ndx f.nu f.nr) :
    Option (FData f.ndx f.nu f.nr) := do
  let A ← f.A.as f.nr f.ndx
  let B ← f.B.as f.nr f.nu
  pure { d with jac := cols A B }

/-- Calls of a client on one data object. -/
inductive Call (n m : ℕ)
  | value (x : Vec n) (u : Vec m)
  | jac (x : Vec n) (u : Vec m)

/-- One call. -/
def LinFun.call (f : LinFun) (d : FData f.ndx f.nu f.nr) : Call f.ndx f.nu → Option (FData f.ndx f.nu f.nr)
  | .value x u => f.evaluate x u d
  | .jac x u => f.computeJacobians x u d

/-! ### Linear discrete dynamics -/

/-- `LinearDiscreteDynamicsTpl` (modelling/linear-discrete-dynamics.hpp:15-17). -/
structure LinDyn where
  A : Mx
  B : Mx
  c : Vx

/-- The state has as many coordinates as `A` has columns (modelling/linear-discrete-dynamics.hpp:24-29); nothing else is
checked. -/
abbrev LinDyn.ndx (f : LinDyn) : ℕ := f.A.cols
/-- See `LinDyn.ndx`. -/
abbrev LinDyn.nu (f : LinDyn) : ℕ := f.B.cols

/-- `ExplicitDynamicsDataTpl` (core/explicit-dynamics.hpp:91-104): `xnext_` can be resized by an assignment, the Jacobian
blocks cannot. -/
structure DData (n m : ℕ) where
  xnext : Vx
  jac : Mat n (n + m)

/-- `createData` (modelling/linear-discrete-dynamics.hpp:40-45). -/
def LinDyn.createData (f : LinDyn) : Option (DData f.ndx f.nu) := do
  let A ← f.A.as f.ndx f.ndx
  let B ← f.B.as f.ndx f.nu
  pure ⟨⟨f.ndx, 0⟩, cols A B⟩

/-- `forward` (modelling/linear-discrete-dynamics.hpp:31-36): `xnext_` takes the size of `c`. -/
def LinDyn.forward (f : LinDyn) (x : Vec f.ndx) (u : Vec f.nu) (d : DData f.ndx f.nu) : Option (DData f.ndx f.nu) := do
  let A ← f.A.as f.c.size f.ndx
  let B ← f.B.as f.c.size f.nu
  pure { d with xnext := ⟨f.c.size, f.c.val + A *ᵥ x + B *ᵥ u⟩ }

/-- `dForward` (modelling/linear-discrete-dynamics.hpp:38): nothing. -/
def LinDyn.dForward (f : LinDyn) (_ : Vec f.ndx) (_ : Vec f.nu) (d : DData f.ndx f.nu) : DData f.ndx f.nu := d

/-- One call. -/
def LinDyn.call (f : LinDyn) (d : DData f.ndx f.nu) : Call f.ndx f.nu → Option (DData f.ndx f.nu)
  | .value x u => f.forward x u d
  | .jac x u => some (f.dForward x u d)

/-! ### Control boxes -/

/-- `ControlBoxFunctionTpl` (modelling/control-box-function.hpp:24). -/
structure Box (m : ℕ) where
  umin : Vec m
  umax : Vec m

/-- The constructor from two vectors (modelling/control-box-function.hxx:7-16); `none` is an exception. -/
def newBox (umin umax : Vx) : Option (Box umin.size) :=
  if h : umin.size = umax.size then some ⟨umin.val, fun i => umax.val (i.cast h)⟩ else none

/-- The constructor from two numbers (modelling/control-box-function.hxx:19-23). -/
def newBoxScalar (nu : ℕ) (umin umax : ℝ) : Option (Box nu) := newBox ⟨nu, fun _ => umin⟩ ⟨nu, fun _ => umax⟩

/-- The diagonals of the top and bottom rows of `Ju_` (modelling/control-box-function.hxx:37-38, :45-46). -/
def boxDiagonals (J : Mat (m + m) (n + m)) : Mat (m + m) (n + m) := fun i =>
  Fin.append (fun j => J i (Fin.castAdd m j)) (Fin.addCases
    (fun k => Function.update (fun j => J i (Fin.natAdd n j)) k (-1))
    (fun k => Function.update (fun j => J i (Fin.natAdd n j)) k 1) i)

/-- `createData` (modelling/control-box-function.hxx:43-48). -/
def Box.createData (n : ℕ) (_ : Box m) : FData n m (m + m) :=
  let d : FData n m (m + m) := FData.new
  { d with jac := boxDiagonals d.jac }

/-- `evaluate` (modelling/control-box-function.hxx:26-31). -/
def Box.evaluate (c : Box m) (u : Vec m) (d : FData n m (m + m)) : FData n m (m + m) :=
  let d := { d with value := setHd d.value (c.umin - u) }
  { d with value := setTl d.value (u - c.umax) }

/-- `computeJacobians` (modelling/control-box-function.hxx:34-39). -/
def Box.computeJacobians (_ : Box m) (d : FData n m (m + m)) : FData n m (m + m) := { d with jac := boxDiagonals d.jac }

/-- One call. -/
def Box.call {a : ℕ} (c : Box m) (d : FData n m (m + m)) : Call a m → FData n m (m + m)
  | .value _ u => c.evaluate u d
  | .jac _ _ => c.computeJacobians d

/-! ### Constant costs -/

/-- The calls on a cost (core/cost-abstract.hpp:32-42). -/
inductive KCall (n m : ℕ)
  | value (x : Vec n) (u : Vec m)
  | grad (x : Vec n) (u : Vec m)
  | hess (x : Vec n) (u : Vec m)

/-- `createData` of a constant cost (modelling/costs/constant-cost.hpp:31-35). -/
def constData (v : ℝ) : CData n m := { (CData.new : CData n m) with value := v }

/-- The methods of a constant cost (modelling/costs/constant-cost.hpp:20-29). -/
def constCall {a : ℕ} (v : ℝ) (d : CData n m) : KCall a m → CData n m
  | .value _ _ => { d with value := v }
  | .grad _ _ => d
  | .hess _ _ => d

end Aligator.Aff
