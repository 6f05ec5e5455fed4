import Mathlib.LinearAlgebra.Matrix.RowCol
import Mathlib.Data.Real.Basic
import Mathlib.Data.List.FinRange

/-!
# Model: derivatives by finite differences

The wrapped function is a pure function of the state and the control; the state spaces are given by their `integrate` and
`difference`.  Real arithmetic.
-/

namespace Aligator.FiniteDiff

/-- A vector. -/
abbrev Vec (n : ℕ) := Fin n → ℝ

/-- A matrix. -/
abbrev Mat (m n : ℕ) := Matrix (Fin m) (Fin n) ℝ

variable {X Y : Type} {n m k : ℕ}

/-- The wrapped function, the `integrate` of the state space, and the difference of two outputs: of the next state space for
dynamics, of vectors for stage functions (modelling/autodiff/finite-difference.hpp:98-101, 175-183). -/
structure Fn (X Y : Type) (n m k : ℕ) where
  f : X → Vec m → Y
  integrate : X → Vec n → X
  diff : Y → Y → Vec k

/-- The data (modelling/autodiff/finite-difference.hpp:19-40, 51-76): the output, those of `data_0` and `data_1`, the
perturbations, the perturbed points, and the Jacobians. -/
structure FData (X Y : Type) (n m k : ℕ) where
  out : Y
  v0 : Y
  vp : Y
  dx : Vec n
  du : Vec m
  xp : X
  up : Vec m
  dxnext : Vec k
  Jx : Mat k n
  Ju : Mat k m

/-- New data (modelling/autodiff/finite-difference.hpp:29-39, 63-75): the perturbations are zero, the rest is what the
wrapped function's data and the memory hold. -/
def FData.fresh (d : FData X Y n m k) : Prop := d.dx = 0 ∧ d.du = 0

/-- `createData` for stage functions (modelling/autodiff/finite-difference.hpp:29-39, 111-120): the constructor for stage
functions does not initialise the member `nu`, whose value sizes the buffer `up`; a negative size is an error.  `garbage` is
what the member holds. -/
def createStage (garbage : ℤ) (d : FData X Y n m k) : Option (FData X Y n m k) :=
  if garbage < 0 then none else some { d with dx := 0, du := 0 }

/-- `createData` for dynamics (modelling/autodiff/finite-difference.hpp:63-75, 122-132): the member is initialised. -/
def createDynamics (d : FData X Y n m k) : FData X Y n m k := { d with dx := 0, du := 0, dxnext := 0 }

/-- `evaluate`, `forward` (modelling/autodiff/finite-difference.hpp:136-147). -/
def evaluate (F : Fn X Y n m k) (x : X) (u : Vec m) (d : FData X Y n m k) : FData X Y n m k :=
  let d := { d with v0 := F.f x u }
  { d with out := d.v0 }

/-- One column of `Jx` (modelling/autodiff/finite-difference.hpp:173-185). -/
noncomputable def stepX (F : Fn X Y n m k) (eps : ℝ) (x : X) (u : Vec m) (d : FData X Y n m k) (i : Fin n) :
    FData X Y n m k :=
  let d := { d with dx := Function.update d.dx i eps }
  let d := { d with xp := F.integrate x d.dx }
  let d := { d with vp := F.f d.xp u }
  let d := { d with dxnext := F.diff d.v0 d.vp }
  let d := { d with Jx := d.Jx.updateCol i (eps⁻¹ • d.dxnext) }
  { d with dx := Function.update d.dx i 0 }

/-- One column of `Ju` (modelling/autodiff/finite-difference.hpp:187-199). -/
noncomputable def stepU (F : Fn X Y n m k) (eps : ℝ) (x : X) (u : Vec m) (d : FData X Y n m k) (i : Fin m) :
    FData X Y n m k :=
  let d := { d with du := Function.update d.du i eps }
  let d := { d with up := u + d.du }
  let d := { d with vp := F.f x d.up }
  let d := { d with dxnext := F.diff d.v0 d.vp }
  let d := { d with Ju := d.Ju.updateCol i (eps⁻¹ • d.dxnext) }
  { d with du := Function.update d.du i 0 }

/-- `computeJacobians`, `dForward` (modelling/autodiff/finite-difference.hpp:149-200). -/
noncomputable def computeJacobians (F : Fn X Y n m k) (eps : ℝ) (x : X) (u : Vec m) (d : FData X Y n m k) :
    FData X Y n m k :=
  let d := (List.finRange n).foldl (stepX F eps x u) d
  (List.finRange m).foldl (stepU F eps x u) d

/-- Calls of a client. -/
inductive Call (X : Type) (m : ℕ)
  | value (x : X) (u : Vec m)
  | jac (x : X) (u : Vec m)

/-- One call. -/
noncomputable def call (F : Fn X Y n m k) (eps : ℝ) (d : FData X Y n m k) : Call X m → FData X Y n m k
  | .value x u => evaluate F x u d
  | .jac x u => computeJacobians F eps x u d

/-! ### Costs -/

/-- The data of the cost helper (modelling/autodiff/cost-finite-difference.hpp:40-55). -/
structure CData (X : Type) (n m : ℕ) where
  value : ℝ
  Lx : Vec n
  Lu : Vec m
  c1 : ℝ
  c2 : ℝ
  dx : Vec n
  du : Vec m
  xp : X
  up : Vec m

/-- `evaluate` (modelling/autodiff/cost-finite-difference.hxx:14-22). -/
def costEvaluate (c : X → Vec m → ℝ) (x : X) (u : Vec m) (d : CData X n m) : CData X n m :=
  let d := { d with c1 := c x u }
  { d with value := d.c1 }

/-- One entry of `Lx` (modelling/autodiff/cost-finite-difference.hxx:33-40). -/
noncomputable def costX (c : X → Vec m → ℝ) (integrate : X → Vec n → X) (eps : ℝ) (x : X) (u : Vec m) (d : CData X n m)
    (i : Fin n) : CData X n m :=
  let d := { d with dx := Function.update d.dx i eps }
  let d := { d with xp := integrate x d.dx }
  let d := { d with c2 := c d.xp u }
  let d := { d with Lx := Function.update d.Lx i ((d.c2 - d.c1) / eps) }
  { d with dx := Function.update d.dx i 0 }

/-- One entry of `Lu` (modelling/autodiff/cost-finite-difference.hxx:43-50). -/
noncomputable def costU (c : X → Vec m → ℝ) (eps : ℝ) (x : X) (u : Vec m) (d : CData X n m) (i : Fin m) : CData X n m :=
  let d := { d with du := Function.update d.du i eps }
  let d := { d with up := u + d.du }
  let d := { d with c2 := c x d.up }
  let d := { d with Lu := Function.update d.Lu i ((d.c2 - d.c1) / eps) }
  { d with du := Function.update d.du i 0 }

/-- `computeGradients` (modelling/autodiff/cost-finite-difference.hxx:24-51). -/
noncomputable def costGradients (c : X → Vec m → ℝ) (integrate : X → Vec n → X) (eps : ℝ) (x : X) (u : Vec m)
    (d : CData X n m) : CData X n m :=
  let d := { d with c1 := c x u }
  let d := { d with dx := 0 }
  let d := (List.finRange n).foldl (costX c integrate eps x u) d
  let d := { d with du := 0 }
  (List.finRange m).foldl (costU c eps x u) d

end Aligator.FiniteDiff
