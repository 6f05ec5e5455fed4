import Mathlib.Data.Matrix.Mul
import Mathlib.Data.Real.Basic
import Mathlib.Data.Fin.Tuple.Basic

/-!
# Model: inverse dynamics of an underactuated system under constraints

Pinocchio's results are arguments.  Real arithmetic; sizes right (the code asserts them).
-/

namespace Aligator.InvDyn

open Matrix

variable {nv nu d : ℕ}

/-- Vectors of Eigen. -/
abbrev Vec (n : ℕ) := Fin n → ℝ

/-- Matrices of Eigen. -/
abbrev Mat (r c : ℕ) := Matrix (Fin r) (Fin c) ℝ

/-- `computeRigidConstraintsTotalSize` (modelling/multibody/constrained-rnea.hpp:21-38). -/
def totalSize (sizes : List ℕ) : ℕ := (List.range sizes.length).foldl (fun s k => s + sizes.getD k 0) 0

/-- `work.leftCols(nu) = actMatrix` (modelling/multibody/constrained-rnea.hpp:80). -/
def setLeftCols (work : Mat nv (nu + d)) (B : Mat nv nu) : Mat nv (nu + d) := fun i =>
  Fin.append (B i) (fun k => work i (Fin.natAdd nu k))

/-- `getConstraintsJacobian` into the transposed right columns (modelling/multibody/constrained-rnea.hpp:81-83): only the
columns of joints that move a constraint are written, its documentation asks for a matrix of zeros. -/
def setJacobian (work : Mat nv (nu + d)) (sup : Fin d → Fin nv → Bool) (J : Mat d nv) : Mat nv (nu + d) := fun i =>
  Fin.append (fun k => work i (Fin.castAdd d k)) (fun k => if sup k i then J k i else work i (Fin.natAdd nu k))

/-- `JacT *= -1` (modelling/multibody/constrained-rnea.hpp:84). -/
def negRightCols (work : Mat nv (nu + d)) : Mat nv (nu + d) := fun i =>
  Fin.append (fun k => work i (Fin.castAdd d k)) (fun k => -work i (Fin.natAdd nu k))

/-- `underactuatedConstrainedInverseDynamics` (modelling/multibody/constrained-rnea.hpp:43-88): `heap` is what the memory of
`work` holds when it is allocated, `solve` Eigen's column-pivoting QR. -/
def inverseDynamics (solve : Mat nv (nu + d) → Vec nv → Vec (nu + d)) (heap : Mat nv (nu + d)) (B : Mat nv nu)
    (sup : Fin d → Fin nv → Bool) (J : Mat d nv) (nle : Vec nv) : Vec (nu + d) :=
  let work := heap
  let work := setLeftCols work B
  let work := setJacobian work sup J
  let work := negRightCols work
  solve work nle

/-- The torques (bindings/python/src/modelling/multibody/expose-pinocchio-functions.cpp:207). -/
def torques (res : Vec (nu + d)) : Vec nu := fun i => res (Fin.castAdd d i)

/-- The forces (bindings/python/src/modelling/multibody/expose-pinocchio-functions.cpp:207). -/
def forces (res : Vec (nu + d)) : Vec d := fun i => res (Fin.natAdd nu i)

end Aligator.InvDyn
