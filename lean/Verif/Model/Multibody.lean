import Verif.Model.Centroidal
import Mathlib.Analysis.SpecialFunctions.ExpDeriv

/-!
# Model: residuals of rigid-body kinematics

Real arithmetic.  Pinocchio is not part of this repository: its algorithms are the functions of `Pin`, arbitrary here; the
laws they are expected to obey are stated in `Spec/Multibody.lean` and are hypotheses of the theorems.  What is modelled of
Pinocchio's data object is which of its fields a call writes and from which fields a getter reads, after its documentation
(version 3); the library's headers are not available here, so this is part of the trusted base.

A residual has parameters that its setters change (the frame, the reference).  Buffers that are overwritten before every use
are not part of the data.
-/

namespace Aligator.MB

open Matrix

/-- A vector. -/
abbrev Vec (n : ℕ) := Fin n → ℝ

/-- A matrix. -/
abbrev Mat (m n : ℕ) := Matrix (Fin m) (Fin n) ℝ

/-- Value and Jacobian buffers (core/function-abstract.hpp:73-110). -/
abbrev FData := Centroidal.FData

/-- `M.block<a, b>(r0, c0) = B`. -/
abbrev setBlock {p q a b : ℕ} (M : Mat p q) (r0 c0 : ℕ) (B : Mat a b) : Mat p q := Centroidal.setBlock M r0 c0 B

variable {nx ndx nu r nq nv : ℕ} {Frame : Type}

/-- `x.head(k)`. -/
def head (k : ℕ) {n : ℕ} (h : k ≤ n) (x : Vec n) : Vec k := fun i => x (Fin.castLE h i)

/-- `x.segment(s, k)`. -/
def segment (s k : ℕ) {n : ℕ} (h : s + k ≤ n) (x : Vec n) : Vec k := fun i => x ⟨s + i, by omega⟩

/-- `J.topRows<3>()` of a matrix with six rows. -/
def top {n : ℕ} (J : Mat 6 n) : Mat 3 n := fun i j => J (Fin.castAdd 3 i) j

/-- `J.bottomRows<3>()` of a matrix with six rows. -/
def bot {n : ℕ} (J : Mat 6 n) : Mat 3 n := fun i j => J (Fin.natAdd 3 i) j

/-- `pinocchio::skew`. -/
def skew (a : Vec 3) : Mat 3 3 := !![0, -a 2, a 1; a 2, 0, -a 0; -a 1, a 0, 0]

/-! ### Rigid transformations -/

/-- `pinocchio::SE3`: rotation and translation. -/
structure SE3 where
  R : Mat 3 3
  p : Vec 3

/-- `SE3::act(SE3)`, the product of transformations. -/
def SE3.act (A B : SE3) : SE3 := ⟨A.R * B.R, A.R *ᵥ B.p + A.p⟩

/-- `SE3::inverse()`. -/
def SE3.inverse (A : SE3) : SE3 := ⟨A.Rᵀ, -(A.Rᵀ *ᵥ A.p)⟩

/-- `SE3::actInv(SE3)`. -/
def SE3.actInv (A B : SE3) : SE3 := ⟨A.Rᵀ * B.R, A.Rᵀ *ᵥ (B.p - A.p)⟩

/-- A 6 by 6 matrix of four blocks. -/
def six (A B C D : Mat 3 3) : Mat 6 6 :=
  Fin.append (fun i => Fin.append (A i) (B i)) (fun i => Fin.append (C i) (D i))

/-- `SE3::toActionMatrixInverse()`: motion vectors are (linear, angular). -/
def SE3.toActionMatrixInverse (A : SE3) : Mat 6 6 := six A.Rᵀ (-(A.Rᵀ * skew A.p)) 0 A.Rᵀ

/-! ### Pinocchio -/

/-- `pinocchio::ReferenceFrame`. -/
inductive Ref
  | LOCAL
  | WORLD
  | LOCAL_WORLD_ALIGNED

/-- The functions that Pinocchio's algorithms compute, for a model with configurations of size `nq` and velocities of size
`nv`. -/
structure Pin (nq nv : ℕ) (Frame : Type) where
  /-- placement of a frame -/
  place : Frame → Vec nq → SE3
  /-- frame Jacobian -/
  jac : Frame → Ref → Vec nq → Mat 6 nv
  /-- the columns that `getFrameJacobian` and `getFrameVelocityDerivatives` write: those of the joints between the root and
  the frame -/
  supports : Frame → Fin nv → Bool
  /-- frame velocity -/
  vel : Frame → Ref → Vec nq → Vec nv → Vec 6
  /-- its derivatives -/
  velDq : Frame → Ref → Vec nq → Vec nv → Mat 6 nv
  velDv : Frame → Ref → Vec nq → Vec nv → Mat 6 nv
  /-- centre of mass, its Jacobian, its velocity, and the derivative of the latter in the configuration -/
  com : Vec nq → Vec 3
  Jcom : Vec nq → Mat 3 nv
  vcom : Vec nq → Vec nv → Vec 3
  vcomDq : Vec nq → Vec nv → Mat 3 nv
  /-- centroidal momentum matrix, and the derivative of the momentum in the configuration -/
  Ag : Vec nq → Mat 6 nv
  hDq : Vec nq → Vec nv → Mat 6 nv
  /-- generalized gravity, its derivative, and the entries that `computeGeneralizedGravityDerivatives` writes (those of
  joints of which one supports the other) -/
  gravity : Vec nq → Vec nv
  gravityDq : Vec nq → Mat nv nv
  related : Fin nv → Fin nv → Bool
  /-- logarithm of a transformation and its Jacobian -/
  log6 : SE3 → Vec 6
  Jlog6 : SE3 → Mat 6 6
  /-- a collision pair: distance, nearest points, normal -/
  dist : Vec nq → ℝ
  near1 : Vec nq → Vec 3
  near2 : Vec nq → Vec 3
  normal : Vec nq → Vec 3

/-- What the algorithms read of `pinocchio::Data`: the point at which the joint placements `q` and velocities `v`, the joint
Jacobians `jq` and the collision results `gq` were last computed, and the fields read by name. -/
structure PinData (nq nv : ℕ) (Frame : Type) where
  q : Vec nq
  v : Vec nv
  jq : Vec nq
  gq : Vec nq
  oMf : Frame → SE3
  com : Vec 3
  vcom : Vec 3
  Jcom : Mat 3 nv
  Ag : Mat 6 nv

section Calls

variable (K : Pin nq nv Frame) [DecidableEq Frame]

/-- `forwardKinematics(model, data, q)`. -/
def fk (q : Vec nq) (d : PinData nq nv Frame) : PinData nq nv Frame := { d with q := q }

/-- `forwardKinematics(model, data, q, v)`. -/
def fkv (q : Vec nq) (v : Vec nv) (d : PinData nq nv Frame) : PinData nq nv Frame := { d with q := q, v := v }

/-- `updateFramePlacement(model, data, frame)`. -/
def updateFramePlacement (f : Frame) (d : PinData nq nv Frame) : PinData nq nv Frame :=
  { d with oMf := Function.update d.oMf f (K.place f d.q) }

/-- `updateFramePlacements(model, data)`. -/
def updateFramePlacements (d : PinData nq nv Frame) : PinData nq nv Frame := { d with oMf := fun f => K.place f d.q }

/-- `computeJointJacobians(model, data)`: from the joint placements. -/
def computeJointJacobians (d : PinData nq nv Frame) : PinData nq nv Frame := { d with jq := d.q }

/-- `centerOfMass(model, data, q)`. -/
def centerOfMass (q : Vec nq) (d : PinData nq nv Frame) : PinData nq nv Frame := { d with q := q, com := K.com q }

/-- `centerOfMass(model, data, q, v)`. -/
def centerOfMassV (q : Vec nq) (v : Vec nv) (d : PinData nq nv Frame) : PinData nq nv Frame :=
  { d with q := q, v := v, com := K.com q, vcom := K.vcom q v }

/-- `jacobianCenterOfMass(model, data, q)`. -/
def jacobianCenterOfMass (q : Vec nq) (d : PinData nq nv Frame) : PinData nq nv Frame :=
  { d with q := q, com := K.com q, Jcom := K.Jcom q }

/-- `computeForwardKinematicsDerivatives(model, data, q, v, 0)`. -/
def computeForwardKinematicsDerivatives (q : Vec nq) (v : Vec nv) (d : PinData nq nv Frame) : PinData nq nv Frame :=
  { d with q := q, v := v, jq := q }

/-- `ccrba(model, data, q, v)`. -/
def ccrba (q : Vec nq) (v : Vec nv) (d : PinData nq nv Frame) : PinData nq nv Frame :=
  { d with q := q, v := v, Ag := K.Ag q }

/-- `updateGeometryPlacements(model, data, geom_model, geom_data, q)` and `computeDistance(geom_model, geom_data, pair)`. -/
def computeDistance (q : Vec nq) (d : PinData nq nv Frame) : PinData nq nv Frame := { d with q := q, gq := q }

omit [DecidableEq Frame] in
/-- Columns of `new` written over `old`. -/
def fill (sup : Fin nv → Bool) (new old : Mat r nv) : Mat r nv := fun i j => if sup j then new i j else old i j

/-- `getFrameJacobian(model, data, frame, ref, J)`: the supporting columns of `J` are written. -/
def getFrameJacobian (f : Frame) (ref : Ref) (d : PinData nq nv Frame) (J : Mat 6 nv) : Mat 6 nv :=
  fill (K.supports f) (K.jac f ref d.jq) J

end Calls

/-! ### Residuals -/

/-- A function with parameters, its methods acting on a data object. -/
structure Resid (P : Type) (nx ndx nu r : ℕ) where
  Data : Type
  base : Data → FData ndx nu r
  new : Data
  evaluate : P → Vec nx → Vec nu → Data → Data
  computeJacobians : P → Vec nx → Vec nu → Data → Data

/-- Calls of a client, each with the parameters at that time. -/
inductive Call (P : Type) (nx nu : ℕ)
  | value (p : P) (x : Vec nx) (u : Vec nu)
  | jac (p : P) (x : Vec nx) (u : Vec nu)

/-- The parameters of a call. -/
def Call.param {P : Type} : Call P nx nu → P
  | .value p _ _ => p
  | .jac p _ _ => p

/-- One call. -/
def Resid.call {P : Type} (f : Resid P nx ndx nu r) (d : f.Data) : Call P nx nu → f.Data
  | .value p x u => f.evaluate p x u d
  | .jac p x u => f.computeJacobians p x u d

/-- A data object with the kinematics inside, and one buffer for a frame Jacobian (`fJf_`). -/
structure KData (nq nv : ℕ) (Frame : Type) (ndx nu r : ℕ) extends Centroidal.FData ndx nu r where
  pin : PinData nq nv Frame
  fJf : Mat 6 nv

/-- New data: all buffers zero (core/function-abstract.hxx:44-46, and e.g. modelling/multibody/frame-translation.hxx:42-48). -/
def KData.new (pin : PinData nq nv Frame) : KData nq nv Frame ndx nu r :=
  { (Centroidal.FData.new : FData ndx nu r) with pin := pin, fJf := 0 }

variable (K : Pin nq nv Frame) [DecidableEq Frame] (pin0 : PinData nq nv Frame) (hq : nq ≤ nx) (hqv : nq + nv ≤ nx)

/-- `FrameTranslationResidualTpl` (modelling/multibody/frame-translation.hxx:18-48); parameters: frame and reference. -/
def frameTranslation : Resid (Frame × Vec 3) nx ndx nu 3 where
  Data := KData nq nv Frame ndx nu 3
  base d := d.toFData
  new := KData.new pin0
  evaluate p x _ d :=
    let q := head nq hq x
    let d := { d with pin := fk q d.pin }
    let d := { d with pin := updateFramePlacement K p.1 d.pin }
    { d with value := (d.pin.oMf p.1).p - p.2 }
  computeJacobians p _ _ d :=
    let d := { d with pin := computeJointJacobians d.pin }
    let d := { d with fJf := getFrameJacobian K p.1 .LOCAL_WORLD_ALIGNED d.pin d.fJf }
    { d with Jx := setBlock d.Jx 0 0 (top d.fJf) }

/-- The data of the placement residual (modelling/multibody/frame-placement.hpp:58-76). -/
structure PData (nq nv : ℕ) (Frame : Type) (ndx nu : ℕ) extends KData nq nv Frame ndx nu 6 where
  rMf : SE3
  rJf : Mat 6 6

/-- `FramePlacementResidualTpl` (modelling/multibody/frame-placement.hxx:9-43); parameters: frame and reference.  The stored
inverse of the reference is kept in step with it (modelling/multibody/frame-placement.hpp:30-44), so it is computed here. -/
def framePlacement (rMf0 : SE3) : Resid (Frame × SE3) nx ndx nu 6 where
  Data := PData nq nv Frame ndx nu
  base d := d.toFData
  new := { (KData.new pin0 : KData nq nv Frame ndx nu 6) with rMf := rMf0, rJf := 0 }
  evaluate p x _ d :=
    let q := head nq hq x
    let d := { d with pin := fk q d.pin }
    let d := { d with pin := updateFramePlacement K p.1 d.pin }
    let d := { d with rMf := p.2.inverse.act (d.pin.oMf p.1) }
    { d with value := K.log6 d.rMf }
  computeJacobians p _ _ d :=
    let d := { d with rJf := K.Jlog6 d.rMf }
    let d := { d with pin := computeJointJacobians d.pin }
    let d := { d with fJf := getFrameJacobian K p.1 .LOCAL d.pin d.fJf }
    { d with Jx := setBlock d.Jx 0 0 (d.rJf * d.fJf) }

/-- The constructor's test (modelling/multibody/frame-velocity.hxx:11-23); `none`: exception. -/
def frameVelocityCtor {α : Type*} (nv ndx : ℕ) (res : α) : Option α := if ndx < nv * 2 then none else some res

/-- `FrameVelocityResidualTpl` (modelling/multibody/frame-velocity.hxx:25-58); parameters: frame, reference velocity and
reference frame.  The derivatives are written into the left and right columns of the Jacobian itself. -/
def frameVelocity : Resid (Frame × Vec 6 × Ref) nx ndx nu 6 where
  Data := KData nq nv Frame ndx nu 6
  base d := d.toFData
  new := KData.new pin0
  evaluate p x _ d :=
    let q := head nq hq x
    let v := segment nq nv hqv x
    let d := { d with pin := fkv q v d.pin }
    let d := { d with pin := updateFramePlacement K p.1 d.pin }
    { d with value := K.vel p.1 p.2.2 d.pin.q d.pin.v - p.2.1 }
  computeJacobians p x _ d :=
    let q := head nq hq x
    let v := segment nq nv hqv x
    let d := { d with pin := computeForwardKinematicsDerivatives q v d.pin }
    let Jq : Mat 6 nv := fun i j => if h : j.val < ndx then d.Jx i ⟨j, h⟩ else 0
    let d := { d with Jx := setBlock d.Jx 0 0 (fill (K.supports p.1) (K.velDq p.1 p.2.2 d.pin.q d.pin.v) Jq) }
    let Jv : Mat 6 nv := fun i j => if h : ndx - nv + j.val < ndx then d.Jx i ⟨ndx - nv + j, h⟩ else 0
    { d with Jx := setBlock d.Jx 0 (ndx - nv) (fill (K.supports p.1) (K.velDv p.1 p.2.2 d.pin.q d.pin.v) Jv) }

/-- `CenterOfMassTranslationResidualTpl` (modelling/multibody/center-of-mass-translation.hxx:8-32); parameter: the
reference. -/
def comTranslation : Resid (Vec 3) nx ndx nu 3 where
  Data := KData nq nv Frame ndx nu 3
  base d := d.toFData
  new := KData.new pin0
  evaluate p x _ d :=
    let d := { d with pin := centerOfMass K (head nq hq x) d.pin }
    { d with value := d.pin.com - p }
  computeJacobians _ x _ d :=
    let d := { d with pin := jacobianCenterOfMass K (head nq hq x) d.pin }
    { d with Jx := setBlock d.Jx 0 0 d.pin.Jcom }

/-- `CenterOfMassVelocityResidualTpl` (modelling/multibody/center-of-mass-velocity.hxx:9-42); parameter: the reference. -/
def comVelocity : Resid (Vec 3) nx ndx nu 3 where
  Data := KData nq nv Frame ndx nu 3
  base d := d.toFData
  new := KData.new pin0
  evaluate p x _ d :=
    let d := { d with pin := centerOfMassV K (head nq hq x) (segment nq nv hqv x) d.pin }
    { d with value := d.pin.vcom - p }
  computeJacobians _ x _ d :=
    let d := { d with pin := centerOfMassV K (head nq hq x) (segment nq nv hqv x) d.pin }
    let fJf := K.vcomDq d.pin.q d.pin.v
    let d := { d with Jx := setBlock d.Jx 0 0 fJf }
    let d := { d with pin := jacobianCenterOfMass K (head nq hq x) d.pin }
    { d with Jx := setBlock d.Jx 0 (ndx - nv) d.pin.Jcom }

/-- `DCMPositionResidualTpl` (modelling/multibody/dcm-position.hxx:9-40); parameter: the reference. -/
def dcmPosition (alpha : ℝ) : Resid (Vec 3) nx ndx nu 3 where
  Data := KData nq nv Frame ndx nu 3
  base d := d.toFData
  new := KData.new pin0
  evaluate p x _ d :=
    let d := { d with pin := centerOfMassV K (head nq hq x) (segment nq nv hqv x) d.pin }
    { d with value := d.pin.com + alpha • d.pin.vcom - p }
  computeJacobians _ x _ d :=
    let fJf := K.vcomDq d.pin.q d.pin.v
    let d := { d with pin := jacobianCenterOfMass K (head nq hq x) d.pin }
    let d := { d with Jx := setBlock d.Jx 0 0 (d.pin.Jcom + alpha • fJf) }
    { d with Jx := setBlock d.Jx 0 (ndx - nv) (alpha • d.pin.Jcom) }

/-- The data of the fly-high residual (modelling/multibody/fly-high.hpp:48-79): buffers that keep columns between calls, and
the exponential. -/
structure HData (nq nv : ℕ) (Frame : Type) (ndx nu : ℕ) extends Centroidal.FData ndx nu 2 where
  pin : PinData nq nv Frame
  lDq : Mat 6 nv
  lDv : Mat 6 nv
  ez : ℝ

/-- `FlyHighResidualTpl` (modelling/multibody/fly-high.hxx:20-73); parameters: frame and slope. -/
noncomputable def flyHigh (ez0 : ℝ) : Resid (Frame × ℝ) nx ndx nu 2 where
  Data := HData nq nv Frame ndx nu
  base d := d.toFData
  new := { (Centroidal.FData.new : FData ndx nu 2) with pin := pin0, lDq := 0, lDv := 0, ez := ez0 }
  evaluate p x _ d :=
    let q := head nq hq x
    let v := segment nq nv hqv x
    let d := { d with pin := fkv q v d.pin }
    let d := { d with pin := updateFramePlacement K p.1 d.pin }
    let w := K.vel p.1 .LOCAL_WORLD_ALIGNED d.pin.q d.pin.v
    let d := { d with value := ![w 0, w 1] }
    let tf := (d.pin.oMf p.1).p
    let d := { d with ez := Real.exp (-tf 2 * p.2) }
    { d with value := d.ez • d.value }
  computeJacobians p x _ d :=
    let q := head nq hq x
    let v := segment nq nv hqv x
    let d := { d with pin := computeForwardKinematicsDerivatives q v d.pin }
    let d := { d with lDq := fill (K.supports p.1) (K.velDq p.1 .LOCAL d.pin.q d.pin.v) d.lDq
                      lDv := fill (K.supports p.1) (K.velDv p.1 .LOCAL d.pin.q d.pin.v) d.lDv }
    let w := K.vel p.1 .LOCAL d.pin.q d.pin.v
    let vf : Vec 3 := ![w 0, w 1, w 2]
    let R := (d.pin.oMf p.1).R
    let vxJ := skew (-vf) * bot d.lDv
    let vxJ := vxJ + top d.lDq
    let oDq := R * vxJ
    let oDv := R * top d.lDv
    let two (M : Mat 3 nv) : Mat 2 nv := fun i j => M (Fin.castLE (by omega) i) j
    let d := { d with Jx := setBlock d.Jx 0 0 (two oDq) }
    let d := { d with Jx := setBlock d.Jx 0 (ndx - nv) (two oDv) }
    let d := { d with Jx := d.ez • d.Jx }
    { d with Jx := fun i j => if h : j.val < nv then d.Jx i j - d.value i * p.2 * oDv 2 ⟨j, h⟩ else d.Jx i j }

/-- The data of the equality residual (modelling/multibody/frame-equality.hpp:76-97). -/
structure EData (nq nv : ℕ) (Frame : Type) (ndx nu : ℕ) extends Centroidal.FData ndx nu 6 where
  pin : PinData nq nv Frame
  RMf2 : SE3
  wJf1 : Mat 6 nv
  wJf2 : Mat 6 nv

/-- `FrameEqualityResidualTpl` (modelling/multibody/frame-equality.hxx:9-52); parameters: the two frames and the
reference. -/
def frameEquality (M0 : SE3) : Resid (Frame × Frame × SE3) nx ndx nu 6 where
  Data := EData nq nv Frame ndx nu
  base d := d.toFData
  new := { (Centroidal.FData.new : FData ndx nu 6) with pin := pin0, RMf2 := M0, wJf1 := 0, wJf2 := 0 }
  evaluate p x _ d :=
    let q := head nq hq x
    let d := { d with pin := fk q d.pin }
    let d := { d with pin := updateFramePlacement K p.1 d.pin }
    let d := { d with pin := updateFramePlacement K p.2.1 d.pin }
    let d := { d with RMf2 := ((d.pin.oMf p.1).act p.2.2).actInv (d.pin.oMf p.2.1) }
    { d with value := K.log6 d.RMf2 }
  computeJacobians p _ _ d :=
    let RJ := K.Jlog6 d.RMf2
    let d := { d with pin := computeJointJacobians d.pin }
    let d := { d with wJf1 := getFrameJacobian K p.1 .WORLD d.pin d.wJf1 }
    let d := { d with wJf2 := getFrameJacobian K p.2.1 .WORLD d.pin d.wJf2 }
    { d with Jx := setBlock d.Jx 0 0 (RJ * (d.pin.oMf p.2.1).toActionMatrixInverse * (d.wJf2 - d.wJf1)) }

/-- The data of the collision residual (modelling/multibody/frame-collision.hpp:71-92). -/
structure CData (nq nv : ℕ) (Frame : Type) (ndx nu : ℕ) extends Centroidal.FData ndx nu 1 where
  pin : PinData nq nv Frame
  Jcol : Mat 6 nv
  Jcol2 : Mat 6 nv

/-- `FrameCollisionResidualTpl` (modelling/multibody/frame-collision.hxx:11-78).  The two frames are fixed by the
constructor (modelling/multibody/frame-collision.hpp:46-53).  The buffers are multiplied by the action matrices in place. -/
def frameCollision (f1 f2 : Frame) : Resid Unit nx ndx nu 1 where
  Data := CData nq nv Frame ndx nu
  base d := d.toFData
  new := { (Centroidal.FData.new : FData ndx nu 1) with pin := pin0, Jcol := 0, Jcol2 := 0 }
  evaluate _ x _ d :=
    let q := head nq hq x
    let d := { d with pin := fk q d.pin }
    let d := { d with pin := updateFramePlacements K d.pin }
    let d := { d with pin := computeDistance q d.pin }
    { d with value := fun _ => K.dist d.pin.gq }
  computeJacobians _ _ _ d :=
    let distance := K.near1 d.pin.gq - (d.pin.oMf f1).p
    let distance2 := K.near2 d.pin.gq - (d.pin.oMf f2).p
    let jointToP1 : SE3 := ⟨1, distance⟩
    let jointToP2 : SE3 := ⟨1, distance2⟩
    let d := { d with pin := computeJointJacobians d.pin }
    let d := { d with Jcol := getFrameJacobian K f1 .LOCAL_WORLD_ALIGNED d.pin d.Jcol }
    let d := { d with Jcol2 := getFrameJacobian K f2 .LOCAL_WORLD_ALIGNED d.pin d.Jcol2 }
    let d := { d with Jcol := jointToP1.toActionMatrixInverse * d.Jcol }
    let d := { d with Jcol2 := jointToP2.toActionMatrixInverse * d.Jcol2 }
    let d := { d with Jx := 0 }
    { d with Jx := setBlock d.Jx 0 0 (fun (_ : Fin 1) j => (K.normal d.pin.gq ᵥ* (top d.Jcol2 - top d.Jcol)) j) }

/-- `CentroidalMomentumResidualTpl` (modelling/multibody/centroidal-momentum.hxx:10-54); parameter: the reference.  The
velocity is the tail of the state. -/
def centroidalMomentum : Resid (Vec 6) nx ndx nu 6 where
  Data := KData nq nv Frame ndx nu 6
  base d := d.toFData
  new := KData.new pin0
  evaluate p x _ d :=
    let q := head nq hq x
    let v := segment (nx - nv) nv (by omega) x
    let d := { d with pin := ccrba K q v d.pin }
    { d with value := d.pin.Ag *ᵥ v - p }
  computeJacobians _ x _ d :=
    let q := head nq hq x
    let v := segment (nx - nv) nv (by omega) x
    let dhDq := K.hDq q v
    let d := { d with pin := computeForwardKinematicsDerivatives q v d.pin }
    let d := { d with Jx := setBlock d.Jx 0 0 dhDq }
    { d with Jx := setBlock d.Jx 0 (ndx - nv) d.pin.Ag }

/-- The data of the gravity residual (modelling/multibody/gravity-compensation-residual.hpp:33-38). -/
structure GData (nv ndx nu : ℕ) extends Centroidal.FData ndx nu nv where
  dG : Mat nv nv

/-- `GravityCompensationResidualTpl` (modelling/multibody/gravity-compensation-residual.hxx:6-67) with an actuation matrix;
without one, the matrix is the identity.  The derivative goes to a buffer that nobody initialises: `garbage` is its
content. -/
def gravityCompensation (act : Mat nv nu) (garbage : Mat nv nv) : Resid Unit nx ndx nu nv where
  Data := GData nv ndx nu
  base d := d.toFData
  new := { (Centroidal.FData.new : FData ndx nu nv) with dG := garbage }
  evaluate _ x u d :=
    let q := head nq hq x
    let d := { d with value := -K.gravity q }
    { d with value := d.value + act *ᵥ u }
  computeJacobians _ x _ d :=
    let q := head nq hq x
    let d := { d with dG := fun i j => if K.related i j then K.gravityDq q i j else d.dG i j }
    let d := { d with Ju := act }
    { d with Jx := setBlock d.Jx 0 0 (-d.dG) }

/-- The data of the momentum-rate residual (modelling/multibody/centroidal-momentum-derivative.hpp:52-70): `fJf_` is zeroed
before each use and not kept. -/
structure MData (nq nv : ℕ) (Frame : Type) (ndx nu : ℕ) extends Centroidal.FData ndx nu 6 where
  pin : PinData nq nv Frame

/-- One contact in `evaluate` (modelling/multibody/centroidal-momentum-derivative.hxx:47-72). -/
def rateValue {nk : ℕ} (active : Fin nk → Bool) (frame : Fin nk → Frame) (L : Centroidal.Layout nk nu) (u : Vec nu)
    (d : MData nq nv Frame ndx nu) (i : Fin nk) : MData nq nv Frame ndx nu :=
  if active i then
    let d := { d with value := Centroidal.addSeg d.value 0 (L.force u i) }
    let d := { d with pin := updateFramePlacement K (frame i) d.pin }
    let d := { d with value :=
      Centroidal.addSeg d.value 3 (Centroidal.crossTerm (d.pin.oMf (frame i)).p d.pin.com (L.force u i)) }
    if h : L.fs = 6 then { d with value := Centroidal.addSeg d.value 3 (L.moment h u i) } else d
  else d

omit [DecidableEq Frame] in
/-- One contact in the state Jacobian (modelling/multibody/centroidal-momentum-derivative.hxx:87-99). -/
def rateJx {nk : ℕ} (active : Fin nk → Bool) (frame : Fin nk → Frame) (L : Centroidal.Layout nk nu) (u : Vec nu)
    (d : MData nq nv Frame ndx nu) (i : Fin nk) : MData nq nv Frame ndx nu :=
  if active i then
    let fJf := getFrameJacobian K (frame i) .LOCAL_WORLD_ALIGNED d.pin 0
    let Jtemp := skew (L.force u i)
    let temp := d.pin.Jcom - top fJf
    { d with Jx := d.Jx + setBlock 0 3 0 (Jtemp * temp) }
  else d

omit [DecidableEq Frame] in
/-- One contact in the control Jacobian (modelling/multibody/centroidal-momentum-derivative.hxx:102-119). -/
def rateJu {nk : ℕ} (active : Fin nk → Bool) (frame : Fin nk → Frame) (L : Centroidal.Layout nk nu)
    (d : MData nq nv Frame ndx nu) (i : Fin nk) : MData nq nv Frame ndx nu :=
  if active i then
    let Jtemp := Centroidal.jtemp (d.pin.oMf (frame i)).p d.pin.com
    let d := { d with Ju := setBlock d.Ju 0 (L.fs * i) (1 : Mat 3 3) }
    let d := { d with Ju := setBlock d.Ju 3 (L.fs * i) Jtemp }
    if L.fs = 6 then { d with Ju := setBlock d.Ju 3 (L.fs * i + 3) (1 : Mat 3 3) } else d
  else d

/-- `CentroidalMomentumDerivativeResidualTpl` (modelling/multibody/centroidal-momentum-derivative.hxx:33-132), for contact
forces that fit in the control.  The velocity is read (`x.tail`) but does not enter. -/
def momentumRate {nk : ℕ} (active : Fin nk → Bool) (frame : Fin nk → Frame) (L : Centroidal.Layout nk nu) (mass : ℝ)
    (grav : Vec 3) : Resid Unit nx ndx nu 6 where
  Data := MData nq nv Frame ndx nu
  base d := d.toFData
  new := { (Centroidal.FData.new : FData ndx nu 6) with pin := pin0 }
  evaluate _ x u d :=
    let q := head nq hq x
    let v := segment (nx - nv) nv (by omega) x
    let d := { d with pin := fk q d.pin }
    let d := { d with pin := centerOfMassV K q v d.pin }
    let d := { d with value := Centroidal.setSeg d.value 0 (mass • grav) }
    let d := { d with value := Centroidal.setSeg d.value 3 (0 : Vec 3) }
    (List.finRange nk).foldl (rateValue K active frame L u) d
  computeJacobians _ x u d :=
    let q := head nq hq x
    let d := { d with pin := jacobianCenterOfMass K q d.pin }
    let d := { d with pin := computeJointJacobians d.pin }
    let d := { d with Jx := 0 }
    let d := (List.finRange nk).foldl (rateJx K active frame L u) d
    let d := { d with Ju := 0 }
    (List.finRange nk).foldl (rateJu active frame L) d

end Aligator.MB
