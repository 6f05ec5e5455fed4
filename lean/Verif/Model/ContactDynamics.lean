import Verif.Model.Multibody
import Mathlib.LinearAlgebra.Matrix.Rank

/-!
# Model: residuals of contact forces; forward dynamics of multibody systems

Real arithmetic.  As in `Model/Multibody.lean`, Pinocchio's algorithms are functions of a structure, arbitrary here, and the
laws they are expected to obey are in `Spec/ContactDynamics.lean`.  The state is (configuration, velocity) and nothing else:
`nx = nq + nv`, `ndx = nv + nv`, as in `MultibodyPhaseSpace`.
-/

namespace Aligator.MB

open Matrix

variable {nu r nq nv nc na nk : ℕ} {Frame : Type} {S : Type}

/-! ### Constrained dynamics -/

/-- The functions that `pinocchio::constraintDynamics` and `pinocchio::computeConstraintDynamicsDerivatives` compute: the
acceleration and the stacked contact forces, and their derivatives.  `S`: proximal settings. -/
structure Dyn (nq nv nc : ℕ) (S : Type) where
  ddq : S → Vec nq → Vec nv → Vec nv → Vec nv
  ddqDq : S → Vec nq → Vec nv → Vec nv → Mat nv nv
  ddqDv : S → Vec nq → Vec nv → Vec nv → Mat nv nv
  ddqDtau : S → Vec nq → Vec nv → Vec nv → Mat nv nv
  lam : S → Vec nq → Vec nv → Vec nv → Vec nc
  lamDq : S → Vec nq → Vec nv → Vec nv → Mat nc nv
  lamDv : S → Vec nq → Vec nv → Vec nv → Mat nc nv
  lamDtau : S → Vec nq → Vec nv → Vec nv → Mat nc nv

/-- What the later calls read of `pinocchio::Data` after `constraintDynamics`: the point of the last call and the forces. -/
structure Sol (nq nv nc : ℕ) where
  q : Vec nq
  v : Vec nv
  tau : Vec nv
  lambda_c : Vec nc

/-- `constraintDynamics(model, data, q, v, tau, constraint_models, constraint_datas, settings)`. -/
def constraintDynamics (D : Dyn nq nv nc S) (s : S) (q : Vec nq) (v tau : Vec nv) : Sol nq nv nc := ⟨q, v, tau, D.lam s q v tau⟩

/-! ### Contact-force residuals -/

/-- The members of a contact-force residual that matter here (modelling/multibody/contact-force.hpp:35-41,
modelling/multibody/multibody-friction-cone.hpp:38-43, modelling/multibody/multibody-wrench-cone.hpp:38-45). -/
structure ContactModel (nv nu : ℕ) (S : Type) where
  actuation_matrix : Mat nv nu
  prox_settings : S
  contact_id : ℕ

/-- The loop of the constructors over the constraint models (modelling/multibody/contact-force.hpp:60-65); `none` is the
initial value -1. -/
def contactId (names : List String) (contact_name : String) : Option ℕ :=
  (List.range names.length).foldl (fun id i => if names[i]? = some contact_name then some i else id) none

/-- What the constructors throw (modelling/multibody/contact-force.hpp:55-69). -/
inductive CtorError
  | actuation
  | contactName
  deriving DecidableEq

/-- The constructors (modelling/multibody/contact-force.hpp:43-70, modelling/multibody/multibody-friction-cone.hpp:45-71,
modelling/multibody/multibody-wrench-cone.hpp:49-76), the same in all three; the actuation matrix comes with its number of
rows. -/
def contactCtor (nv : ℕ) {rows : ℕ} (actuation : Mat rows nu) (names : List String) (prox_settings : S)
    (contact_name : String) : Except CtorError (ContactModel nv nu S) :=
  if h : nv = rows then
    match contactId names contact_name with
    | none => .error .contactName
    | some i => .ok ⟨h ▸ actuation, prox_settings, i⟩
  else .error .actuation

/-- The settings in new data: default-constructed, whatever the settings of the model
(modelling/multibody/contact-force.hxx:46-68, contact-force.hpp:100; modelling/multibody/multibody-friction-cone.hxx:68-93,
multibody-friction-cone.hpp:102; modelling/multibody/multibody-wrench-cone.hxx:50-74, multibody-wrench-cone.hpp:117). -/
def dataSettings (dflt : S) (_ : ContactModel nv nu S) : S := dflt

/-- Data: buffers and the last solution (modelling/multibody/contact-force.hpp:86-103). -/
structure FoData (nq nv nc nu r : ℕ) extends Centroidal.FData (nv + nv) nu r where
  sol : Sol nq nv nc

/-- Rows `s`, …, `s + k - 1` of a matrix. -/
def rowsAt {n : ℕ} (s k : ℕ) (h : s + k ≤ nc) (M : Mat nc n) : Mat k n := fun i j => M ⟨s + i, by omega⟩ j

/-- `ContactForceResidualTpl` (modelling/multibody/contact-force.hxx:10-44), for a segment of the forces that is in range;
parameter: the reference. -/
def contactForce (D : Dyn nq nv nc S) (dflt : S) (m : ContactModel nv nu S) (sol0 : Sol nq nv nc) (fs : ℕ)
    (h : m.contact_id * fs + fs ≤ nc) : Resid (Vec fs) (nq + nv) (nv + nv) nu fs where
  Data := FoData nq nv nc nu fs
  base d := d.toFData
  new := { (Centroidal.FData.new : FData (nv + nv) nu fs) with sol := sol0 }
  evaluate p x u d :=
    let q := head nq (by omega) x
    let v := segment nq nv (by omega) x
    let tau := m.actuation_matrix *ᵥ u
    let d := { d with sol := constraintDynamics D (dataSettings dflt m) q v tau }
    { d with value := segment (m.contact_id * fs) fs h d.sol.lambda_c - p }
  computeJacobians _ _ _ d :=
    let s := dataSettings dflt m
    let d := { d with Jx := setBlock d.Jx 0 0 (rowsAt (m.contact_id * fs) fs h (D.lamDq s d.sol.q d.sol.v d.sol.tau)) }
    let d := { d with Jx := setBlock d.Jx 0 nv (rowsAt (m.contact_id * fs) fs h (D.lamDv s d.sol.q d.sol.v d.sol.tau)) }
    { d with Ju := rowsAt (m.contact_id * fs) fs h (D.lamDtau s d.sol.q d.sol.v d.sol.tau) * m.actuation_matrix }

/-- Data of the friction cone.  `nan`: the last Jacobian has a zero divided by zero in it. -/
structure FrData (nq nv nc nu : ℕ) extends FoData nq nv nc nu 2 where
  nan : Prop

/-- `MultibodyFrictionConeResidualTpl` (modelling/multibody/multibody-friction-cone.hxx:10-66), for a contact in range.  With a
zero tangential force, the quotients are not numbers: then `nan`. -/
noncomputable def frictionConeMB (D : Dyn nq nv nc S) (dflt : S) (m : ContactModel nv nu S) (mu : ℝ) (sol0 : Sol nq nv nc)
    (h : m.contact_id * 3 + 3 ≤ nc) : Resid Unit (nq + nv) (nv + nv) nu 2 where
  Data := FrData nq nv nc nu
  base d := d.toFData
  new := { (Centroidal.FData.new : FData (nv + nv) nu 2) with sol := sol0, nan := False }
  evaluate _ x u d :=
    let q := head nq (by omega) x
    let v := segment nq nv (by omega) x
    let tau := m.actuation_matrix *ᵥ u
    let d := { d with sol := constraintDynamics D (dataSettings dflt m) q v tau }
    let l0 := d.sol.lambda_c ⟨m.contact_id * 3, by omega⟩
    let l1 := d.sol.lambda_c ⟨m.contact_id * 3 + 1, by omega⟩
    let l2 := d.sol.lambda_c ⟨m.contact_id * 3 + 2, by omega⟩
    { d with value := ![-l2, -mu * l2 + Real.sqrt (l0 ^ 2 + l1 ^ 2)] }
  computeJacobians _ _ _ d :=
    let s := dataSettings dflt m
    let l0 := d.sol.lambda_c ⟨m.contact_id * 3, by omega⟩
    let l1 := d.sol.lambda_c ⟨m.contact_id * 3 + 1, by omega⟩
    let lq := rowsAt (m.contact_id * 3) 3 h (D.lamDq s d.sol.q d.sol.v d.sol.tau)
    let lv := rowsAt (m.contact_id * 3) 3 h (D.lamDv s d.sol.q d.sol.v d.sol.tau)
    let temp := rowsAt (m.contact_id * 3) 3 h (D.lamDtau s d.sol.q d.sol.v d.sol.tau) * m.actuation_matrix
    let dcone : Mat 1 3 := !![l0 / Real.sqrt (l0 ^ 2 + l1 ^ 2), l1 / Real.sqrt (l0 ^ 2 + l1 ^ 2), -mu]
    let d := { d with nan := Real.sqrt (l0 ^ 2 + l1 ^ 2) = 0 }
    let d := { d with Jx := setBlock d.Jx 0 0 (fun (_ : Fin 1) j => -lq 2 j) }
    let d := { d with Jx := setBlock d.Jx 0 nv (fun (_ : Fin 1) j => -lv 2 j) }
    let d := { d with Ju := setBlock d.Ju 0 0 (fun (_ : Fin 1) j => -temp 2 j) }
    let d := { d with Jx := setBlock d.Jx 1 0 (dcone * lq) }
    let d := { d with Jx := setBlock d.Jx 1 nv (dcone * lv) }
    { d with Ju := setBlock d.Ju 1 0 (dcone * temp) }

/-- `Acone_` (modelling/multibody/multibody-wrench-cone.hpp:77-85). -/
def acone (mu hL hW : ℝ) : Mat 17 6 :=
  !![0, 0, -1, 0, 0, 0;
     -1, 0, -mu, 0, 0, 0;
     1, 0, -mu, 0, 0, 0;
     0, -1, -mu, 0, 0, 0;
     0, 1, -mu, 0, 0, 0;
     0, 0, -hW, -1, 0, 0;
     0, 0, -hW, 1, 0, 0;
     0, 0, -hL, 0, -1, 0;
     0, 0, -hL, 0, 1, 0;
     -hW, -hL, -(hL + hW) * mu, mu, mu, -1;
     -hW, hL, -(hL + hW) * mu, mu, -mu, -1;
     hW, -hL, -(hL + hW) * mu, -mu, mu, -1;
     hW, hL, -(hL + hW) * mu, -mu, -mu, -1;
     hW, hL, -(hL + hW) * mu, mu, mu, 1;
     hW, -hL, -(hL + hW) * mu, mu, -mu, 1;
     -hW, hL, -(hL + hW) * mu, -mu, mu, 1;
     -hW, -hL, -(hL + hW) * mu, -mu, -mu, 1]

/-- `MultibodyWrenchConeResidualTpl` (modelling/multibody/multibody-wrench-cone.hxx:10-48), for a contact in range. -/
def wrenchConeMB (D : Dyn nq nv nc S) (dflt : S) (m : ContactModel nv nu S) (mu hL hW : ℝ) (sol0 : Sol nq nv nc)
    (h : m.contact_id * 6 + 6 ≤ nc) : Resid Unit (nq + nv) (nv + nv) nu 17 where
  Data := FoData nq nv nc nu 17
  base d := d.toFData
  new := { (Centroidal.FData.new : FData (nv + nv) nu 17) with sol := sol0 }
  evaluate _ x u d :=
    let q := head nq (by omega) x
    let v := segment nq nv (by omega) x
    let tau := m.actuation_matrix *ᵥ u
    let d := { d with sol := constraintDynamics D (dataSettings dflt m) q v tau }
    { d with value := acone mu hL hW *ᵥ segment (m.contact_id * 6) 6 h d.sol.lambda_c }
  computeJacobians _ _ _ d :=
    let s := dataSettings dflt m
    let lq := rowsAt (m.contact_id * 6) 6 h (D.lamDq s d.sol.q d.sol.v d.sol.tau)
    let lv := rowsAt (m.contact_id * 6) 6 h (D.lamDv s d.sol.q d.sol.v d.sol.tau)
    let d := { d with Jx := setBlock d.Jx 0 0 (acone mu hL hW * lq) }
    let d := { d with Jx := setBlock d.Jx 0 nv (acone mu hL hW * lv) }
    let temp := rowsAt (m.contact_id * 6) 6 h (D.lamDtau s d.sol.q d.sol.v d.sol.tau) * m.actuation_matrix
    { d with Ju := acone mu hL hW * temp }

/-! ### Forward dynamics

An ODE is modelled like a residual: `evaluate` is `forward`, the value is `xdot_`, `computeJacobians` is `dForward`. -/

/-- The test of the constructors (modelling/dynamics/multibody-free-fwd.hxx:20-26,
modelling/dynamics/multibody-constraint-fwd.hxx:21-27); `none`: exception. -/
def actuationCtor (nv : ℕ) {rows : ℕ} (actuation : Mat rows nu) : Option (Mat nv nu) :=
  if h : nv = rows then some (h ▸ actuation) else none

/-- The functions computed by `pinocchio::aba` and `pinocchio::computeABADerivatives`. -/
structure Free (nq nv : ℕ) where
  aba : Vec nq → Vec nv → Vec nv → Vec nv
  abaDq : Vec nq → Vec nv → Vec nv → Mat nv nv
  abaDv : Vec nq → Vec nv → Vec nv → Mat nv nv
  Minv : Vec nq → Mat nv nv

/-- Data (modelling/dynamics/multibody-free-fwd.hpp:69-80). -/
structure FreeData (nv nu : ℕ) extends Centroidal.FData (nv + nv) nu (nv + nv) where
  tau : Vec nv
  dtau_du : Mat nv nu

/-- `MultibodyFreeFwdDynamicsTpl` (modelling/dynamics/multibody-free-fwd.hxx:37-91).  The derivatives are taken at the state
given and at the torque of the last call of `forward`. -/
def freeFwd (A : Free nq nv) (act : Mat nv nu) : Resid Unit (nq + nv) (nv + nv) nu (nv + nv) where
  Data := FreeData nv nu
  base d := d.toFData
  new :=
    let d : FreeData nv nu := { (Centroidal.FData.new : FData (nv + nv) nu (nv + nv)) with tau := 0, dtau_du := act }
    { d with Jx := setBlock d.Jx 0 nv (1 : Mat nv nv) }
  evaluate _ x u d :=
    let d := { d with tau := act *ᵥ u }
    let q := head nq (by omega) x
    let v := segment nq nv (by omega) x
    let d := { d with value := Centroidal.setSeg d.value 0 v }
    { d with value := Centroidal.setSeg d.value nv (A.aba q v d.tau) }
  computeJacobians _ x _ d :=
    let q := head nq (by omega) x
    let v := segment nq nv (by omega) x
    let d := { d with Jx := setBlock d.Jx nv 0 (A.abaDq q v d.tau) }
    let d := { d with Jx := setBlock d.Jx nv nv (A.abaDv q v d.tau) }
    { d with Ju := setBlock d.Ju nv 0 (A.Minv q * d.dtau_du) }

/-- `isUnderactuated()` (modelling/dynamics/multibody-free-fwd.hpp:50-53), the rank being exact. -/
noncomputable def isUnderactuated (act : Mat nv nu) : Prop := Matrix.rank act < nv

/-- Data (modelling/dynamics/multibody-constraint-fwd.hpp:63-84). -/
structure ConsData (nq nv nc nu : ℕ) extends Centroidal.FData (nv + nv) nu (nv + nv) where
  dtau_du : Mat nv nu
  sol : Sol nq nv nc

/-- The settings in new data: those of the model (modelling/dynamics/multibody-constraint-fwd.hxx:74-82). -/
def consSettings (prox_settings : S) : S := prox_settings

/-- `MultibodyConstraintFwdDynamicsTpl` (modelling/dynamics/multibody-constraint-fwd.hxx:30-100). -/
def constraintFwd (D : Dyn nq nv nc S) (act : Mat nv nu) (prox_settings : S) (sol0 : Sol nq nv nc) :
    Resid Unit (nq + nv) (nv + nv) nu (nv + nv) where
  Data := ConsData nq nv nc nu
  base d := d.toFData
  new :=
    let d : ConsData nq nv nc nu := { (Centroidal.FData.new : FData (nv + nv) nu (nv + nv)) with dtau_du := act, sol := sol0 }
    { d with Jx := setBlock d.Jx 0 nv (1 : Mat nv nv) }
  evaluate _ x u d :=
    let tau := act *ᵥ u
    let q := head nq (by omega) x
    let v := segment nq nv (by omega) x
    let d := { d with value := Centroidal.setSeg d.value 0 v }
    let d := { d with sol := constraintDynamics D (consSettings prox_settings) q v tau }
    { d with value := Centroidal.setSeg d.value nv (D.ddq (consSettings prox_settings) q v tau) }
  computeJacobians _ _ _ d :=
    let s := consSettings prox_settings
    let d := { d with Jx := setBlock d.Jx nv 0 (D.ddqDq s d.sol.q d.sol.v d.sol.tau) }
    let d := { d with Jx := setBlock d.Jx nv nv (D.ddqDv s d.sol.q d.sol.v d.sol.tau) }
    { d with Ju := setBlock d.Ju nv 0 (D.ddqDtau s d.sol.q d.sol.v d.sol.tau * d.dtau_du) }

/-! ### Kinodynamics -/

/-- What the kinodynamics need beyond `Pin`: the time derivative of the centroidal momentum matrix, and the derivatives of the
rate of the centroidal momentum, as functions of configuration, velocity and acceleration
(`pinocchio::computeCentroidalDynamicsDerivatives`). -/
structure Kino (nq nv : ℕ) (Frame : Type) extends Pin nq nv Frame where
  dAg : Vec nq → Vec nv → Mat 6 nv
  rateDq : Vec nq → Vec nv → Vec nv → Mat 6 nv
  rateDv : Vec nq → Vec nv → Vec nv → Mat 6 nv

/-- Data (modelling/dynamics/kinodynamics-fwd.hpp:71-99): the buffers that are read before they are written again. -/
structure KinoData (nq nv : ℕ) (Frame : Type) (nu : ℕ) extends Centroidal.FData (nv + nv) nu (nv + nv) where
  pin : PinData nq nv Frame
  dAg : Mat 6 nv
  cforces : Vec 6
  Agu_inv : Mat 6 6

/-- `dccrba(model, data, q, v)`. -/
def dccrba (K : Kino nq nv Frame) (q : Vec nq) (v : Vec nv) (d : KinoData nq nv Frame nu) : KinoData nq nv Frame nu :=
  { d with pin := { d.pin with q := q, v := v, Ag := K.Ag q }, dAg := K.dAg q v }

/-- `computeCentroidalDynamicsDerivatives(model, data, q, v, a, …)`: its effect on the data. -/
def centroidalDerivatives (K : Pin nq nv Frame) (q : Vec nq) (v : Vec nv) (d : PinData nq nv Frame) : PinData nq nv Frame :=
  { d with q := q, v := v, jq := q, com := K.com q }

/-- `M.leftCols(6)` of a matrix with `6 + na` columns. -/
def leftSix (M : Mat 6 (6 + na)) : Mat 6 6 := fun i j => M i (Fin.castAdd na j)

/-- `M.rightCols(nv - 6)`. -/
def rightRest (M : Mat 6 (6 + na)) : Mat 6 na := fun i j => M i (Fin.natAdd 6 j)

/-- `M.leftCols<3>()` of a matrix with six columns. -/
def leftThree (M : Mat 6 6) : Mat 6 3 := fun i j => M i (Fin.castAdd 3 j)

/-- `M.rightCols<3>()` of a matrix with six columns. -/
def rightThree (M : Mat 6 6) : Mat 6 3 := fun i j => M i (Fin.natAdd 3 j)

/-- One contact in `forward` (modelling/dynamics/kinodynamics-fwd.hxx:58-86). -/
def kinoForce [DecidableEq Frame] (K : Pin nq nv Frame) (active : Fin nk → Bool) (frame : Fin nk → Frame)
    (L : Centroidal.Layout nk nu) (u : Vec nu) (d : KinoData nq nv Frame nu) (i : Fin nk) : KinoData nq nv Frame nu :=
  if active i then
    let d := { d with pin := updateFramePlacement K (frame i) d.pin }
    let d := { d with cforces := Centroidal.addSeg d.cforces 0 (L.force u i) }
    let d := { d with cforces :=
      Centroidal.addSeg d.cforces 3 (Centroidal.crossTerm (d.pin.oMf (frame i)).p d.pin.com (L.force u i)) }
    if h : L.fs = 6 then { d with cforces := Centroidal.addSeg d.cforces 3 (L.moment h u i) } else d
  else d

/-- One contact in the state Jacobian (modelling/dynamics/kinodynamics-fwd.hxx:115-132); `fJf_` is zeroed first. -/
def kinoJx (K : Pin nq nv Frame) (active : Fin nk → Bool) (frame : Fin nk → Frame) (L : Centroidal.Layout nk nu) (u : Vec nu)
    (d : KinoData nq nv Frame nu) (i : Fin nk) : KinoData nq nv Frame nu :=
  if active i then
    let fJf := getFrameJacobian K (frame i) .LOCAL_WORLD_ALIGNED d.pin 0
    let Jtemp := skew (L.force u i)
    let temp1 := rightThree d.Agu_inv * Jtemp
    let temp2 := d.pin.Jcom - top fJf
    { d with Jx := d.Jx + setBlock 0 nv 0 (temp1 * temp2) }
  else d

/-- One contact in the control Jacobian (modelling/dynamics/kinodynamics-fwd.hxx:170-190). -/
def kinoJu (active : Fin nk → Bool) (frame : Fin nk → Frame) (L : Centroidal.Layout nk nu)
    (d : KinoData nq nv Frame nu) (i : Fin nk) : KinoData nq nv Frame nu :=
  if active i then
    let Jtemp := Centroidal.jtemp (d.pin.oMf (frame i)).p d.pin.com
    let d := { d with Ju := setBlock d.Ju nv (L.fs * i) (leftThree d.Agu_inv) }
    let d := { d with Ju := d.Ju + setBlock 0 nv (L.fs * i) (rightThree d.Agu_inv * Jtemp) }
    if L.fs = 6 then { d with Ju := d.Ju + setBlock 0 nv (L.fs * i + 3) (rightThree d.Agu_inv) } else d
  else d

/-- `KinodynamicsFwdDynamicsTpl` (modelling/dynamics/kinodynamics-fwd.hxx:18-238), for a model with `6 + na` velocities; the
control is the contact forces followed by `na` joint accelerations (:23).  `inv`: what `PartialPivLU` computes as the
inverse.  `v0_` stays zero (:233). -/
def kinodynamics [DecidableEq Frame] (K : Kino nq (6 + na) Frame) (inv : Mat 6 6 → Mat 6 6) (pin0 : PinData nq (6 + na) Frame)
    (active : Fin nk → Bool) (frame : Fin nk → Frame) (fs : ℕ) (h3 : 3 ≤ fs) (mass : ℝ) (gravity : Vec 3) :
    Resid Unit (nq + (6 + na)) ((6 + na) + (6 + na)) (nk * fs + na) ((6 + na) + (6 + na)) where
  Data := KinoData nq (6 + na) Frame (nk * fs + na)
  base d := d.toFData
  new :=
    let d : KinoData nq (6 + na) Frame (nk * fs + na) :=
      { (Centroidal.FData.new : FData ((6 + na) + (6 + na)) (nk * fs + na) ((6 + na) + (6 + na))) with
        pin := pin0, dAg := 0, cforces := 0, Agu_inv := 0 }
    let d := { d with Jx := setBlock d.Jx 0 (6 + na) (1 : Mat (6 + na) (6 + na)) }
    { d with Ju := setBlock d.Ju (6 + na + 6) (nk * fs) (1 : Mat na na) }
  evaluate _ x u d :=
    let q := head nq (by omega) x
    let v := segment nq (6 + na) (by omega) x
    let a := segment (nk * fs) na (by omega) u
    let d := { d with pin := ccrba K.toPin q v d.pin }
    let d := dccrba K q v d
    let d := { d with pin := fk q d.pin }
    let d := { d with pin := centerOfMassV K.toPin q v d.pin }
    let d := { d with Agu_inv := inv (leftSix d.pin.Ag) }
    let d := { d with cforces := 0 }
    let d := { d with cforces := Centroidal.setSeg d.cforces 0 (mass • gravity) }
    let d := (List.finRange nk).foldl (kinoForce K.toPin active frame ⟨fs, h3, by omega⟩ u) d
    let d := { d with value :=
      Centroidal.setSeg d.value (6 + na) (d.Agu_inv *ᵥ (d.cforces - d.dAg *ᵥ v - rightRest d.pin.Ag *ᵥ a)) }
    let d := { d with value := Centroidal.setSeg d.value 0 v }
    { d with value := Centroidal.setSeg d.value (6 + na + 6) a }
  computeJacobians _ x u d :=
    let q := head nq (by omega) x
    let v := segment nq (6 + na) (by omega) x
    let a := segment (nk * fs) na (by omega) u
    let d := { d with pin := centerOfMassV K.toPin q v d.pin }
    let d := { d with pin := jacobianCenterOfMass K.toPin q d.pin }
    let d := { d with pin := computeJointJacobians d.pin }
    let d := { d with Jx := setBlock d.Jx (6 + na) 0 (0 : Mat 6 (6 + na)) }
    let d := (List.finRange nk).foldl (kinoJx K.toPin active frame ⟨fs, h3, by omega⟩ u) d
    let a0 : Vec (6 + na) := Fin.append 0 a
    let d := { d with pin := centroidalDerivatives K.toPin q 0 d.pin }
    let d := { d with Jx := d.Jx - setBlock 0 (6 + na) 0 (d.Agu_inv * K.rateDq q 0 a0) }
    let d := { d with pin := centroidalDerivatives K.toPin q v d.pin }
    let d := { d with Jx := d.Jx - setBlock 0 (6 + na) 0 (d.Agu_inv * K.rateDq q v 0) }
    let d := { d with Jx := setBlock d.Jx (6 + na) (6 + na) (-d.Agu_inv * K.rateDv q v 0) }
    let a0 : Vec (6 + na) := Fin.append (segment (6 + na) 6 (by omega) d.value) 0
    let d := { d with pin := centroidalDerivatives K.toPin q 0 d.pin }
    let d := { d with Jx := d.Jx - setBlock 0 (6 + na) 0 (d.Agu_inv * K.rateDq q 0 a0) }
    let d := { d with Ju := setBlock d.Ju (6 + na) 0 (0 : Mat 6 (nk * fs + na)) }
    let d := (List.finRange nk).foldl (kinoJu active frame ⟨fs, h3, by omega⟩) d
    { d with Ju := setBlock d.Ju (6 + na) (nk * fs) (-d.Agu_inv * rightRest d.pin.Ag) }

end Aligator.MB
