import Verif.Model.Multibody
import Verif.Spec.Centroidal

/-!
# Specification: what is expected of Pinocchio, and of residuals on rigid-body states

States are vectors `x` whose first `nq` coordinates are a configuration, followed by `nv` velocities, possibly followed by
more.  Configurations are moved by tangent vectors (`integ`).  Derivatives are taken in the tangent vector, at zero.
-/

namespace Aligator.MB.Spec

open Matrix Aligator.Deriv

variable {nx ndx nu r nq nv : ℕ} {Frame : Type}

/-- A family of rigid transformations moves, at `z`, with the body velocity `J w` (linear, angular) in direction `w`. -/
structure IsBodyJac {n : ℕ} (M : Vec n → SE3) (J : Mat 6 n) (z : Vec n) : Prop where
  trans : IsJacobian (fun w => (M w).p) ((M z).R * top J) z
  rot : ∀ a : Vec 3, IsJacobian (fun w => (M w).R *ᵥ a) (-((M z).R * skew a * bot J)) z

/-- Rotation matrices. -/
def IsRotation (R : Mat 3 3) : Prop := R * Rᵀ = 1 ∧ R.det = 1

/-- Two matrices side by side. -/
def beside {a b : ℕ} (A : Mat r a) (B : Mat r b) : Mat r (a + b) := fun i => Fin.append (A i) (B i)

/-- A function of the configuration has the derivative `A`. -/
def DerivQ (integ : Vec nq → Vec nv → Vec nq) (F : Vec nq → Vec r) (A : Mat r nv) (q : Vec nq) : Prop :=
  IsJacobian (fun w => F (integ q w)) A 0

/-- A function of configuration and velocity has the partial derivatives `A`, `B`. -/
def DerivQV (integ : Vec nq → Vec nv → Vec nq) (F : Vec nq → Vec nv → Vec r) (A B : Mat r nv) (q : Vec nq) (v : Vec nv) :
    Prop :=
  IsJacobian (stacked fun w e => F (integ q w) (v + e)) (beside A B) 0

/-- The laws of rigid-body kinematics, on the valid configurations `Q` (unit quaternions, say). -/
structure Lawful (K : Pin nq nv Frame) (integ : Vec nq → Vec nv → Vec nq) (Q : Vec nq → Prop) : Prop where
  integ_zero : ∀ q, Q q → integ q 0 = q
  rotation : ∀ f q, Q q → IsRotation (K.place f q).R
  place : ∀ f q, Q q → IsBodyJac (fun w => K.place f (integ q w)) (K.jac f .LOCAL q) 0
  lwa : ∀ f q, Q q → K.jac f .LOCAL_WORLD_ALIGNED q = six (K.place f q).R 0 0 (K.place f q).R * K.jac f .LOCAL q
  world : ∀ f q, Q q → K.jac f .WORLD q =
    six (K.place f q).R (skew (K.place f q).p * (K.place f q).R) 0 (K.place f q).R * K.jac f .LOCAL q
  unsupported : ∀ f ref q v j, K.supports f j = false →
    (∀ i, K.jac f ref q i j = 0) ∧ (∀ i, K.velDq f ref q v i j = 0) ∧ ∀ i, K.velDv f ref q v i j = 0
  vel : ∀ f ref q v, Q q → DerivQV integ (K.vel f ref) (K.velDq f ref q v) (K.velDv f ref q v) q v
  velDv : ∀ f ref q v, Q q → K.velDv f ref q v = K.jac f ref q
  vel_lwa : ∀ f q v, K.vel f .LOCAL_WORLD_ALIGNED q v = six (K.place f q).R 0 0 (K.place f q).R *ᵥ K.vel f .LOCAL q v
  com : ∀ q, Q q → DerivQ integ K.com (K.Jcom q) q
  vcom : ∀ q v, Q q → DerivQV integ K.vcom (K.vcomDq q v) (K.Jcom q) q v
  momentum : ∀ q v, Q q → DerivQV integ (fun q v => K.Ag q *ᵥ v) (K.hDq q v) (K.Ag q) q v
  gravity : ∀ q, Q q → DerivQ integ K.gravity (K.gravityDq q) q
  unrelated : ∀ q i j, K.related i j = false → K.gravityDq q i j = 0

/-- `Jlog6` is the derivative of `log6` at `M`: of its composition with any family of transformations through `M`. -/
def LogLaw (K : Pin nq nv Frame) (M : SE3) : Prop :=
  ∀ (n : ℕ) (c : Vec n → SE3) (J : Mat 6 n) (z : Vec n), c z = M → IsBodyJac c J z →
    IsJacobian (fun w => K.log6 (c w)) (K.Jlog6 M * J) z

/-- The derivative of the distance between two bodies: the normal against the relative velocity of the nearest points, as
points fixed to their bodies.  `A1`, `A2`: the Jacobians of these points. -/
def DistLaw (K : Pin nq nv Frame) (integ : Vec nq → Vec nv → Vec nq) (f1 f2 : Frame) (q : Vec nq) : Prop :=
  ∀ (s1 s2 : Vec 3) (A1 A2 : Mat 3 nv),
    (K.place f1 q).R *ᵥ s1 + (K.place f1 q).p = K.near1 q → (K.place f2 q).R *ᵥ s2 + (K.place f2 q).p = K.near2 q →
    DerivQ integ (fun q => (K.place f1 q).R *ᵥ s1 + (K.place f1 q).p) A1 q →
    DerivQ integ (fun q => (K.place f2 q).R *ᵥ s2 + (K.place f2 q).p) A2 q →
    DerivQ integ (fun q => fun _ : Fin 1 => K.dist q) (fun _ => K.normal q ᵥ* (A2 - A1)) q

/-- The state moves its configuration by the first `nv` coordinates of a tangent vector. -/
def MovesConfig (integ : Vec nq → Vec nv → Vec nq) (X : Vec nx → Vec ndx → Vec nx) (hq : nq ≤ nx) (hv : nv ≤ ndx) : Prop :=
  ∀ x z, head nq hq (X x z) = integ (head nq hq x) (head nv hv z)

/-- The state adds the next `nv` coordinates of a tangent vector to its velocity. -/
def MovesVelocity (X : Vec nx → Vec ndx → Vec nx) (hqv : nq + nv ≤ nx) (hvv : nv + nv ≤ ndx) : Prop :=
  ∀ x z, segment nq nv hqv (X x z) = segment nq nv hqv x + segment nv nv hvv z

/-- A residual is right: after any history of calls with compatible parameters, evaluating it gives the value of `F`,
touching no Jacobian, and computing the Jacobians then gives those of `F`, in tangent vector and control. -/
def Right {P : Type} (f : Resid P nx ndx nu r) (X : Vec nx → Vec ndx → Vec nx) (ok : P → Vec nx → Prop) (compat : P → P → Prop)
    (F : P → Vec nx → Vec nu → Vec r) : Prop :=
  ∀ (cs : List (Call P nx nu)) (p : P) (x : Vec nx) (u : Vec nu), ok p x → (∀ c ∈ cs, compat c.param p) →
    let d := cs.foldl f.call f.new
    let e := f.evaluate p x u d
    let j := f.computeJacobians p x u e
    (f.base e).value = F p x u ∧ (f.base e).Jx = (f.base d).Jx ∧ (f.base e).Ju = (f.base d).Ju ∧
    (f.base j).value = F p x u ∧
    Centroidal.Spec.IsJac (fun z w => F p (X x z) (u + w)) (f.base j).Jx (f.base j).Ju 0 0

end Aligator.MB.Spec
