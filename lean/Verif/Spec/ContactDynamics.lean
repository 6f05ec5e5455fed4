import Verif.Model.ContactDynamics
import Verif.Spec.Multibody

/-!
# Specification: what is expected of Pinocchio's dynamics algorithms; contact forces by constraint
-/

namespace Aligator.MB.Spec

open Matrix Aligator.Deriv

variable {r nq nv nc na nk nu : ℕ} {Frame S : Type}

/-- A function of configuration, velocity and torque has the partial derivatives `A`, `B`, `C`. -/
def DerivQVT (integ : Vec nq → Vec nv → Vec nq) (F : Vec nq → Vec nv → Vec nv → Vec r) (A B C : Mat r nv) (q : Vec nq)
    (v tau : Vec nv) : Prop :=
  IsJacobian (fun z : Vec (nv + nv + nv) => F (integ q (fst (fst z))) (v + snd (fst z)) (tau + snd z)) (beside (beside A B) C) 0

/-- The derivatives of the constrained dynamics, with the settings `s`, on the valid configurations `Q`. -/
structure DynLaw (D : Dyn nq nv nc S) (integ : Vec nq → Vec nv → Vec nq) (Q : Vec nq → Prop) (s : S) : Prop where
  integ_zero : ∀ q, Q q → integ q 0 = q
  ddq : ∀ q v tau, Q q →
    DerivQVT integ (D.ddq s) (D.ddqDq s q v tau) (D.ddqDv s q v tau) (D.ddqDtau s q v tau) q v tau
  lam : ∀ q v tau, Q q →
    DerivQVT integ (D.lam s) (D.lamDq s q v tau) (D.lamDv s q v tau) (D.lamDtau s q v tau) q v tau

/-- The derivatives of the forward dynamics without constraints; the derivative in the torque does not depend on velocity and
torque. -/
structure FreeLaw (A : Free nq nv) (integ : Vec nq → Vec nv → Vec nq) (Q : Vec nq → Prop) : Prop where
  integ_zero : ∀ q, Q q → integ q 0 = q
  aba : ∀ q v tau, Q q → DerivQVT integ A.aba (A.abaDq q v tau) (A.abaDv q v tau) (A.Minv q) q v tau

/-- The laws of the centroidal dynamics. -/
structure KinoLaw (K : Kino nq nv Frame) (integ : Vec nq → Vec nv → Vec nq) (Q : Vec nq → Prop) : Prop where
  integ_zero : ∀ q, Q q → integ q 0 = q
  place : ∀ f q, Q q → DerivQ integ (fun q => (K.place f q).p) (top (K.jac f .LOCAL_WORLD_ALIGNED q)) q
  unsupported : ∀ f q j, K.supports f j = false → ∀ i, K.jac f .LOCAL_WORLD_ALIGNED q i j = 0
  com : ∀ q, Q q → DerivQ integ K.com (K.Jcom q) q
  rate : ∀ q v a, Q q → DerivQV integ (fun q v => K.Ag q *ᵥ a + K.dAg q v *ᵥ v) (K.rateDq q v a) (K.rateDv q v a) q v

/-- The constraints: names and numbers of rows, in order.  The forces are stacked in this order. -/
abbrev Constraints := List (String × ℕ)

/-- The number of rows of all constraints. -/
def Constraints.size (cs : Constraints) : ℕ := (cs.map Prod.snd).sum

/-- The first row of the `k`th constraint. -/
def Constraints.start (cs : Constraints) (k : ℕ) : ℕ := ((cs.take k).map Prod.snd).sum

/-- `fs` coordinates of a vector from `s` on. -/
def part (fs : ℕ) (s : ℕ) (l : Vec nc) : Vec fs := fun c => Centroidal.Spec.get l (s + c)

/-- As `Right`, where the condition also depends on the control; and `bad`, a property of the data, does not hold after the
Jacobians have been computed. -/
def RightOn {P : Type} {nx ndx : ℕ} (f : Resid P nx ndx nu r) (X : Vec nx → Vec ndx → Vec nx)
    (ok : P → Vec nx → Vec nu → Prop) (bad : f.Data → Prop) (F : P → Vec nx → Vec nu → Vec r) : Prop :=
  ∀ (cs : List (Call P nx nu)) (p : P) (x : Vec nx) (u : Vec nu), ok p x u →
    let d := cs.foldl f.call f.new
    let e := f.evaluate p x u d
    let j := f.computeJacobians p x u e
    (f.base e).value = F p x u ∧ (f.base e).Jx = (f.base d).Jx ∧ (f.base e).Ju = (f.base d).Ju ∧
    (f.base j).value = F p x u ∧ ¬ bad j ∧
    Centroidal.Spec.IsJac (fun z w => F p (X x z) (u + w)) (f.base j).Jx (f.base j).Ju 0 0

end Aligator.MB.Spec
