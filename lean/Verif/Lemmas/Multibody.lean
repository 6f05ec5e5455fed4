import Verif.Spec.Multibody
import Verif.Lemmas.Centroidal
import Mathlib.LinearAlgebra.Matrix.Determinant.Basic
import Mathlib.LinearAlgebra.Matrix.NonsingularInverse
import Mathlib.Tactic.FinCases
import Mathlib.Tactic.Linarith

/-!
# Lemmas: rigid transformations, block writes, tangent Jacobians
-/

namespace Aligator.MB

open Matrix Aligator.Deriv Aligator.Centroidal

variable {nx ndx nu r nq nv n k : ℕ} {Frame : Type}

/-! ### Cross products and rotations -/

theorem skew_add (a b : Vec 3) : skew (a + b) = skew a + skew b := by
  ext i j; fin_cases i <;> fin_cases j <;> simp [skew] <;> ring

theorem skew_smul (c : ℝ) (a : Vec 3) : skew (c • a) = c • skew a := by
  ext i j; fin_cases i <;> fin_cases j <;> simp [skew]

theorem skew_neg (a : Vec 3) : skew (-a) = -skew a := by
  ext i j; fin_cases i <;> fin_cases j <;> simp [skew]

theorem skew_zero : skew 0 = 0 := by
  ext i j; fin_cases i <;> fin_cases j <;> simp [skew]

theorem skew_mulVec (a b : Vec 3) : skew a *ᵥ b = a ⨯₃ b := by
  rw [cross_apply]
  funext i
  fin_cases i <;> simp [skew, Matrix.mulVec, dotProduct, Fin.sum_univ_three] <;> ring

theorem skew_transpose (a : Vec 3) : (skew a)ᵀ = -skew a := by
  ext i j; fin_cases i <;> fin_cases j <;> simp [skew]

theorem skew_congr (M : Mat 3 3) (a : Vec 3) : Mᵀ * skew (M *ᵥ a) * M = M.det • skew a := by
  ext i j
  fin_cases i <;> fin_cases j <;>
    simp [skew, Matrix.mul_apply, Matrix.mulVec, dotProduct, Fin.sum_univ_three, Matrix.det_fin_three] <;> ring

theorem Spec.IsRotation.left {R : Mat 3 3} (h : Spec.IsRotation R) : Rᵀ * R = 1 := mul_eq_one_comm.1 h.1

theorem Spec.IsRotation.transpose {R : Mat 3 3} (h : Spec.IsRotation R) : Spec.IsRotation Rᵀ :=
  ⟨by rw [Matrix.transpose_transpose]; exact h.left, by rw [Matrix.det_transpose]; exact h.2⟩

theorem Spec.IsRotation.skew {R : Mat 3 3} (h : Spec.IsRotation R) (a : Vec 3) : MB.skew (R *ᵥ a) = R * MB.skew a * Rᵀ := by
  have e := skew_congr R a
  rw [h.2, one_smul] at e
  rw [← e, show R * (Rᵀ * MB.skew (R *ᵥ a) * R) * Rᵀ = (R * Rᵀ) * MB.skew (R *ᵥ a) * (R * Rᵀ) by simp only [Matrix.mul_assoc],
    h.1, one_mul, mul_one]

/-! ### Six rows -/

theorem ext6 {A B : Mat 6 n} (h1 : top A = top B) (h2 : bot A = bot B) : A = B := by
  funext i
  refine Fin.addCases (m := 3) (n := 3) (fun a => ?_) (fun b => ?_) i
  · funext j; exact congrFun (congrFun h1 a) j
  · funext j; exact congrFun (congrFun h2 b) j

theorem top_six_mul (A B C D : Mat 3 3) (J : Mat 6 n) : top (six A B C D * J) = A * top J + B * bot J := by
  funext i j
  simp only [top, bot, Matrix.mul_apply, Matrix.add_apply]
  rw [Fin.sum_univ_add (a := 3) (b := 3)]
  simp [-Fin.natAdd_eq_addNat, six]

theorem bot_six_mul (A B C D : Mat 3 3) (J : Mat 6 n) : bot (six A B C D * J) = C * top J + D * bot J := by
  funext i j
  simp only [top, bot, Matrix.mul_apply, Matrix.add_apply]
  rw [Fin.sum_univ_add (a := 3) (b := 3)]
  simp [-Fin.natAdd_eq_addNat, six]

theorem top_sub (A B : Mat 6 n) : top (A - B) = top A - top B := rfl

theorem bot_sub (A B : Mat 6 n) : bot (A - B) = bot A - bot B := rfl

theorem top_mul (A : Mat 6 n) (B : Mat n k) : top (A * B) = top A * B := by
  funext i j; simp [top, Matrix.mul_apply]

theorem bot_mul (A : Mat 6 n) (B : Mat n k) : bot (A * B) = bot A * B := by
  funext i j; simp [bot, Matrix.mul_apply]

/-- The linear part of a velocity. -/
def lin (w : Vec 6) : Vec 3 := fun i => w (Fin.castAdd 3 i)

/-- The first two rows. -/
def two {n : ℕ} (M : Mat 3 n) : Mat 2 n := fun i j => M (Fin.castLE (by decide) i) j

/-! ### Derivatives of rigid transformations -/

open Spec Centroidal.Spec

/-- The entries of the rotation. -/
theorem Spec.IsBodyJac.entry {M : Vec n → SE3} {J : Mat 6 n} {z : Vec n} (h : IsBodyJac M J z) (c i : Fin 3) :
    IsGradient (fun w => (M w).R c i) ((-((M z).R * MB.skew (Pi.single i 1) * bot J)) c) z := by
  have := h.rot (Pi.single i 1) c
  simpa using this

/-- A rotation applied to a moving vector. -/
theorem Spec.IsBodyJac.mulVec {M : Vec n → SE3} {J : Mat 6 n} {z : Vec n} (h : IsBodyJac M J z) {b : Vec n → Vec 3}
    {B : Mat 3 n} (hb : IsJacobian b B z) :
    IsJacobian (fun w => (M w).R *ᵥ b w) (-((M z).R * MB.skew (b z) * bot J) + (M z).R * B) z := by
  intro i
  refine (IsGradient.sum Finset.univ fun c _ => (h.entry i c).mul (hb c)).congr ?_
  funext l
  simp only [Finset.sum_apply, Pi.add_apply, Pi.smul_apply, smul_eq_mul, Fin.sum_univ_three, Matrix.add_apply,
    Matrix.neg_apply, Matrix.mul_apply]
  simp [MB.skew]
  ring

/-- An inverse rotation applied to a moving vector. -/
theorem Spec.IsBodyJac.transpose_mulVec {M : Vec n → SE3} {J : Mat 6 n} {z : Vec n} (h : IsBodyJac M J z) {b : Vec n → Vec 3}
    {B : Mat 3 n} (hb : IsJacobian b B z) :
    IsJacobian (fun w => (M w).Rᵀ *ᵥ b w) (MB.skew ((M z).Rᵀ *ᵥ b z) * bot J + (M z).Rᵀ * B) z := by
  intro i
  refine (IsGradient.sum Finset.univ fun c _ => (h.entry c i).mul (hb c)).congr ?_
  funext l
  simp only [Finset.sum_apply, Pi.add_apply, Pi.smul_apply, smul_eq_mul, Fin.sum_univ_three, Matrix.add_apply,
    Matrix.neg_apply, Matrix.mul_apply, Matrix.transpose_apply, Matrix.mulVec, dotProduct]
  fin_cases i <;> simp [MB.skew, Matrix.mulVec, dotProduct, Fin.sum_univ_three] <;> ring

theorem Spec.IsBodyJac.congr {M : Vec n → SE3} {J J' : Mat 6 n} {z : Vec n} (h : IsBodyJac M J z) (e : J = J') :
    IsBodyJac M J' z := e ▸ h

/-- A fixed transformation on the left changes nothing in the body velocity. -/
theorem Spec.IsBodyJac.act {M : Vec n → SE3} {J : Mat 6 n} {z : Vec n} (h : IsBodyJac M J z) (A : SE3) :
    IsBodyJac (fun w => A.act (M w)) J z where
  trans := by
    refine ((h.trans.mulVec A.R).add (IsJacobian.const A.p z)).congr ?_
    simp [SE3.act, Matrix.mul_assoc]
  rot a := by
    have := (h.rot a).mulVec A.R
    simp only [Matrix.mulVec_mulVec] at this
    refine this.congr ?_
    simp [SE3.act, Matrix.mul_assoc]

/-- The relative transformation of two moving ones, the first followed by a fixed one. -/
theorem Spec.IsBodyJac.actInv {A B : Vec n → SE3} {JA JB : Mat 6 n} {z : Vec n} (hA : IsBodyJac A JA z) (hB : IsBodyJac B JB z)
    (rA : IsRotation (A z).R) (rB : IsRotation (B z).R) (C : SE3) :
    IsBodyJac (fun w => ((A w).act C).actInv (B w))
      ((B z).toActionMatrixInverse * (six (B z).R (MB.skew (B z).p * (B z).R) 0 (B z).R * JB -
        six (A z).R (MB.skew (A z).p * (A z).R) 0 (A z).R * JA)) z where
  trans := by
    have h1 := (hB.trans.sub ((hA.rot C.p).add hA.trans))
    have h2 := (hA.transpose_mulVec h1).mulVec C.Rᵀ
    have e : (fun w => C.Rᵀ *ᵥ ((A w).Rᵀ *ᵥ ((B w).p - ((A w).R *ᵥ C.p + (A w).p)))) =
        fun w => (((A w).act C).actInv (B w)).p := by
      funext w
      simp [SE3.actInv, SE3.act, Matrix.transpose_mul, Matrix.mulVec_mulVec]
    rw [e] at h2
    refine h2.congr ?_
    simp only [SE3.actInv, SE3.act, SE3.toActionMatrixInverse, top_six_mul, bot_six_mul, top_sub, bot_sub, Matrix.transpose_mul,
      Matrix.zero_mul, zero_add]
    have eA : ∀ X : Mat 3 n, (A z).R * ((A z).Rᵀ * X) = X := fun X => by rw [← Matrix.mul_assoc, rA.1, Matrix.one_mul]
    have eA' : ∀ X : Mat 3 n, (A z).Rᵀ * ((A z).R * X) = X := fun X => by rw [← Matrix.mul_assoc, rA.left, Matrix.one_mul]
    have eB : ∀ X : Mat 3 n, (B z).R * ((B z).Rᵀ * X) = X := fun X => by rw [← Matrix.mul_assoc, rB.1, Matrix.one_mul]
    have s1 := rA.transpose.skew ((B z).p - ((A z).R *ᵥ C.p + (A z).p))
    have s2 := rA.skew C.p
    rw [Matrix.transpose_transpose] at s1
    rw [s1, sub_eq_add_neg, skew_add, skew_neg, skew_add, s2]
    simp only [Matrix.mul_add, Matrix.add_mul, Matrix.mul_sub, Matrix.sub_mul, Matrix.mul_neg, Matrix.neg_mul, Matrix.mul_assoc,
      eA, eA', eB]
    abel
  rot a := by
    have h1 := hB.rot a
    have h2 := (hA.transpose_mulVec h1).mulVec C.Rᵀ
    have e : (fun w => C.Rᵀ *ᵥ ((A w).Rᵀ *ᵥ ((B w).R *ᵥ a))) =
        fun w => (((A w).act C).actInv (B w)).R *ᵥ a := by
      funext w
      simp [SE3.actInv, SE3.act, Matrix.transpose_mul, Matrix.mulVec_mulVec, Matrix.mul_assoc]
    rw [e] at h2
    refine h2.congr ?_
    simp only [SE3.actInv, SE3.act, SE3.toActionMatrixInverse, top_six_mul, bot_six_mul, top_sub, bot_sub, Matrix.transpose_mul,
      Matrix.zero_mul, zero_add]
    have eB : ∀ X : Mat 3 n, (B z).R * ((B z).Rᵀ * X) = X := fun X => by rw [← Matrix.mul_assoc, rB.1, Matrix.one_mul]
    have eB' : ∀ X : Mat 3 n, (B z).Rᵀ * ((B z).R * X) = X := fun X => by rw [← Matrix.mul_assoc, rB.left, Matrix.one_mul]
    have s1 := rA.transpose.skew ((B z).R *ᵥ a)
    rw [Matrix.transpose_transpose, rB.skew] at s1
    rw [s1]
    simp only [Matrix.mul_sub, Matrix.mul_add, Matrix.mul_neg, Matrix.neg_mul, Matrix.mul_assoc, eB, eB']
    abel

/-- The chain rule for transformations. -/
theorem Spec.IsBodyJac.comp {M : Vec n → SE3} {J : Mat 6 n} {g : Vec k → Vec n} {B : Mat n k} {z : Vec k} (h : IsBodyJac M J (g z))
    (hg : IsJacobian g B z) : IsBodyJac (fun w => M (g w)) (J * B) z where
  trans := (h.trans.comp hg).congr (by rw [top_mul, Matrix.mul_assoc])
  rot a := ((h.rot a).comp hg).congr (by rw [bot_mul, Matrix.neg_mul, Matrix.mul_assoc])

/-- Cross products. -/
theorem isJacobian_cross {F G : Vec n → Vec 3} {A B : Mat 3 n} {z : Vec n} (hF : IsJacobian F A z) (hG : IsJacobian G B z) :
    IsJacobian (fun w => F w ⨯₃ G w) (skew (F z) * B - skew (G z) * A) z := by
  intro i
  have h : ∀ a b, IsGradient (fun w => F w a * G w b) (F z a • B b + G z b • A a) z := fun a b => (hF a).mul (hG b)
  fin_cases i
  · refine ((h 1 2).sub (h 2 1)).congr_of ?_ ?_
    · funext w; simp [cross_apply]
    · funext l; simp [skew, Matrix.vecMul, dotProduct, Fin.sum_univ_three]; ring
  · refine ((h 2 0).sub (h 0 2)).congr_of ?_ ?_
    · funext w; simp [cross_apply]
    · funext l; simp [skew, Matrix.vecMul, dotProduct, Fin.sum_univ_three]; ring
  · refine ((h 0 1).sub (h 1 0)).congr_of ?_ ?_
    · funext w; simp [cross_apply]
    · funext l; simp [skew, Matrix.vecMul, dotProduct, Fin.sum_univ_three]; ring

theorem mul_beside {a b : ℕ} (M : Mat k r) (A : Mat r a) (B : Mat r b) : M * beside A B = beside (M * A) (M * B) := by
  funext i l
  rw [Matrix.mul_apply]
  refine Fin.addCases (fun l => ?_) (fun l => ?_) l
  · simp [beside, Matrix.mul_apply]
  · simp [-Fin.natAdd_eq_addNat, beside, Matrix.mul_apply]

theorem top_beside {a b : ℕ} (A : Mat 6 a) (B : Mat 6 b) : top (beside A B) = beside (top A) (top B) := rfl

theorem beside_left {a b : ℕ} (A : Mat r a) (B : Mat r b) (i : Fin r) (l : Fin a) : beside A B i (Fin.castAdd b l) = A i l :=
  Fin.append_left _ _ _

theorem beside_right {a b : ℕ} (A : Mat r a) (B : Mat r b) (i : Fin r) (l : Fin b) : beside A B i (Fin.natAdd a l) = B i l :=
  Fin.append_right _ _ _

/-! ### Functions of the state and their tangent Jacobians -/

theorem head_zero (h : k ≤ n) : head k h (0 : Vec n) = 0 := rfl

theorem segment_zero (s : ℕ) (h : s + k ≤ n) : segment s k h (0 : Vec n) = 0 := rfl

/-- A function of the first coordinates of the tangent vector. -/
theorem isJac_head (h : k ≤ ndx) {G : Vec k → Vec r} {A : Mat r k} (hG : IsJacobian G A 0) :
    IsJac (fun (z : Vec ndx) (_ : Vec nu) => G (head k h z)) (setBlock (0 : Mat r ndx) 0 0 A) (0 : Mat r nu) 0 0 := by
  have hs : IsJacobian (fun z : Vec (ndx + nu) => fun c : Fin k => z (Fin.castAdd nu (Fin.castLE h c)))
      (Matrix.of fun c => Fin.append (Pi.single (Fin.castLE h c) 1) 0) (Fin.append 0 0) := fun c => grad_x _ _
  have h' := IsJacobian.comp (F := G) (A := A) (z := Fin.append (0 : Vec ndx) (0 : Vec nu))
    (by simp only [Fin.append_left]; exact hG) hs
  refine IsJacobian.congr h' ?_
  funext i
  have e := Centroidal.setBlock_row 0 0 A i i (by simp) (fun c => Fin.castLE h c) (fun c => by simp)
  rw [show setBlock (0 : Mat r ndx) 0 0 A i = _ from e]
  funext l
  rw [Matrix.mul_apply]
  refine Fin.addCases (fun l => ?_) (fun l => ?_) l
  · simp [Finset.sum_apply]
  · simp

theorem setBlock_beside (A B : Mat r nv) :
    setBlock (0 : Mat r ndx) 0 0 (beside A B) = setBlock (setBlock 0 0 0 A) 0 nv B := by
  funext i j
  simp only [setBlock, Centroidal.setBlock]
  obtain ⟨j, hj⟩ := j
  by_cases h1 : j < nv
  · rw [dif_pos (by simp; omega), dif_neg (by simp; omega), dif_pos (by simp; omega)]
    show Fin.append (A i) (B i) (Fin.castAdd nv ⟨j, h1⟩) = _
    rw [Fin.append_left]
    rfl
  · by_cases h2 : j < nv + nv
    · rw [dif_pos (by simp; omega), dif_pos (by simp; omega)]
      have : (⟨j - 0, by simp; omega⟩ : Fin (nv + nv)) = Fin.natAdd nv (⟨j - nv, by omega⟩ : Fin nv) := Fin.ext (by simp; omega)
      simp only [this]
      show Fin.append (A i) (B i) _ = _
      rw [Fin.append_right]
      rfl
    · rw [dif_neg (by simp; omega), dif_neg (by simp; omega), dif_neg (by simp; omega)]

section State

variable {integ : Vec nq → Vec nv → Vec nq} {X : Vec nx → Vec ndx → Vec nx} {hq : nq ≤ nx} {hqv : nq + nv ≤ nx} {hv : nv ≤ ndx}
  {hvv : nv + nv ≤ ndx}

/-- A function of the configuration. -/
theorem isJac_config (hX : MovesConfig integ X hq hv) {F : Vec nq → Vec r} {A : Mat r nv} {x : Vec nx}
    (hF : DerivQ integ F A (head nq hq x)) :
    IsJac (fun z (_ : Vec nu) => F (head nq hq (X x z))) (setBlock (0 : Mat r ndx) 0 0 A) (0 : Mat r nu) 0 0 := by
  simp only [hX x]
  exact isJac_head hv hF

/-- A function of configuration and velocity. -/
theorem isJac_phase (hX : MovesConfig integ X hq hv) (hV : MovesVelocity X hqv hvv) {F : Vec nq → Vec nv → Vec r}
    {A B : Mat r nv} {x : Vec nx} (hF : DerivQV integ F A B (head nq hq x) (segment nq nv hqv x)) :
    IsJac (fun z (_ : Vec nu) => F (head nq hq (X x z)) (segment nq nv hqv (X x z)))
      (setBlock (setBlock (0 : Mat r ndx) 0 0 A) 0 nv B) (0 : Mat r nu) 0 0 := by
  rw [← setBlock_beside A B]
  simp only [hX x, hV x]
  exact isJac_head hvv hF

end State

theorem Spec.IsJac_add {F G : Vec ndx → Vec nu → Vec r} {A A' : Mat r ndx} {B B' : Mat r nu} {x : Vec ndx} {u : Vec nu}
    (hF : IsJac F A B x u) (hG : IsJac G A' B' x u) : IsJac (fun x u => F x u + G x u) (A + A') (B + B') x u :=
  IsJacobian.congr (IsJacobian.add hF hG) (by funext i; exact Deriv.append_add _ _ _ _)

theorem Spec.IsJac_const (c : Vec r) (x : Vec ndx) (u : Vec nu) : IsJac (fun _ _ => c) (0 : Mat r ndx) (0 : Mat r nu) x u :=
  IsJacobian.congr (IsJacobian.const c _) (by
    funext i l; refine Fin.addCases (fun l => ?_) (fun l => ?_) l <;> simp)

theorem Spec.IsJac_sub_const {F : Vec ndx → Vec nu → Vec r} {A : Mat r ndx} {B : Mat r nu} {x : Vec ndx} {u : Vec nu}
    (hF : IsJac F A B x u) (c : Vec r) : IsJac (fun x u => F x u - c) A B x u := by
  have := Spec.IsJac_add hF (Spec.IsJac_const (-c) x u)
  simpa only [add_zero, ← sub_eq_add_neg] using this

/-- The partial Jacobians are unique. -/
theorem Spec.IsJac_unique {F : Vec ndx → Vec nu → Vec r} {A A' : Mat r ndx} {B B' : Mat r nu} {x : Vec ndx} {u : Vec nu}
    (hF : IsJac F A B x u) (hG : IsJac F A' B' x u) : A = A' ∧ B = B' := by
  have h := IsJacobian.unique hF hG
  constructor
  · funext i j
    have := congrFun (congrFun h i) (Fin.castAdd nu j)
    simpa using this
  · funext i j
    have := congrFun (congrFun h i) (Fin.natAdd ndx j)
    simpa [-Fin.natAdd_eq_addNat] using this

/-! ### Block writes -/

/-- Writing the left columns over a matrix that vanishes on the others. -/
theorem setBlock_left_of_zero (M : Mat r ndx) (A : Mat r nv) (h : ∀ i j, nv ≤ j.val → M i j = 0) :
    setBlock M 0 0 A = setBlock 0 0 0 A := by
  funext i j
  simp only [setBlock, Centroidal.setBlock]
  split_ifs with hc
  · rfl
  · exact h i j (by have := i.isLt; omega)

theorem setBlock_left_zero (A : Mat r nv) (i : Fin r) (j : Fin ndx) (h : nv ≤ j.val) (M : Mat r ndx) (hM : M i j = 0) :
    setBlock M 0 0 A i j = 0 := by
  simp only [setBlock, Centroidal.setBlock]
  rw [dif_neg (by omega)]
  exact hM

/-- Writing left and right halves writes everything. -/
theorem setBlock_halves (M : Mat r ndx) (A B : Mat r nv) (h : ndx = nv + nv) :
    setBlock (setBlock M 0 0 A) 0 (ndx - nv) B = setBlock (setBlock 0 0 0 A) 0 nv B := by
  funext i j
  simp only [setBlock, Centroidal.setBlock]
  have := i.isLt
  have := j.isLt
  split_ifs <;> first | rfl | omega | skip
  · congr 2; omega

/-- Columns of a written block. -/
theorem setBlock_apply_left (M : Mat r ndx) (A : Mat r nv) (i : Fin r) (j : Fin nv) (h : j.val < ndx) :
    setBlock M 0 0 A i ⟨j, h⟩ = A i j := by
  simp only [setBlock, Centroidal.setBlock]
  rw [dif_pos (by simp)]
  rfl

theorem setBlock_apply_right (M : Mat r ndx) (c0 : ℕ) (A : Mat r nv) (i : Fin r) (j : Fin nv) (h : c0 + j.val < ndx) :
    setBlock M 0 c0 A i ⟨c0 + j, h⟩ = A i j := by
  simp only [setBlock, Centroidal.setBlock]
  rw [dif_pos (by simp)]
  congr 1
  exact Fin.ext (by simp)

theorem setBlock_at_left (M : Mat r ndx) (A : Mat r nv) (i : Fin r) (j : Fin ndx) (h : j.val < nv) :
    setBlock M 0 0 A i j = A i ⟨j, h⟩ := setBlock_apply_left M A i ⟨j, h⟩ j.isLt

theorem setBlock_at_right (M : Mat r ndx) (c0 : ℕ) (A : Mat r nv) (i : Fin r) (j : Fin ndx) (h : c0 ≤ j.val)
    (h' : j.val - c0 < nv) : setBlock M 0 c0 A i j = A i ⟨j.val - c0, h'⟩ := by
  have e := setBlock_apply_right M c0 A i ⟨j.val - c0, h'⟩ (by have := j.isLt; simp; omega)
  rw [← e]
  congr 1
  exact Fin.ext (by simp; omega)

theorem setBlock_apply_out (M : Mat r ndx) (c0 : ℕ) (A : Mat r nv) (i : Fin r) (j : Fin ndx) (h : ¬ (c0 ≤ j.val ∧ j.val < c0 + nv)) :
    setBlock M 0 c0 A i j = M i j := by
  simp only [setBlock, Centroidal.setBlock]
  rw [dif_neg (fun hc => h hc.2)]

theorem fill_eq (sup : Fin nv → Bool) (A M : Mat r nv) (hA : ∀ j, sup j = false → ∀ i, A i j = 0)
    (hM : ∀ j, sup j = false → ∀ i, M i j = 0) : fill sup A M = A := by
  funext i j
  unfold fill
  split_ifs with h
  · rfl
  · rw [hM j (by simpa using h), hA j (by simpa using h)]

theorem fill_out (sup : Fin nv → Bool) (A M : Mat r nv) (i : Fin r) (j : Fin nv) (h : sup j = false) : fill sup A M i j = M i j := by
  unfold fill
  rw [if_neg (by simp [h])]

theorem fill_zero (sup sup' : Fin nv → Bool) (A M : Mat r nv) (hs : ∀ j, sup' j = true → sup j = true)
    (hM : ∀ j, sup j = false → ∀ i, M i j = 0) : ∀ j, sup j = false → ∀ i, fill sup' A M i j = 0 := by
  intro j hj i
  unfold fill
  rw [if_neg (by intro h; rw [hs j h] at hj; exact absurd hj (by simp))]
  exact hM j hj i

end Aligator.MB
