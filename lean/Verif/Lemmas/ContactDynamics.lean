import Verif.Spec.ContactDynamics
import Verif.Lemmas.Multibody
import Mathlib.Analysis.Matrix.Normed
import Mathlib.Topology.Instances.Matrix

/-!
# Lemmas: derivatives through torques, blocks of the dynamics' Jacobians
-/

namespace Aligator.MB

open Matrix Aligator.Deriv Aligator.Centroidal.Spec Spec

variable {nu r nq nv nc n k : ℕ} {Frame S : Type}

/-- Writing the two halves of a matrix. -/
theorem setBlock_both (M : Mat r (nv + nv)) (A B : Mat r nv) : setBlock (setBlock M 0 0 A) 0 nv B = beside A B := by
  funext i j
  refine Fin.addCases (fun j => ?_) (fun j => ?_) j
  · rw [beside_left, setBlock_apply_out _ _ _ _ _ (by simp), setBlock_at_left _ _ _ _ (by simp)]
    rfl
  · rw [beside_right, setBlock_at_right _ _ _ _ _ (by simp) (by simp)]
    congr 1
    exact Fin.ext (by simp)

theorem head_eq_fst (z : Vec (n + k)) : head n (by omega) z = fst z := rfl

theorem segment_eq_snd (z : Vec (n + k)) : segment n k (by omega) z = snd z := rfl

section

variable {integ : Vec nq → Vec nv → Vec nq} {X : Vec (nq + nv) → Vec (nv + nv) → Vec (nq + nv)}

/-- The state moves by configuration and velocity. -/
structure Moves (integ : Vec nq → Vec nv → Vec nq) (X : Vec (nq + nv) → Vec (nv + nv) → Vec (nq + nv)) : Prop where
  config : MovesConfig integ X (Nat.le_add_right _ _) (Nat.le_add_right _ _)
  velocity : MovesVelocity X le_rfl le_rfl

theorem Moves.q (h : Moves integ X) (x z) : fst (X x z) = integ (fst x) (fst z) := h.config x z

theorem Moves.v (h : Moves integ X) (x z) : snd (X x z) = snd x + snd z := h.velocity x z

/-- A function of state and torque, the torque being linear in the control. -/
theorem isJac_torque (hX : Moves integ X) {F : Vec nq → Vec nv → Vec nv → Vec r} {A B C : Mat r nv} {x : Vec (nq + nv)}
    {u : Vec nu} (act : Mat nv nu) (hF : DerivQVT integ F A B C (fst x) (snd x) (act *ᵥ u)) :
    IsJac (fun z w => F (fst (X x z)) (snd (X x z)) (act *ᵥ (u + w))) (beside A B) (C * act) 0 0 := by
  simp only [hX.q, hX.v]
  have hm : IsJacobian (fun y : Vec (nv + nv + nu) => Fin.append (fst y) (act *ᵥ snd y))
      (Fin.append (selFst (nv + nv) nu) (act * selSnd (nv + nv) nu)) (Fin.append 0 0) :=
    (isJacobian_fst _).append ((isJacobian_snd _).mulVec act)
  have hc := IsJacobian.comp (z := Fin.append (0 : Vec (nv + nv)) (0 : Vec nu)) (by
    rw [fst_append, snd_append, Matrix.mulVec_zero]
    have : Fin.append (0 : Vec (nv + nv)) (0 : Vec nv) = 0 := by
      funext i; refine Fin.addCases (fun i => ?_) (fun i => ?_) i <;> simp
    rw [this]
    exact hF) hm
  refine IsJacobian.congr_of' hc ?_ ?_
  · funext y
    simp only [stacked, fst_append, snd_append, Matrix.mulVec_add]
  · funext i l
    refine Matrix.mul_apply.trans ?_
    rw [Fin.sum_univ_add]
    have e1 : ∀ a : Fin (nv + nv), beside (beside A B) C i (Fin.castAdd nv a) = beside A B i a := fun a => beside_left _ _ _ _
    have e2 : ∀ a : Fin nv, beside (beside A B) C i (Fin.natAdd (nv + nv) a) = C i a := fun a => beside_right _ _ _ _
    have e3 : ∀ a : Fin (nv + nv), (Fin.append (selFst (nv + nv) nu) (act * selSnd (nv + nv) nu) : Fin (nv + nv + nv) → _)
        (Fin.castAdd nv a) l = selFst (nv + nv) nu a l := fun a => congrFun (Fin.append_left _ _ _) l
    have e4 : ∀ a : Fin nv, (Fin.append (selFst (nv + nv) nu) (act * selSnd (nv + nv) nu) : Fin (nv + nv + nv) → _)
        (Fin.natAdd (nv + nv) a) l = (act * selSnd (nv + nv) nu) a l := fun a => congrFun (Fin.append_right _ _ _) l
    refine (congrArg₂ (· + ·) (Finset.sum_congr rfl fun a _ => congrArg₂ (· * ·) (e1 a) (e3 a))
      (Finset.sum_congr rfl fun a _ => congrArg₂ (· * ·) (e2 a) (e4 a))).trans ?_
    have m1 := congrFun (congrFun (mul_selFst (m := nu) (beside A B)) i) l
    have m2 := congrFun (congrFun (mul_selSnd (n := nv + nv) (C * act)) i) l
    rw [Matrix.mul_apply] at m1
    rw [Matrix.mul_assoc, Matrix.mul_apply] at m2
    refine (congrArg₂ (· + ·) m1 m2).trans ?_
    have := congrFun (Deriv.append_add (beside A B i) 0 0 ((C * act) i)) l
    rw [add_zero, zero_add] at this
    exact this

end

/-- Rows of a function. -/
theorem Spec.DerivQVT.rows {integ : Vec nq → Vec nv → Vec nq} {F : Vec nq → Vec nv → Vec nv → Vec nc} {A B C : Mat nc nv}
    {q : Vec nq} {v tau : Vec nv} (hF : DerivQVT integ F A B C q v tau) (s : ℕ) (h : s + k ≤ nc) :
    DerivQVT integ (fun q v tau => segment s k h (F q v tau)) (rowsAt s k h A) (rowsAt s k h B) (rowsAt s k h C) q v tau :=
  fun i => hF ⟨s + i, by omega⟩

/-- A function of a function. -/
theorem Spec.DerivQVT.then {integ : Vec nq → Vec nv → Vec nq} {F : Vec nq → Vec nv → Vec nv → Vec n} {A B C : Mat n nv}
    {q : Vec nq} {v tau : Vec nv} (hF : DerivQVT integ F A B C q v tau) {G : Vec n → Vec r} {M : Mat r n} (hq : integ q 0 = q)
    (hG : IsJacobian G M (F q v tau)) :
    DerivQVT integ (fun q v tau => G (F q v tau)) (M * A) (M * B) (M * C) q v tau := by
  have e : F (integ q (fst (fst (0 : Vec (nv + nv + nv))))) (v + snd (fst (0 : Vec (nv + nv + nv)))) (tau + snd (0 : Vec (nv + nv + nv))) =
      F q v tau := by
    have h1 : fst (fst (0 : Vec (nv + nv + nv))) = 0 := rfl
    have h2 : snd (fst (0 : Vec (nv + nv + nv))) = 0 := rfl
    have h3 : snd (0 : Vec (nv + nv + nv)) = 0 := rfl
    rw [h1, h2, h3, hq, add_zero, add_zero]
  refine (IsJacobian.comp (F := G) (A := M) (e.symm ▸ hG) hF).congr ?_
  rw [mul_beside, mul_beside]

/-- A linear function of a function. -/
theorem Spec.DerivQVT.linear {integ : Vec nq → Vec nv → Vec nq} {F : Vec nq → Vec nv → Vec nv → Vec n} {A B C : Mat n nv}
    {q : Vec nq} {v tau : Vec nv} (hF : DerivQVT integ F A B C q v tau) (M : Mat r n) :
    DerivQVT integ (fun q v tau => M *ᵥ F q v tau) (M * A) (M * B) (M * C) q v tau := by
  refine (IsJacobian.mulVec M hF).congr ?_
  rw [mul_beside, mul_beside]

/-! ### A continuous factor and a vanishing factor -/

theorem isGradient_vanish {g h : Vec n → ℝ} {a z : Vec n} (hg : ContinuousAt g z) (hh : IsGradient h a z) (h0 : h z = 0) :
    IsGradient (fun y => g y * h y) (g z • a) z := by
  unfold IsGradient at hh ⊢
  rw [form_smul]
  rw [hasFDerivAt_iff_isLittleO] at hh ⊢
  have e : (fun y => g y * h y - g z * h z - (g z • form a) (y - z)) =
      fun y => g y * (h y - h z - form a (y - z)) + (g y - g z) * form a (y - z) := by
    funext y
    rw [h0, ContinuousLinearMap.smul_apply, smul_eq_mul]
    ring
  rw [e]
  refine Asymptotics.IsLittleO.add ?_ ?_
  · have h1 : g =O[nhds z] (fun _ => (1 : ℝ)) := hg.isBigO_one ℝ
    have := h1.mul_isLittleO hh.norm_right
    simp only [one_mul] at this
    exact this.of_norm_right
  · have h1 : (fun y => g y - g z) =o[nhds z] (fun _ => (1 : ℝ)) := by
      rw [Asymptotics.isLittleO_one_iff]
      have h3 : Filter.Tendsto (fun y => g y - g z) (nhds z) (nhds (g z - g z)) := Filter.Tendsto.sub hg tendsto_const_nhds
      rwa [sub_self] at h3
    have h2 : (fun y => form a (y - z)) =O[nhds z] fun y => y - z := (form a).isBigO_sub _ _
    have := h1.mul_isBigO h2.norm_right
    simp only [one_mul] at this
    exact this.of_norm_right

/-- Where a function vanishes, its product with a continuous matrix has the product as derivative. -/
theorem isJacobian_vanish {M : Vec n → Mat r k} {f : Vec n → Vec k} {A : Mat k n} {z : Vec n}
    (hM : ∀ i j, ContinuousAt (fun y => M y i j) z) (hf : IsJacobian f A z) (h0 : f z = 0) :
    IsJacobian (fun y => M y *ᵥ f y) (M z * A) z := by
  intro i
  have h := IsGradient.sum Finset.univ fun j _ => isGradient_vanish (hM i j) (hf j) (congrFun h0 j)
  refine h.congr_of ?_ ?_
  · funext y
    rfl
  · funext l
    rw [Finset.sum_apply]
    exact (Matrix.mul_apply ..).symm

/-- The inverse of a continuous matrix, where it is invertible. -/
theorem continuousAt_inv {M : Vec n → Mat k k} {z : Vec n} (hM : ∀ i j, ContinuousAt (fun y => M y i j) z)
    (hd : IsUnit (M z).det) (i j : Fin k) : ContinuousAt (fun y => (M y)⁻¹ i j) z := by
  have hMc : ContinuousAt M z := continuousAt_pi.2 fun i => continuousAt_pi.2 fun j => hM i j
  have hdet : ContinuousAt (fun y => (M y).det) z := (Continuous.matrix_det continuous_id).continuousAt.comp hMc
  have hadj : ContinuousAt (fun y => (M y).adjugate) z := (Continuous.matrix_adjugate continuous_id).continuousAt.comp hMc
  have e : (fun y => (M y)⁻¹ i j) = fun y => (M y).det⁻¹ * (M y).adjugate i j := by
    funext y
    rw [Matrix.inv_def, Ring.inverse_eq_inv', Matrix.smul_apply, smul_eq_mul]
  rw [e]
  exact (hdet.inv₀ hd.ne_zero).mul (continuousAt_pi.1 (continuousAt_pi.1 hadj i) j)

/-- Near a point where it is invertible, a continuous matrix is invertible. -/
theorem eventually_isUnit {M : Vec n → Mat k k} {z : Vec n} (hM : ∀ i j, ContinuousAt (fun y => M y i j) z)
    (hd : IsUnit (M z).det) : ∀ᶠ y in nhds z, IsUnit (M y).det := by
  have hMc : ContinuousAt M z := continuousAt_pi.2 fun i => continuousAt_pi.2 fun j => hM i j
  have hdet : ContinuousAt (fun y => (M y).det) z := (Continuous.matrix_det continuous_id).continuousAt.comp hMc
  filter_upwards [hdet.eventually_ne hd.ne_zero] with y hy
  exact isUnit_iff_ne_zero.2 hy

theorem IsJacobian.congr_near {F G : Vec n → Vec r} {A : Mat r n} {z : Vec n} (hF : IsJacobian F A z)
    (h : ∀ᶠ y in nhds z, G y = F y) : IsJacobian G A z := fun i =>
  HasFDerivAt.congr_of_eventuallyEq (hF i) (h.mono fun _ hy => congrFun hy i)

/-- A differentiable function is continuous. -/
theorem IsJacobian.continuousAt {F : Vec n → Vec r} {A : Mat r n} {z : Vec n} (hF : IsJacobian F A z) (i : Fin r) :
    ContinuousAt (fun y => F y i) z := HasFDerivAt.continuousAt (hF i)

end Aligator.MB
