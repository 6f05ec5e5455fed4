import Verif.Model.QuadCosts
import Verif.Lemmas.Derivatives
import Mathlib.Analysis.SpecialFunctions.Log.Deriv
import Mathlib.Tactic.FieldSimp
import Mathlib.Tactic.Linarith

/-!
# Lemmas: quadratic forms, and the scalar functions of the barriers
-/

namespace Aligator.QCosts

open Matrix Aligator.Deriv

variable {n m k : ℕ}

theorem foldl_add {α : Type} [AddCommMonoid α] (f : Fin m → α) (a : α) :
    (List.finRange m).foldl (fun s i => s + f i) a = a + ∑ i, f i := by
  rw [Fin.sum_univ_def]
  generalize List.finRange m = l
  induction l generalizing a with
  | nil => simp
  | cons i l ih => rw [List.foldl_cons, ih, List.map_cons, List.sum_cons, add_assoc]

/-- A polynomial of degree two in two variables. -/
noncomputable def poly (A : Mat n n) (N : Mat n m) (B : Mat m m) (a : Vec n) (b : Vec m) (x : Vec n) (u : Vec m) : ℝ :=
  1 / 2 * (x ⬝ᵥ A *ᵥ x) + x ⬝ᵥ N *ᵥ u + 1 / 2 * (u ⬝ᵥ B *ᵥ u) + a ⬝ᵥ x + b ⬝ᵥ u

theorem poly_gradient (A : Mat n n) (N : Mat n m) (B : Mat m m) (a : Vec n) (b : Vec m) (x : Vec n) (u : Vec m) :
    IsGradient₂ (poly A N B a b) ((1 / 2 : ℝ) • (A *ᵥ x + Aᵀ *ᵥ x) + N *ᵥ u + a)
      ((1 / 2 : ℝ) • (B *ᵥ u + Bᵀ *ᵥ u) + Nᵀ *ᵥ x + b) x u := by
  have hx := isJacobian_fst (n := n) (m := m) (Fin.append x u)
  have hu := isJacobian_snd (n := n) (m := m) (Fin.append x u)
  have h1 := ((hx.dot (hx.mulVec A)).smul (1 / 2)).add (hx.dot (hu.mulVec N))
  have h2 := (hu.dot (hu.mulVec B)).smul (1 / 2)
  have h3 := (IsJacobian.const a (Fin.append x u)).dot hx
  have h4 := (IsJacobian.const b (Fin.append x u)).dot hu
  refine (((h1.add h2).add h3).add h4).congr ?_
  simp only [fst_append, snd_append, Matrix.transpose_mul, ← Matrix.mulVec_mulVec, selFst_transpose_mulVec,
    selSnd_transpose_mulVec, append_add, append_smul, Matrix.transpose_zero, Matrix.zero_mulVec, add_zero]
  congr 1
  · funext i; simp; ring
  · funext i; simp; ring

/-- The scalar function of the relaxed barrier. -/
noncomputable def relaxed (w t v : ℝ) : ℝ :=
  if v < t then w * (1 / 2 * ((v - 2 * t) / t * ((v - 2 * t) / t) - 1) - Real.log t) else -(w * Real.log v)

/-- Its derivative. -/
noncomputable def relaxed' (w t v : ℝ) : ℝ := if v < t then w * (v - 2 * t) / (t * t) else -(w / v)

theorem hasDerivAt_quadBranch (w t v : ℝ) (ht : 0 < t) :
    HasDerivAt (fun v => w * (1 / 2 * ((v - 2 * t) / t * ((v - 2 * t) / t) - 1) - Real.log t))
      (w * (v - 2 * t) / (t * t)) v := by
  have h1 : HasDerivAt (fun v : ℝ => (v - 2 * t) / t) (1 / t) v := ((hasDerivAt_id v).sub_const (2 * t)).div_const t
  have h2 := ((((h1.mul h1).sub_const 1).const_mul (1 / 2)).sub_const (Real.log t)).const_mul w
  refine h2.congr_deriv ?_
  field_simp
  ring

theorem hasDerivAt_logBranch (w v : ℝ) (hv : 0 < v) : HasDerivAt (fun v => -(w * Real.log v)) (-(w / v)) v := by
  have := ((Real.hasDerivAt_log hv.ne').const_mul w).neg
  exact this.congr_deriv (by rw [div_eq_mul_inv])

theorem hasDerivAt_relaxed (w t v : ℝ) (ht : 0 < t) : HasDerivAt (relaxed w t) (relaxed' w t v) v := by
  rcases lt_trichotomy v t with h | rfl | h
  · rw [relaxed', if_pos h]
    refine (hasDerivAt_quadBranch w t v ht).congr_of_eventuallyEq ?_
    filter_upwards [Iio_mem_nhds h] with y hy
    exact if_pos hy
  · rw [relaxed', if_neg (lt_irrefl v), ← hasDerivWithinAt_univ, ← Set.Iic_union_Ici (a := v)]
    refine HasDerivWithinAt.union ?_ ?_
    · have h1 : HasDerivWithinAt _ _ (Set.Iic v) v := (hasDerivAt_quadBranch w v v ht).hasDerivWithinAt
      have e : w * (v - 2 * v) / (v * v) = -(w / v) := by field_simp; ring
      rw [e] at h1
      refine h1.congr (fun y hy => ?_) ?_
      · rcases lt_or_eq_of_le (Set.mem_Iic.1 hy) with hy | rfl
        · exact if_pos hy
        · rw [relaxed, if_neg (lt_irrefl y)]; field_simp; ring
      · rw [relaxed, if_neg (lt_irrefl v)]; field_simp; ring
    · refine ((hasDerivAt_logBranch w v ht).hasDerivWithinAt).congr (fun y hy => ?_) ?_
      · exact if_neg (not_lt.2 hy)
      · exact if_neg (lt_irrefl v)
  · rw [relaxed', if_neg h.not_gt]
    refine (hasDerivAt_logBranch w v (ht.trans h)).congr_of_eventuallyEq ?_
    filter_upwards [Ioi_mem_nhds h] with y hy
    exact if_neg (not_lt.2 (le_of_lt hy))

theorem continuous_relaxed' (w t : ℝ) (ht : 0 < t) : Continuous (relaxed' w t) := by
  have h : relaxed' w t = fun v => if t ≤ v then -(w / max v t) else w * (v - 2 * t) / (t * t) := by
    funext v
    rw [relaxed']
    by_cases h : v < t
    · rw [if_pos h, if_neg (not_le.2 h)]
    · rw [if_neg h, if_pos (not_lt.1 h), max_eq_left (not_lt.1 h)]
  rw [h]
  refine Continuous.if_le ?_ ?_ continuous_const continuous_id ?_
  · refine (Continuous.div continuous_const (continuous_id.max continuous_const) fun v => ?_).neg
    exact (lt_max_of_lt_right ht).ne'
  · exact (continuous_const.mul (continuous_id.sub continuous_const)).div_const _
  · intro v hv
    rw [← hv, max_self]; field_simp; ring

/-- The derivative of `φ₁(r₁) + ... + φₘ(rₘ)`. -/
theorem sum_comp_gradient (φ : Fin m → ℝ → ℝ) (φ' : Vec m) (r : Vec k → Vec m) (J : Mat m k) (z : Vec k)
    (hr : IsJacobian r J z) (hφ : ∀ i, HasDerivAt (φ i) (φ' i) (r z i)) :
    IsGradient (fun y => ∑ i, φ i (r y i)) (∑ i, φ' i • J i) z :=
  IsGradient.sum Finset.univ fun i _ => (hr i).comp (hφ i)

theorem sum_smul_eq (J : Mat m k) (a : Vec m) : ∑ i, a i • J i = Jᵀ *ᵥ a := by
  funext j
  simp [Matrix.mulVec, dotProduct, mul_comm]

theorem sum_vecMulVec (J : Mat m k) (a : Vec m) : ∑ i, a i • vecMulVec (J i) (J i) = Jᵀ * diagonal a * J := by
  ext p q
  rw [Matrix.mul_apply]
  simp only [Matrix.sum_apply, Matrix.smul_apply, vecMulVec_apply, smul_eq_mul, mul_diagonal, transpose_apply]
  exact Finset.sum_congr rfl fun i _ => by ring

/-- The second derivative of `φ₁(r₁) + ... + φₘ(rₘ)` for a residual with a constant Jacobian. -/
theorem sum_comp_hessian (φ φ' : Fin m → ℝ → ℝ) (φ'' : Vec m) (r : Vec k → Vec m) (J : Mat m k) (z : Vec k)
    (hr : ∀ y, IsJacobian r J y) (hφ : ∀ᶠ y in nhds z, ∀ i, HasDerivAt (φ i) (φ' i (r y i)) (r y i))
    (hφ' : ∀ i, HasDerivAt (φ' i) (φ'' i) (r z i)) :
    IsHessian (fun y => ∑ i, φ i (r y i)) (Jᵀ * diagonal φ'' * J) z := by
  refine ⟨fun y => Jᵀ *ᵥ fun i => φ' i (r y i), ?_, ?_⟩
  · filter_upwards [hφ] with y hy
    rw [← sum_smul_eq]
    exact sum_comp_gradient φ _ r J y (hr y) hy
  · have : IsJacobian (fun y i => φ' i (r y i)) (diagonal φ'' * J) z := by
      intro i
      refine ((hr z i).comp (hφ' i)).congr ?_
      funext j
      simp [Matrix.diagonal_mul]
    rw [Matrix.mul_assoc]
    exact this.mulVec Jᵀ

theorem eventually_of_continuous (r : Vec k → Vec m) (J : Mat m k) (z : Vec k) (hr : IsJacobian r J z) (i : Fin m)
    {s : Set ℝ} (hs : IsOpen s) (h : r z i ∈ s) : ∀ᶠ y in nhds z, r y i ∈ s :=
  (HasFDerivAt.continuousAt (hr i)).eventually_mem (hs.mem_nhds h)

end Aligator.QCosts
