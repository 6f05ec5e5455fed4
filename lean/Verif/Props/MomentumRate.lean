import Verif.Props.Multibody
import Verif.Props.Centroidal

/-!
# C60: the rate of the centroidal momentum of a multibody system under contact forces
-/

namespace Aligator.MB

open Matrix Aligator.Deriv Aligator.Centroidal.Spec Spec Centroidal

variable {nx ndx nu r nq nv nk : ℕ} {Frame : Type}

/-! ### Block writes -/

theorem mul_setBlock {a b c m : ℕ} (A : Mat a c) (B : Mat c b) (c0 : ℕ) :
    A * Centroidal.setBlock (0 : Mat c m) 0 c0 B = Centroidal.setBlock (0 : Mat a m) 0 c0 (A * B) := by
  funext i j
  rw [Matrix.mul_apply]
  unfold Centroidal.setBlock
  have hi := i.isLt
  by_cases h : c0 ≤ j.val ∧ j.val < c0 + b
  · rw [dif_pos (by omega), Matrix.mul_apply]
    refine Finset.sum_congr rfl fun l _ => ?_
    have := l.isLt
    rw [dif_pos (by omega)]
    rfl
  · rw [dif_neg (by omega)]
    refine Finset.sum_eq_zero fun l _ => ?_
    have := l.isLt
    rw [dif_neg (by omega)]
    simp

theorem setBlock_nested {a b m : ℕ} (r0 c0 : ℕ) (B : Mat a b) :
    Centroidal.setBlock (0 : Mat r m) r0 0 (Centroidal.setBlock (0 : Mat a m) 0 c0 B) = Centroidal.setBlock 0 r0 c0 B := by
  funext i j
  unfold Centroidal.setBlock
  by_cases h1 : r0 ≤ i.val ∧ i.val < r0 + a
  · have := j.isLt
    rw [dif_pos (by omega)]
    by_cases h2 : c0 ≤ j.val ∧ j.val < c0 + b
    · rw [dif_pos (by simp; omega), dif_pos ⟨h1, h2⟩]
      rfl
    · rw [dif_neg (by simp; omega), dif_neg (by omega)]
      rfl
  · rw [dif_neg (by omega), dif_neg (by omega)]

theorem setBlock_add0 {a b m : ℕ} (r0 c0 : ℕ) (A B : Mat a b) :
    Centroidal.setBlock (0 : Mat r m) r0 c0 (A + B) = Centroidal.setBlock 0 r0 c0 A + Centroidal.setBlock 0 r0 c0 B := by
  funext i j
  simp only [Centroidal.setBlock, Matrix.add_apply]
  split_ifs <;> simp

theorem setBlock_neg0 {a b m : ℕ} (r0 c0 : ℕ) (A : Mat a b) :
    Centroidal.setBlock (0 : Mat r m) r0 c0 (-A) = -Centroidal.setBlock 0 r0 c0 A := by
  funext i j
  simp only [Centroidal.setBlock, Matrix.neg_apply]
  split_ifs <;> simp

theorem setBlock_zero0 {a b m : ℕ} (r0 c0 : ℕ) : Centroidal.setBlock (0 : Mat r m) r0 c0 (0 : Mat a b) = 0 := by
  funext i j
  simp only [Centroidal.setBlock]
  split_ifs <;> rfl

/-- Three rows of a larger function. -/
theorem isJac_addSeg {G : Vec ndx → Vec nu → Vec 3} {A : Mat 3 ndx} {B : Mat 3 nu} {x : Vec ndx} {u : Vec nu}
    (h : IsJac G A B x u) (r0 : ℕ) :
    IsJac (fun x u => addSeg (0 : Vec r) r0 (G x u)) (Centroidal.setBlock 0 r0 0 A) (Centroidal.setBlock 0 r0 0 B) x u := by
  have row : ∀ {n : ℕ} (A : Mat 3 n) (i : Fin r) (hi : r0 ≤ i.val ∧ i.val < r0 + 3),
      A ⟨i.val - r0, by omega⟩ = Centroidal.setBlock (0 : Mat r n) r0 0 A i := by
    intro n A i hi
    funext l
    have := l.isLt
    unfold Centroidal.setBlock
    rw [dif_pos (by omega)]
    rfl
  apply isJac_rows
  intro i
  by_cases hi : r0 ≤ i.val ∧ i.val < r0 + 3
  · refine (h ⟨i.val - r0, by omega⟩).congr_of ?_ ?_
    · funext z
      simp only [stacked, addSeg]
      rw [dif_pos hi]
      simp
    · exact congrArg₂ Fin.append (row A i hi) (row B i hi)
  · refine (IsGradient.const 0 _).congr_of ?_ ?_
    · funext z
      simp only [stacked, addSeg]
      rw [dif_neg hi]
      rfl
    · exact append_zero_zero.symm.trans
        (congrArg₂ Fin.append (setBlock_zero_row _ _ _ _ hi).symm (setBlock_zero_row _ _ _ _ hi).symm)

theorem isJac_sum {s : Finset (Fin nk)} {F : Fin nk → Vec ndx → Vec nu → Vec r} {A : Fin nk → Mat r ndx} {B : Fin nk → Mat r nu}
    {x : Vec ndx} {u : Vec nu} (h : ∀ i, IsJac (F i) (A i) (B i) x u) :
    IsJac (fun x u => ∑ i ∈ s, F i x u) (∑ i ∈ s, A i) (∑ i ∈ s, B i) x u := by
  classical
  induction s using Finset.induction_on with
  | empty => simpa using IsJac_const 0 x u
  | insert i s hi ih =>
    simp only [Finset.sum_insert hi]
    exact IsJac_add (h i) ih

/-- Cross products of functions of two variables. -/
theorem isJac_cross {F G : Vec ndx → Vec nu → Vec 3} {A C : Mat 3 ndx} {B D : Mat 3 nu} {x : Vec ndx} {u : Vec nu}
    (hF : IsJac F A B x u) (hG : IsJac G C D x u) :
    IsJac (fun x u => F x u ⨯₃ G x u) (skew (F x u) * C - skew (G x u) * A) (skew (F x u) * D - skew (G x u) * B) x u := by
  have h := isJacobian_cross hF hG
  refine IsJacobian.congr h ?_
  have e1 : stacked F (Fin.append x u) = F x u := by simp [stacked]
  have e2 : stacked G (Fin.append x u) = G x u := by simp [stacked]
  rw [e1, e2]
  have m := fun (S : Mat 3 3) (A : Mat 3 ndx) (B : Mat 3 nu) => mul_beside S A B
  show skew (F x u) * beside C D - skew (G x u) * beside A B = _
  rw [m, m]
  funext i
  exact Deriv.append_sub _ _ _ _

/-- The force of a contact. -/
theorem isJac_force (L : Layout nk nu) (i : Fin nk) (u : Vec nu) :
    IsJac (fun (_ : Vec ndx) w => force L.fs (u + w) i) 0 (Centroidal.setBlock 0 0 (L.fs * i) (1 : Mat 3 3)) 0 0 := by
  have hb := fun c hc => (L.ix i c hc).isLt
  have h3 := L.h3
  have hle : L.fs * i + 3 ≤ nu := by
    have := (L.ix i 2 (by omega)).isLt
    rw [ix_val] at this
    omega
  have h := IsJac_add (IsJac_const (force L.fs u i) 0 0) (isJac_block (n := ndx) 3 (L.fs * i) hle (fun f => f) 1 0 0 (IsJacobian.id _))
  rw [zero_add, zero_add] at h
  have e : (fun (_ : Vec ndx) (w : Vec nu) => force L.fs u i + fun c : Fin 3 => w ⟨L.fs * i + c, by omega⟩) =
      fun _ w => force L.fs (u + w) i := by
    funext _ w
    rw [← force_eq L, ← force_eq L]
    funext c
    have : ∀ v : Vec nu, L.force v i c = v ⟨L.fs * i + c, by omega⟩ := fun v => by
      simp only [Layout.force]
      congr 1
      exact Fin.ext (ix_val L i c (by omega))
    rw [Pi.add_apply, this, this]
    rfl
  rw [e] at h
  exact h

/-- The moment of a contact. -/
theorem isJac_moment (L : Layout nk nu) (i : Fin nk) (u : Vec nu) :
    IsJac (fun (_ : Vec ndx) w => moment L.fs (u + w) i) 0
      (if L.fs = 6 then Centroidal.setBlock 0 0 (L.fs * i + 3) (1 : Mat 3 3) else 0) 0 0 := by
  by_cases h6 : L.fs = 6
  · rw [if_pos h6]
    have hle : L.fs * i + 3 + 3 ≤ nu := by
      have := (L.ix i 5 (by omega)).isLt
      rw [ix_val] at this
      omega
    have h := IsJac_add (IsJac_const (moment L.fs u i) 0 0)
      (isJac_block (n := ndx) 3 (L.fs * i + 3) hle (fun f => f) 1 0 0 (IsJacobian.id _))
    rw [zero_add, zero_add] at h
    have e : (fun (_ : Vec ndx) (w : Vec nu) => moment L.fs u i + fun c : Fin 3 => w ⟨L.fs * i + 3 + c, by omega⟩) =
        fun _ w => moment L.fs (u + w) i := by
      funext _ w
      rw [← moment_eq L h6, ← moment_eq L h6]
      funext c
      have : ∀ v : Vec nu, L.moment h6 v i c = v ⟨L.fs * i + 3 + c, by omega⟩ := fun v => by
        simp only [Layout.moment]
        congr 1
        exact Fin.ext ((ix_val L i (3 + c) (by omega)).trans (by simp [add_assoc]))
      rw [Pi.add_apply, this, this]
      rfl
    rw [e] at h
    exact h
  · rw [if_neg h6]
    have e : (fun (_ : Vec ndx) (w : Vec nu) => moment L.fs (u + w) i) = fun _ _ => 0 := by
      funext _ w
      simp [moment, h6]
    rw [e]
    exact IsJac_const 0 0 0

theorem jtemp_eq (p c : Vec 3) : jtemp p c = skew (p - c) := by
  ext i j; fin_cases i <;> fin_cases j <;> simp [jtemp, skew]

/-- The rate of the centroidal momentum: weight and contact forces, and the moments of the contact wrenches about the centre of
mass. -/
noncomputable def momentumRateSpec (K : Pin nq nv Frame) (active : Fin nk → Bool) (frame : Fin nk → Frame) (fs : ℕ) (mass : ℝ)
    (grav : Vec 3) (q : Vec nq) (u : Vec nu) : Vec 6 :=
  Fin.append (mass • grav + resultant active fs u) (totalMoment active (fun i => (K.place (frame i) q).p) fs (K.com q) u)

variable {K : Pin nq nv Frame} {integ : Vec nq → Vec nv → Vec nq} {Q : Vec nq → Prop}
  {X : Vec nx → Vec ndx → Vec nx} {hq : nq ≤ nx} {hqv : nq + nv ≤ nx} {hv : nv ≤ ndx}

/-- What a contact adds. -/
noncomputable def contactV (K : Pin nq nv Frame) (active : Fin nk → Bool) (frame : Fin nk → Frame) (fs : ℕ) (q : Vec nq)
    (u : Vec nu) (i : Fin nk) : Vec 6 :=
  if active i = true then addSeg 0 0 (force fs u i) +
    addSeg 0 3 (((K.place (frame i) q).p - K.com q) ⨯₃ force fs u i + moment fs u i) else 0

theorem momentumRateSpec_eq (active : Fin nk → Bool) (frame : Fin nk → Frame) (fs : ℕ) (mass : ℝ) (grav : Vec 3) (q : Vec nq)
    (u : Vec nu) (v : Vec 6) :
    setSeg (setSeg v 0 (mass • grav)) 3 (0 : Vec 3) + ∑ i, contactV K active frame fs q u i =
      momentumRateSpec K active frame fs mass grav q u := by
  unfold contactV
  rw [← Finset.sum_filter, Finset.sum_add_distrib, ← addSeg_sum, ← addSeg_sum]
  unfold momentumRateSpec
  funext row
  show _ + (addSeg 0 0 (resultant active fs u) row +
    addSeg 0 3 (totalMoment active (fun i => (K.place (frame i) q).p) fs (K.com q) u) row) = _
  fin_cases row <;> simp [setSeg, addSeg, Fin.append, Fin.addCases]

/-- What a contact adds to the Jacobians. -/
noncomputable def contactX (K : Pin nq nv Frame) (active : Fin nk → Bool) (frame : Fin nk → Frame) (L : Layout nk nu) (q : Vec nq)
    (u : Vec nu) (i : Fin nk) : Mat 6 ndx :=
  if active i = true then Centroidal.setBlock 0 3 0 (skew (L.force u i) *
    (K.Jcom q - top (K.jac (frame i) .LOCAL_WORLD_ALIGNED q))) else 0

noncomputable def contactU (K : Pin nq nv Frame) (active : Fin nk → Bool) (frame : Fin nk → Frame) (L : Layout nk nu) (q : Vec nq)
    (i : Fin nk) : Mat 6 nu :=
  if active i = true then Centroidal.setBlock 0 0 (L.fs * i) (1 : Mat 3 3) +
    (Centroidal.setBlock 0 3 (L.fs * i) (jtemp (K.place (frame i) q).p (K.com q)) +
      if L.fs = 6 then Centroidal.setBlock 0 3 (L.fs * i + 3) (1 : Mat 3 3) else 0) else 0

theorem isJac_contact_of (hX : MovesConfig integ X hq hv) (active : Fin nk → Bool) (frame : Fin nk → Frame)
    (L : Layout nk nu) (x : Vec nx) (u : Vec nu) (hx0 : head nq hq (X x 0) = head nq hq x) (i : Fin nk)
    (hP : DerivQ integ (fun q => (K.place (frame i) q).p) (top (K.jac (frame i) .LOCAL_WORLD_ALIGNED (head nq hq x)))
      (head nq hq x)) (hC : DerivQ integ K.com (K.Jcom (head nq hq x)) (head nq hq x)) :
    IsJac (fun z w => contactV K active frame L.fs (head nq hq (X x z)) (u + w) i)
      (contactX K active frame L (head nq hq x) u i) (contactU K active frame L (head nq hq x) i) 0 0 := by
  unfold contactV contactX contactU
  by_cases ha : active i = true
  · simp only [if_pos ha]
    have hD : DerivQ integ (fun q => (K.place (frame i) q).p - K.com q) _ (head nq hq x) := IsJacobian.sub hP hC
    have h1 := isJac_cross (isJac_config (nu := nu) hX hD) (isJac_force (ndx := ndx) L i u)
    have h2 := IsJac_add h1 (isJac_moment (ndx := ndx) L i u)
    have h3 := IsJac_add (isJac_addSeg (r := 6) (isJac_force (ndx := ndx) L i u) 0) (isJac_addSeg (r := 6) h2 3)
    have eX : Centroidal.setBlock (0 : Mat 6 ndx) 0 0 (0 : Mat 3 ndx) + Centroidal.setBlock 0 3 0
        (skew ((K.place (frame i) (head nq hq (X x 0))).p - K.com (head nq hq (X x 0))) * (0 : Mat 3 ndx) -
          skew (force L.fs (u + 0) i) * setBlock (0 : Mat 3 ndx) 0 0
            (top (K.jac (frame i) .LOCAL_WORLD_ALIGNED (head nq hq x)) - K.Jcom (head nq hq x)) + 0) =
        Centroidal.setBlock 0 3 0 (skew (L.force u i) *
          (K.Jcom (head nq hq x) - top (K.jac (frame i) .LOCAL_WORLD_ALIGNED (head nq hq x)))) := by
      rw [setBlock_zero0, zero_add, Matrix.mul_zero, zero_sub, add_zero, add_zero, mul_setBlock, setBlock_neg0, setBlock_nested,
        ← setBlock_neg0, ← force_eq L, ← Matrix.mul_neg, neg_sub]
    have eU : Centroidal.setBlock (0 : Mat 6 nu) 0 0 (Centroidal.setBlock (0 : Mat 3 nu) 0 (L.fs * i) (1 : Mat 3 3)) +
        Centroidal.setBlock 0 3 0
        (skew ((K.place (frame i) (head nq hq (X x 0))).p - K.com (head nq hq (X x 0))) *
          Centroidal.setBlock (0 : Mat 3 nu) 0 (L.fs * i) (1 : Mat 3 3) - skew (force L.fs (u + 0) i) * (0 : Mat 3 nu) +
          if L.fs = 6 then Centroidal.setBlock 0 0 (L.fs * i + 3) (1 : Mat 3 3) else 0) =
        Centroidal.setBlock 0 0 (L.fs * i) (1 : Mat 3 3) +
          (Centroidal.setBlock 0 3 (L.fs * i) (jtemp (K.place (frame i) (head nq hq x)).p (K.com (head nq hq x))) +
          if L.fs = 6 then Centroidal.setBlock 0 3 (L.fs * i + 3) (1 : Mat 3 3) else 0) := by
      rw [Matrix.mul_zero, sub_zero, mul_setBlock, mul_one, setBlock_add0, setBlock_nested, setBlock_nested, hx0, jtemp_eq]
      congr 2
      split_ifs
      · rw [setBlock_nested]
      · rw [setBlock_zero0]
    rw [← eX, ← eU]
    exact h3
  · simp only [if_neg ha]
    exact IsJac_const 0 0 0

theorem isJac_contact (hK : Lawful K integ Q) (hX : MovesConfig integ X hq hv) (active : Fin nk → Bool) (frame : Fin nk → Frame)
    (L : Layout nk nu) (x : Vec nx) (u : Vec nu) (hx : Q (head nq hq x)) (hx0 : head nq hq (X x 0) = head nq hq x) (i : Fin nk) :
    IsJac (fun z w => contactV K active frame L.fs (head nq hq (X x z)) (u + w) i)
      (contactX K active frame L (head nq hq x) u i) (contactU K active frame L (head nq hq x) i) 0 0 := by
  refine isJac_contact_of hX active frame L x u hx0 i ?_ (hK.com _ hx)
  have := (hK.place (frame i) _ hx).trans
  rw [hK.integ_zero _ hx] at this
  rw [hK.lwa _ _ hx, top_six_mul, Matrix.zero_mul, add_zero]
  exact this

/-- The loop of `evaluate`. -/
theorem rateValue_fold [DecidableEq Frame] (active : Fin nk → Bool) (frame : Fin nk → Frame) (L : Layout nk nu) (u : Vec nu)
    (q : Vec nq) : ∀ (l : List (Fin nk)) (d : MData nq nv Frame ndx nu), d.pin.q = q → d.pin.com = K.com q →
      ∃ pin : PinData nq nv Frame, pin.q = q ∧ pin.com = K.com q ∧
        (∀ f, d.pin.oMf f = K.place f q → pin.oMf f = K.place f q) ∧
        (∀ i ∈ l, active i = true → pin.oMf (frame i) = K.place (frame i) q) ∧
        l.foldl (rateValue K active frame L u) d =
          ⟨⟨d.value + (l.map (contactV K active frame L.fs q u)).sum, d.Jx, d.Ju⟩, pin⟩ := by
  intro l
  induction l with
  | nil =>
    intro d hq hc
    exact ⟨d.pin, hq, hc, fun _ h => h, by simp, by simp⟩
  | cons i l ih =>
    intro d hq hc
    have hstep : ∃ pin : PinData nq nv Frame, pin.q = q ∧ pin.com = K.com q ∧
        (∀ f, d.pin.oMf f = K.place f q → pin.oMf f = K.place f q) ∧
        (active i = true → pin.oMf (frame i) = K.place (frame i) q) ∧
        rateValue K active frame L u d i = ⟨⟨d.value + contactV K active frame L.fs q u i, d.Jx, d.Ju⟩, pin⟩ := by
      unfold rateValue contactV
      by_cases ha : active i = true
      · refine ⟨updateFramePlacement K (frame i) d.pin, hq, hc, ?_, ?_, ?_⟩
        · intro f hf
          simp only [updateFramePlacement]
          by_cases e : f = frame i
          · rw [e, Function.update_self, hq]
          · rw [Function.update_of_ne e, hf]
        · intro _
          simp only [updateFramePlacement]
          rw [Function.update_self, hq]
        · rw [if_pos ha, if_pos ha]
          dsimp only
          rw [crossTerm_eq, force_eq]
          dsimp only [updateFramePlacement]
          rw [Function.update_self, hq, hc]
          by_cases h6 : L.fs = 6
          · rw [dif_pos h6, moment_eq, addSeg_eq (addSeg (addSeg _ _ _) _ _), addSeg_eq (addSeg _ _ _), addSeg_eq d.value,
              addSeg_add, add_assoc, add_assoc]
          · rw [dif_neg h6, addSeg_eq (addSeg _ _ _), addSeg_eq d.value, add_assoc]
            simp [moment, h6]
      · refine ⟨d.pin, hq, hc, fun _ h => h, fun h => absurd h ha, ?_⟩
        rw [if_neg ha, if_neg ha, add_zero]
    obtain ⟨pin1, h1q, h1c, h1o, h1i, h1e⟩ := hstep
    obtain ⟨pin2, h2q, h2c, h2o, h2i, h2e⟩ := ih ⟨⟨d.value + contactV K active frame L.fs q u i, d.Jx, d.Ju⟩, pin1⟩ h1q h1c
    refine ⟨pin2, h2q, h2c, fun f hf => h2o f (h1o f hf), ?_, ?_⟩
    · intro j hj ha
      rcases List.mem_cons.1 hj with rfl | hj
      · exact h2o _ (h1i ha)
      · exact h2i j hj ha
    · rw [List.foldl_cons, h1e, h2e]
      simp [add_assoc]

/-- The loop of the state Jacobian. -/
theorem rateJx_fold (hK : Lawful K integ Q) (active : Fin nk → Bool) (frame : Fin nk → Frame) (L : Layout nk nu) (u : Vec nu)
    (q : Vec nq) : ∀ (l : List (Fin nk)) (d : MData nq nv Frame ndx nu), d.pin.jq = q → d.pin.Jcom = K.Jcom q →
      l.foldl (rateJx K active frame L u) d =
        ⟨⟨d.value, d.Jx + (l.map (contactX K active frame L q u)).sum, d.Ju⟩, d.pin⟩ := by
  intro l
  induction l with
  | nil => intro d _ _; simp
  | cons i l ih =>
    intro d hj hc
    have hstep : rateJx K active frame L u d i = ⟨⟨d.value, d.Jx + contactX K active frame L q u i, d.Ju⟩, d.pin⟩ := by
      unfold rateJx contactX getFrameJacobian
      by_cases ha : active i = true
      · rw [if_pos ha, if_pos ha, hj, hc]
        dsimp only
        have hf : fill (K.supports (frame i)) (K.jac (frame i) .LOCAL_WORLD_ALIGNED q) 0 =
            K.jac (frame i) .LOCAL_WORLD_ALIGNED q :=
          fill_eq _ _ _ (fun j hj => (hK.unsupported (frame i) .LOCAL_WORLD_ALIGNED q 0 j hj).1) (fun _ _ _ => rfl)
        rw [hf]
      · rw [if_neg ha, if_neg ha, add_zero]
    rw [List.foldl_cons, hstep]
    refine (ih ⟨⟨d.value, d.Jx + contactX K active frame L q u i, d.Ju⟩, d.pin⟩ hj hc).trans ?_
    simp [add_assoc]

/-- The loop of the control Jacobian. -/
theorem rateJu_fold (active : Fin nk → Bool) (frame : Fin nk → Frame) (L : Layout nk nu) (q : Vec nq)
    (d : MData nq nv Frame ndx nu) (ho : ∀ i, active i = true → d.pin.oMf (frame i) = K.place (frame i) q)
    (hc : d.pin.com = K.com q) (hJ : d.Ju = 0) :
    (List.finRange nk).foldl (rateJu active frame L) d =
      ⟨⟨d.value, d.Jx, ∑ i, contactU K active frame L q i⟩, d.pin⟩ := by
  have h3 := L.h3
  have hcol : ∀ (i j : Fin nk), i ≠ j → ∀ (a : Fin 6) (l : Fin nu), (j * L.fs ≤ l.val ∧ l.val < j * L.fs + L.fs) →
      contactU K active frame L q i a l = 0 := by
    intro i j hij a l hl
    have hd := disjoint_cols L.fs (fun h => hij (Fin.ext h).symm) l.val hl
    rw [mul_comm] at hd
    unfold contactU
    split_ifs with ha h6
    · rw [Matrix.add_apply, Matrix.add_apply, setBlock_zero_col _ _ _ _ _ (by omega), setBlock_zero_col _ _ _ _ _ (by omega),
        setBlock_zero_col _ _ _ _ _ (by omega), add_zero, add_zero]
    · rw [add_zero, Matrix.add_apply, setBlock_zero_col _ _ _ _ _ (by omega), setBlock_zero_col _ _ _ _ _ (by omega), add_zero]
    · rfl
  have gen : ∀ (l : List (Fin nk)) (J : Mat 6 nu), l.Nodup →
      (∀ i ∈ l, ∀ (a : Fin 6) (c : Fin nu), (i * L.fs ≤ c.val ∧ c.val < i * L.fs + L.fs) → J a c = 0) →
      l.foldl (rateJu active frame L) (⟨⟨d.value, d.Jx, J⟩, d.pin⟩ : MData nq nv Frame ndx nu) =
        ⟨⟨d.value, d.Jx, J + (l.map (contactU K active frame L q)).sum⟩, d.pin⟩ := by
    intro l
    induction l with
    | nil => intro J _ _; simp
    | cons i l ih =>
      intro J hn hz
      rw [List.nodup_cons] at hn
      have hzi := hz i (by simp)
      have hstep : rateJu active frame L (⟨⟨d.value, d.Jx, J⟩, d.pin⟩ : MData nq nv Frame ndx nu) i =
          ⟨⟨d.value, d.Jx, J + contactU K active frame L q i⟩, d.pin⟩ := by
        unfold rateJu contactU
        by_cases ha : active i = true
        · rw [if_pos ha, if_pos ha]
          dsimp only [setBlock]
          rw [ho i ha, hc, setBlock_of_zero J 0 (L.fs * i) _ fun a c _ hl => hzi a c (by rw [mul_comm]; omega),
            setBlock_of_zero (_ + _) 3 (L.fs * i)]
          · by_cases h6 : L.fs = 6
            · rw [if_pos h6, if_pos h6, setBlock_of_zero (_ + _) 3 (L.fs * i + 3)]
              · rw [add_assoc, add_assoc]
              · intro a c _ hl
                rw [Matrix.add_apply, Matrix.add_apply, hzi a c (by rw [mul_comm]; omega),
                  setBlock_zero_col _ _ _ _ _ (by omega), setBlock_zero_col _ _ _ _ _ (by omega), add_zero, add_zero]
            · rw [if_neg h6, if_neg h6, add_zero, add_assoc]
          · intro a c ha' hl
            rw [Matrix.add_apply, hzi a c (by rw [mul_comm]; omega), setBlock_zero_row _ _ _ _ (by omega), zero_add]
            rfl
        · rw [if_neg ha, if_neg ha, add_zero]
      rw [List.foldl_cons, hstep, ih _ hn.2]
      · simp [add_assoc]
      · intro j hj a c hl
        rw [Matrix.add_apply, hz j (by simp [hj]) a c hl, hcol i j (fun e => hn.1 (e ▸ hj)) a c hl, add_zero]
  have e : d = ⟨⟨d.value, d.Jx, 0⟩, d.pin⟩ := by rw [← hJ]
  rw [e]
  refine (gen _ 0 (List.nodup_finRange nk) (fun _ _ _ _ _ => rfl)).trans ?_
  rw [zero_add, Fin.sum_univ_def]

/-- C60: the momentum-rate residual: Newton's and Euler's equations for the active contacts, with its Jacobians in
configuration and forces. -/
theorem C60_momentum_rate [DecidableEq Frame] (hK : Lawful K integ Q) (hX : MovesConfig integ X hq hv)
    (pin0 : PinData nq nv Frame) (active : Fin nk → Bool) (frame : Fin nk → Frame) (L : Layout nk nu) (mass : ℝ) (grav : Vec 3) :
    Right (momentumRate K pin0 hq hqv active frame L mass grav : Resid Unit nx ndx nu 6) X (fun _ x => Q (head nq hq x))
      (fun _ _ => True) (fun _ x u => momentumRateSpec K active frame L.fs mass grav (head nq hq x) u) := by
  refine right_of_inv _ _ _ _ _ (fun _ _ => True) (fun _ => trivial) (fun _ _ _ _ _ _ _ => trivial)
    (fun _ _ _ _ _ _ _ => trivial) ?_
  intro _ x u d hx _
  -- what evaluating does
  have hev : ∃ pin : PinData nq nv Frame, (∀ i, active i = true → pin.oMf (frame i) = K.place (frame i) (head nq hq x)) ∧
      ((momentumRate K pin0 hq hqv active frame L mass grav : Resid Unit nx ndx nu 6).evaluate () x u d : MData nq nv Frame ndx nu) =
      ⟨⟨momentumRateSpec K active frame L.fs mass grav (head nq hq x) u, FData.Jx (MData.toFData d), FData.Ju (MData.toFData d)⟩,
        pin⟩ := by
    obtain ⟨pin, _, _, _, h4, h5⟩ := rateValue_fold (K := K) active frame L u (head nq hq x) (List.finRange nk)
      (⟨⟨setSeg (setSeg (MData.toFData d).value 0 (mass • grav)) 3 (0 : Vec 3), (MData.toFData d).Jx, (MData.toFData d).Ju⟩,
        centerOfMassV K (head nq hq x) (segment (nx - nv) nv (by omega) x) (fk (head nq hq x) (MData.pin d))⟩) rfl rfl
    refine ⟨pin, fun i ha => h4 i (List.mem_finRange i) ha, ?_⟩
    refine Eq.trans h5 ?_
    dsimp only
    rw [← Fin.sum_univ_def, momentumRateSpec_eq]
  obtain ⟨pin, ho, hev⟩ := hev
  -- what the Jacobians then are
  have hjc : ((momentumRate K pin0 hq hqv active frame L mass grav : Resid Unit nx ndx nu 6).computeJacobians () x u
      (⟨⟨momentumRateSpec K active frame L.fs mass grav (head nq hq x) u, FData.Jx (MData.toFData d),
        FData.Ju (MData.toFData d)⟩, pin⟩ : MData nq nv Frame ndx nu) : MData nq nv Frame ndx nu) =
      ⟨⟨momentumRateSpec K active frame L.fs mass grav (head nq hq x) u, ∑ i, contactX K active frame L (head nq hq x) u i,
        ∑ i, contactU K active frame L (head nq hq x) i⟩,
        computeJointJacobians (jacobianCenterOfMass K (head nq hq x) pin)⟩ := by
    have h1 := rateJx_fold (ndx := ndx) hK active frame L u (head nq hq x) (List.finRange nk)
      (⟨⟨momentumRateSpec K active frame L.fs mass grav (head nq hq x) u, 0, FData.Ju (MData.toFData d)⟩,
        computeJointJacobians (jacobianCenterOfMass K (head nq hq x) pin)⟩) rfl rfl
    have h2 := rateJu_fold (K := K) (ndx := ndx) active frame L (head nq hq x)
      (⟨⟨momentumRateSpec K active frame L.fs mass grav (head nq hq x) u, ∑ i, contactX K active frame L (head nq hq x) u i, 0⟩,
        computeJointJacobians (jacobianCenterOfMass K (head nq hq x) pin)⟩) ho rfl rfl
    refine Eq.trans ?_ h2
    dsimp only [momentumRate]
    dsimp only at h1
    rw [h1, zero_add, ← Fin.sum_univ_def]
  have hx0 : head nq hq (X x 0) = head nq hq x := by
    rw [hX, head_zero, hK.integ_zero _ hx]
  have hsum := isJac_sum (s := Finset.univ) fun i => isJac_contact hK hX active frame L x u hx hx0 i
  have hJ := IsJac_add (IsJac_const (setSeg (setSeg (0 : Vec 6) 0 (mass • grav)) 3 (0 : Vec 3)) 0 0) hsum
  rw [zero_add, zero_add] at hJ
  simp only [momentumRateSpec_eq] at hJ
  have b1 : ∀ e : MData nq nv Frame ndx nu, (momentumRate K pin0 hq hqv active frame L mass grav :
    Resid Unit nx ndx nu 6).base e = e.toFData := fun _ => rfl
  refine ⟨?_, ?_, ?_, ?_, ?_⟩
  · exact congrArg (fun e : MData nq nv Frame ndx nu => e.toFData.value) hev
  · exact (congrArg (fun e : MData nq nv Frame ndx nu => e.toFData.Jx) hev).trans rfl
  · exact (congrArg (fun e : MData nq nv Frame ndx nu => e.toFData.Ju) hev).trans rfl
  · rw [hev]
    exact congrArg (fun e : MData nq nv Frame ndx nu => e.toFData.value) hjc
  · rw [hev]
    have e1 := congrArg (fun e : MData nq nv Frame ndx nu => e.toFData.Jx) hjc
    have e2 := congrArg (fun e : MData nq nv Frame ndx nu => e.toFData.Ju) hjc
    dsimp only at e1 e2
    show IsJac _ (MData.toFData _).Jx (MData.toFData _).Ju 0 0
    rw [e1, e2]
    exact hJ

/-- Two contacts with wrenches, one of them inactive. -/
example := C60_momentum_rate (nu := 12) (nk := 2) (hqv := by decide) Robot.lawful Robot.move_config Robot.pin0 (fun i => i == 0) (fun i => i == 0)
  ⟨6, by decide, by decide⟩ 2 ![0, 0, -10]

end Aligator.MB
