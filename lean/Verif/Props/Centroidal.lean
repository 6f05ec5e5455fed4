import Verif.Lemmas.Centroidal

/-!
# C52: values and Jacobians of the centroidal residuals and dynamics, and of the wheeled inverted pendulum
-/

namespace Aligator.Centroidal

open Matrix Aligator.Deriv

variable {n m r nk : ℕ}

/-- A function is right: in data of any history, `evaluate` writes the value of `F` and leaves the Jacobians;
`computeJacobians` writes its Jacobians and leaves the value. -/
def Right (f : Fun n m r) (F : Vec n → Vec m → Vec r) : Prop :=
  ∀ (cs : List (Call n m)) (x : Vec n) (u : Vec m),
    let d := cs.foldl f.call f.new
    let e := f.evaluate x u d
    let j := f.computeJacobians x u d
    (f.base e).value = F x u ∧ (f.base e).Jx = (f.base d).Jx ∧ (f.base e).Ju = (f.base d).Ju ∧
    (f.base j).value = (f.base d).value ∧ Spec.IsJac F (f.base j).Jx (f.base j).Ju x u

/-- Functions whose data keeps an invariant. -/
theorem right_of_inv (f : Fun n m r) (F : Vec n → Vec m → Vec r) (Inv : f.Data → Prop) (hnew : Inv f.new)
    (he : ∀ x u d, Inv d → Inv (f.evaluate x u d)) (hj : ∀ x u d, Inv d → Inv (f.computeJacobians x u d))
    (h : ∀ x u d, Inv d → (f.base (f.evaluate x u d)).value = F x u ∧ (f.base (f.evaluate x u d)).Jx = (f.base d).Jx ∧
      (f.base (f.evaluate x u d)).Ju = (f.base d).Ju ∧ (f.base (f.computeJacobians x u d)).value = (f.base d).value ∧
      Spec.IsJac F (f.base (f.computeJacobians x u d)).Jx (f.base (f.computeJacobians x u d)).Ju x u) : Right f F := by
  have hinv : ∀ (cs : List (Call n m)) (d : f.Data), Inv d → Inv (cs.foldl f.call d) := by
    intro cs
    induction cs with
    | nil => exact fun d hd => hd
    | cons c cs ih =>
      intro d hd
      rw [List.foldl_cons]
      apply ih
      cases c with
      | value x u => exact he x u d hd
      | jac x u => exact hj x u d hd
  intro cs x u
  exact h x u _ (hinv cs _ hnew)

/-- Functions with no data of their own, whose Jacobian buffers keep an invariant. -/
theorem right_plain (ev jc : Vec n → Vec m → FData n m r → FData n m r) (F : Vec n → Vec m → Vec r)
    (Inv : Mat r n → Mat r m → Prop) (h0 : Inv 0 0)
    (hv : ∀ x u d, ev x u d = ⟨F x u, d.Jx, d.Ju⟩)
    (hj : ∀ x u d, Inv d.Jx d.Ju → ∃ A B, jc x u d = ⟨d.value, A, B⟩ ∧ Inv A B ∧ Spec.IsJac F A B x u) :
    Right ⟨FData n m r, fun d => d, FData.new, ev, jc⟩ F := by
  refine right_of_inv _ _ (fun d : FData n m r => Inv d.Jx d.Ju) h0 ?_ ?_ ?_
  · intro x u d hd
    show Inv (ev x u d).Jx (ev x u d).Ju
    rw [hv]
    exact hd
  · intro x u d hd
    show Inv (jc x u d).Jx (jc x u d).Ju
    obtain ⟨A, B, e, hi, _⟩ := hj x u d hd
    rw [e]
    exact hi
  · intro x u d hd
    obtain ⟨A, B, e, _, hJ⟩ := hj x u d hd
    show (ev x u d).value = F x u ∧ (ev x u d).Jx = FData.Jx d ∧ (ev x u d).Ju = FData.Ju d ∧
      (jc x u d).value = FData.value d ∧ Spec.IsJac F (jc x u d).Jx (jc x u d).Ju x u
    rw [hv, e]
    exact ⟨rfl, rfl, rfl, rfl, hJ⟩

/-! ### Residuals of the state -/

theorem isJac_rows {F : Vec n → Vec m → Vec r} {Jx : Mat r n} {Ju : Mat r m} {x : Vec n} {u : Vec m}
    (h : ∀ i, IsGradient (fun z => stacked F z i) (Fin.append (Jx i) (Ju i)) (Fin.append x u)) :
    Spec.IsJac F Jx Ju x u := h

/-- Three coordinates of the state from `k`, minus a reference. -/
theorem isJac_segment (k : ℕ) (hk : k + 3 ≤ n) (ref : Vec 3) (x : Vec n) (u : Vec m) :
    Spec.IsJac (fun x _ => Spec.three x k - ref) (setBlock 0 0 k (1 : Mat 3 3)) (0 : Mat 3 m) x u := by
  apply isJac_rows
  intro i
  have h := (grad_block_x (m := m) 0 k (1 : Mat 3 3) i i (by simp) (fun c => (⟨k + c, by omega⟩ : Fin n)) (fun c => rfl)
    (Fin.append x u)).sub (IsGradient.const (ref i) _)
  have e1 : (fun z => stacked (fun x (_ : Vec m) => Spec.three x k - ref) z i) = fun y : Vec (n + m) =>
      (∑ c, (1 : Mat 3 3) i c * y (Fin.castAdd m (⟨k + c.val, by omega⟩ : Fin n))) - ref i := by
    funext y
    simp only [stacked, Pi.sub_apply, Matrix.one_apply, ite_mul, one_mul, zero_mul, Finset.sum_ite_eq, Finset.mem_univ,
      if_true]
    congr 1
    fin_cases i
    · simp [Spec.three, Spec.get, fst, show k < n by omega]
    · simp [Spec.three, Spec.get, fst, show k + 1 < n by omega]
    · simp [Spec.three, Spec.get, fst, show k + 2 < n by omega]
  rw [e1]
  refine h.congr ?_
  rw [sub_zero]
  rfl

/-- C52: the centre-of-mass residual. -/
theorem C52_com (hn : 3 ≤ n) (pref : Vec 3) :
    Right (comResidual hn pref : Fun n m 3) fun x _ => Spec.three x 0 - pref := by
  refine right_of_inv _ _ (fun d : FData n m 3 => setBlock d.Jx 0 0 (1 : Mat 3 3) = setBlock 0 0 0 (1 : Mat 3 3) ∧ d.Ju = 0)
    ⟨rfl, rfl⟩ (fun x u d hd => hd) ?_ ?_
  · intro x u d hd
    exact ⟨(setBlock_setBlock _ _ _ _ _).trans hd.1, hd.2⟩
  · intro x u d hd
    refine ⟨?_, rfl, rfl, rfl, ?_⟩
    · show com hn x - pref = _
      rw [com_eq]
    · show Spec.IsJac _ (setBlock (FData.Jx d) 0 0 (1 : Mat 3 3)) (FData.Ju d) x u
      rw [hd.1, hd.2]
      exact isJac_segment 0 (by omega) pref x u

theorem three_eq (k : ℕ) (hk : k + 3 ≤ n) (x : Vec n) : (fun c : Fin 3 => x ⟨k + c, by omega⟩) = Spec.three x k := by
  funext c
  fin_cases c
  · simp [Spec.three, Spec.get, show k < n by omega]
  · simp [Spec.three, Spec.get, show k + 1 < n by omega]
  · simp [Spec.three, Spec.get, show k + 2 < n by omega]

/-- C52: the linear-momentum residual. -/
theorem C52_linear_momentum (hn : 6 ≤ n) (href : Vec 3) :
    Right (linearMomentum hn href : Fun n m 3) fun x _ => Spec.three x 3 - href := by
  refine right_of_inv _ _ (fun d : FData n m 3 => setBlock d.Jx 0 3 (1 : Mat 3 3) = setBlock 0 0 3 (1 : Mat 3 3) ∧ d.Ju = 0)
    ⟨rfl, rfl⟩ (fun x u d hd => hd) ?_ ?_
  · intro x u d hd
    exact ⟨(setBlock_setBlock _ _ _ _ _).trans hd.1, hd.2⟩
  · intro x u d hd
    refine ⟨?_, rfl, rfl, rfl, ?_⟩
    · show (fun c : Fin 3 => x ⟨3 + c, by omega⟩) - href = _
      rw [three_eq 3 hn]
    · show Spec.IsJac _ (setBlock (FData.Jx d) 0 3 (1 : Mat 3 3)) (FData.Ju d) x u
      rw [hd.1, hd.2]
      exact isJac_segment 3 (by omega) href x u

/-- C52: the angular-momentum residual, on states of dimension nine.  Missing: larger states, on which it is wrong
(`C52_angular_momentum_wrong`). -/
theorem C52_angular_momentum_partial (Lref : Vec 3) :
    Right (angularMomentum (n := 9) le_rfl Lref : Fun 9 m 3) fun x _ => Spec.three x 6 - Lref := by
  refine right_of_inv _ _ (fun d : FData 9 m 3 => setBlock d.Jx 0 6 (1 : Mat 3 3) = setBlock 0 0 6 (1 : Mat 3 3) ∧ d.Ju = 0)
    ⟨rfl, rfl⟩ (fun x u d hd => hd) ?_ ?_
  · intro x u d hd
    exact ⟨(setBlock_setBlock _ _ _ _ _).trans hd.1, hd.2⟩
  · intro x u d hd
    refine ⟨?_, rfl, rfl, rfl, ?_⟩
    · show (fun c : Fin 3 => x ⟨6 + c, by omega⟩) - Lref = _
      rw [three_eq 6 le_rfl]
    · show Spec.IsJac _ (setBlock (FData.Jx d) 0 6 (1 : Mat 3 3)) (FData.Ju d) x u
      rw [hd.1, hd.2]
      exact isJac_segment 6 le_rfl Lref x u

/-- C52: on every larger state (for example with the forces in the state) the value of the angular-momentum residual is the
same but its Jacobian is wrong, at every point. -/
theorem C52_angular_momentum_wrong (hn : 9 < n) (Lref : Vec 3) (x : Vec n) (u : Vec m) :
    let f : Fun n m 3 := angularMomentum hn.le Lref
    (f.evaluate x u f.new).value = Spec.three x 6 - Lref ∧
    ¬ Spec.IsJac (fun x (_ : Vec m) => Spec.three x 6 - Lref) (f.computeJacobians x u f.new).Jx
      (f.computeJacobians x u f.new).Ju x u := by
  refine ⟨?_, ?_⟩
  · show (fun c : Fin 3 => x ⟨6 + c, by omega⟩) - Lref = _
    rw [three_eq 6 hn.le]
  · intro h
    have e := IsJacobian.unique h (isJac_segment 6 hn.le Lref x u)
    have e' := congrFun (congrFun e 0) (Fin.castAdd m (⟨6, by omega⟩ : Fin n))
    simp only [Fin.append_left] at e'
    change setBlock (0 : Mat 3 n) 0 (n - 3) (1 : Mat 3 3) 0 ⟨6, _⟩ = setBlock (0 : Mat 3 n) 0 6 (1 : Mat 3 3) 0 ⟨6, _⟩ at e'
    rw [setBlock_zero_col 0 (n - 3) _ _ _ (by simp; omega)] at e'
    simp [setBlock] at e'
    have e2 : (0 : ℝ) = (1 : Mat 3 3) 0 0 := e'
    simp at e2

/-! ### Accelerations -/

theorem ix_val (L : Layout nk m) (i : Fin nk) (c : ℕ) (hc : c < L.fs) : (L.ix i c hc).val = L.fs * i + c := by
  simp [Layout.ix, mul_comm]

/-- The contribution of a contact to the angular rate, its gradients (row `k` of the three rows from `r0`). -/
theorem grad_contact (L : Layout nk m) (hn : 3 ≤ n) (s : Vec 3) (i : Fin nk) (r0 : ℕ) (row : Fin r) (k : Fin 3)
    (hi : row.val = r0 + k.val) (x : Vec n) (u : Vec m) :
    IsGradient (fun z => (((s - Spec.three (fst z) 0) ⨯₃ Spec.force L.fs (snd z) i + Spec.moment L.fs (snd z) i) k))
      (Fin.append (setBlock (0 : Mat r n) r0 0 (crossX (L.force u i)) row)
        ((setBlock (0 : Mat r m) r0 (L.fs * i) (jtemp s (com hn x)) +
          if L.fs = 6 then setBlock 0 r0 (L.fs * i + 3) (1 : Mat 3 3) else 0 : Mat r m) row)) (Fin.append x u) := by
  have h3 := L.h3
  have g1 := grad_cross (n := n) (m := m) r0 (L.fs * i) s row k hi (fun c => Fin.castLE hn c) (fun c => by simp)
    (fun c => L.ix i c (by omega)) (fun c => ix_val L i c _) (Fin.append x u)
  simp only [Fin.append_left, Fin.append_right] at g1
  have e1 : (fun z : Vec (n + m) => (((s - Spec.three (fst z) 0) ⨯₃ Spec.force L.fs (snd z) i +
      Spec.moment L.fs (snd z) i) k)) = fun z => crossTerm s (fun c => z (Fin.castAdd m (Fin.castLE hn c)))
        (fun c : Fin 3 => z (Fin.natAdd n (L.ix i c (by omega)))) k + Spec.moment L.fs (snd z) i k := by
    funext z
    rw [← com_eq hn, ← force_eq, ← crossTerm_eq]
    rfl
  rw [e1]
  by_cases h6 : L.fs = 6
  · have g2 := grad_block_u (n := n) (m := m) r0 (L.fs * i + 3) (1 : Mat 3 3) row k hi
      (fun c => L.ix i (3 + c) (by omega)) (fun c => by rw [ix_val]; omega) (Fin.append x u)
    have e2 : (fun z : Vec (n + m) => ∑ c : Fin 3, (1 : Mat 3 3) k c * z (Fin.natAdd n (L.ix i (3 + c) (by omega)))) =
        fun z => Spec.moment L.fs (snd z) i k := by
      funext z
      rw [← moment_eq L h6]
      simp [Matrix.one_apply, Layout.moment, snd]
    rw [e2] at g2
    refine (g1.add g2).congr ?_
    rw [append_add, add_zero, if_pos h6]
    rfl
  · have e3 : (fun z : Vec (n + m) => Spec.moment L.fs (snd z) i k) = fun _ => 0 := by
      funext z
      simp [Spec.moment, h6]
    refine (g1.add (e3 ▸ IsGradient.const 0 _)).congr ?_
    rw [if_neg h6]
    funext l
    refine Fin.addCases (fun l => ?_) (fun l => ?_) l <;> simp <;> rfl

/-- The columns of contact `i` are zero. -/
def ZeroCols (L : Layout nk m) (i : Fin nk) (d : FData n m r) : Prop :=
  ∀ (a : Fin r) (l : Fin m), (i * L.fs ≤ l.val ∧ l.val < i * L.fs + L.fs) → d.Ju a l = 0

/-- Gradients of sums over contacts. -/
theorem grad_contacts (g : Fin nk → Vec (n + m) → ℝ) (X : Fin nk → Mat r n) (U : Fin nk → Mat r m) (k : Fin r)
    (z : Vec (n + m)) (h : ∀ i, IsGradient (g i) (Fin.append (X i k) (U i k)) z) :
    IsGradient (fun y => ∑ i, g i y) (Fin.append ((∑ i, X i) k) ((∑ i, U i) k)) z := by
  refine (IsGradient.sum Finset.univ fun i _ => h i).congr ?_
  funext l
  refine Fin.addCases (fun l => ?_) (fun l => ?_) l
  · simp only [Finset.sum_apply, Fin.append_left, Matrix.sum_apply]
  · simp only [Finset.sum_apply, Fin.append_right, Matrix.sum_apply]

theorem append_zero_zero : Fin.append (0 : Vec n) (0 : Vec m) = 0 := by
  funext l
  refine Fin.addCases (fun l => ?_) (fun l => ?_) l <;> simp

/-- What a contact adds to the state Jacobian of the angular rate, in the rows from `r0`. -/
def dX (C : Contacts nk) (L : Layout nk m) (r0 : ℕ) (u : Vec m) (i : Fin nk) : Mat r n :=
  if C.active i = true then setBlock 0 r0 0 (crossX (L.force u i)) else 0

/-- What a contact adds to the control Jacobian of the angular rate. -/
def dU (C : Contacts nk) (L : Layout nk m) (r0 : ℕ) (c : Vec 3) (i : Fin nk) : Mat r m :=
  if C.active i = true then setBlock 0 r0 (L.fs * i) (jtemp (C.pose i) c) +
    (if L.fs = 6 then setBlock 0 r0 (L.fs * i + 3) (1 : Mat 3 3) else 0) else 0

theorem dU_col (C : Contacts nk) (L : Layout nk m) (r0 : ℕ) (c : Vec 3) (i j : Fin nk) (hij : i ≠ j) (a : Fin r)
    (l : Fin m) (hl : j * L.fs ≤ l.val ∧ l.val < j * L.fs + L.fs) : dU C L r0 c i a l = 0 := by
  have h3 := L.h3
  have hd := disjoint_cols L.fs (fun h => hij (Fin.ext h).symm) l.val hl
  rw [mul_comm] at hd
  unfold dU
  split_ifs with ha h6
  · rw [Matrix.add_apply, setBlock_zero_col _ _ _ _ _ (by omega), setBlock_zero_col _ _ _ _ _ (by omega), add_zero]
  · rw [add_zero, setBlock_zero_col _ _ _ _ _ (by omega)]
  · rfl

theorem grad_totalMoment (C : Contacts nk) (L : Layout nk m) (hn : 3 ≤ n) (r0 : ℕ) (row : Fin r) (k : Fin 3)
    (hi : row.val = r0 + k.val) (x : Vec n) (u : Vec m) :
    IsGradient (fun z => Spec.totalMoment C.active C.pose L.fs (Spec.three (fst z) 0) (snd z) k)
      (Fin.append ((∑ i, dX C L r0 u i : Mat r n) row) ((∑ i, dU C L r0 (com hn x) i : Mat r m) row)) (Fin.append x u) := by
  have hs : (fun z : Vec (n + m) => Spec.totalMoment C.active C.pose L.fs (Spec.three (fst z) 0) (snd z) k) =
      fun z => ∑ i, if C.active i = true then (((C.pose i - Spec.three (fst z) 0) ⨯₃ Spec.force L.fs (snd z) i +
        Spec.moment L.fs (snd z) i) k) else 0 := by
    funext z
    simp only [Spec.totalMoment]
    rw [sum_active, Finset.sum_apply]
    refine Finset.sum_congr rfl fun i _ => ?_
    split_ifs <;> rfl
  rw [hs]
  refine grad_contacts _ _ _ _ _ fun i => ?_
  unfold dX dU
  by_cases ha : C.active i = true
  · simp only [if_pos ha]
    exact grad_contact L hn (C.pose i) i r0 row k hi x u
  · simp only [if_neg ha]
    exact (IsGradient.const 0 _).congr append_zero_zero.symm

/-- C52: the angular acceleration is the total moment of the active contact wrenches about the centre of mass. -/
theorem C52_angular_acceleration (C : Contacts nk) (L : Layout nk m) (hn : 3 ≤ n) :
    Right (angularAcceleration C L hn) fun x u => Spec.totalMoment C.active C.pose L.fs (Spec.three x 0) u := by
  refine right_of_inv _ _ (fun _ => True) trivial (fun _ _ _ _ => trivial) (fun _ _ _ _ => trivial) ?_
  intro x u d _
  have hv : (angularAcceleration C L hn).evaluate x u d =
      ⟨Spec.totalMoment C.active C.pose L.fs (Spec.three x 0) u, FData.Jx d, FData.Ju d⟩ := by
    refine (foldl_value _ (fun i => if C.active i = true then
      (C.pose i - Spec.three x 0) ⨯₃ Spec.force L.fs u i + Spec.moment L.fs u i else 0) ?_ _).trans ?_
    · intro i e
      dsimp only
      by_cases ha : C.active i = true
      · rw [if_pos ha, if_pos ha, crossTerm_eq, com_eq, force_eq]
        by_cases h6 : L.fs = 6
        · rw [dif_pos h6, moment_eq, add_assoc]
        · rw [dif_neg h6]
          simp [Spec.moment, h6]
      · rw [if_neg ha, if_neg ha, add_zero]
    · unfold Spec.totalMoment
      rw [sum_active, zero_add]
  have hj : (angularAcceleration C L hn).computeJacobians x u d =
      ⟨FData.value d, ∑ i, dX C L 0 u i, ∑ i, dU C L 0 (com hn x) i⟩ := by
    refine (foldl_finRange _ (dX C L 0 u) (dU C L 0 (com hn x)) (ZeroCols L) ?_ ?_ _ ?_).trans ?_
    · intro i e hz
      have h3 := L.h3
      unfold dX dU
      dsimp only
      by_cases ha : C.active i = true
      · rw [if_pos ha, if_pos ha, if_pos ha, addCross_eq, addCross_zero,
          setBlock_of_zero e.Ju 0 (L.fs * i) _ fun a l _ hl => hz a l (by rw [mul_comm]; omega)]
        by_cases h6 : L.fs = 6
        · rw [if_pos h6, if_pos h6, setBlock_of_zero (_ + _) 0 (L.fs * i + 3), add_assoc]
          intro a l _ hl
          rw [Matrix.add_apply, hz a l (by rw [mul_comm]; omega), setBlock_zero_col _ _ _ _ _ (by omega), add_zero]
        · rw [if_neg h6, if_neg h6, add_zero]
      · rw [if_neg ha, if_neg ha, if_neg ha, add_zero, add_zero]
    · intro i j e hij hz a l hl
      dsimp only
      rw [Matrix.add_apply, hz a l hl, zero_add, dU_col C L 0 _ i j hij a l hl]
    · intro i a l _
      rfl
    · simp only [zero_add]
  rw [hv, hj]
  exact ⟨rfl, rfl, rfl, rfl, isJac_rows fun k => grad_totalMoment C L hn 0 k k (by simp) x u⟩

/-- What a contact adds to the control Jacobian of `a` times the resultant, in the rows from `r0`. -/
def dF (C : Contacts nk) (L : Layout nk m) (r0 : ℕ) (a : ℝ) (i : Fin nk) : Mat r m :=
  if C.active i = true then setBlock 0 r0 (L.fs * i) (a • (1 : Mat 3 3)) else 0

theorem dF_col (C : Contacts nk) (L : Layout nk m) (r0 : ℕ) (y : ℝ) (i j : Fin nk) (hij : i ≠ j) (a : Fin r)
    (l : Fin m) (hl : j * L.fs ≤ l.val ∧ l.val < j * L.fs + L.fs) : dF C L r0 y i a l = 0 := by
  have h3 := L.h3
  have hd := disjoint_cols L.fs (fun h => hij (Fin.ext h).symm) l.val hl
  rw [mul_comm] at hd
  unfold dF
  split_ifs with ha
  · rw [setBlock_zero_col _ _ _ _ _ (by omega)]
  · rfl

theorem grad_resultant (C : Contacts nk) (L : Layout nk m) (y : ℝ) (r0 : ℕ) (row : Fin r) (k : Fin 3)
    (hi : row.val = r0 + k.val) (x : Vec n) (u : Vec m) :
    IsGradient (fun z : Vec (n + m) => y * Spec.resultant C.active L.fs (snd z) k)
      (Fin.append 0 ((∑ i, dF C L r0 y i : Mat r m) row)) (Fin.append x u) := by
  have hs : (fun z : Vec (n + m) => y * Spec.resultant C.active L.fs (snd z) k) =
      fun z => ∑ i, if C.active i = true then y * Spec.force L.fs (snd z) i k else 0 := by
    funext z
    simp only [Spec.resultant]
    rw [sum_active, Finset.sum_apply, Finset.mul_sum]
    refine Finset.sum_congr rfl fun i _ => ?_
    split_ifs
    · rfl
    · simp
  rw [hs]
  refine (grad_contacts (r := r) _ (fun _ => 0) (fun i => dF C L r0 y i) row _ fun i => ?_).congr ?_
  · unfold dF
    have h3 := L.h3
    by_cases ha : C.active i = true
    · simp only [if_pos ha]
      have g := grad_block_u (n := n) (m := m) r0 (L.fs * i) (y • (1 : Mat 3 3)) row k hi
        (fun c => L.ix i c (by omega)) (fun c => ix_val L i c _) (Fin.append x u)
      have e2 : (fun z : Vec (n + m) => ∑ c : Fin 3, (y • (1 : Mat 3 3)) k c * z (Fin.natAdd n (L.ix i c (by omega)))) =
          fun z => y * Spec.force L.fs (snd z) i k := by
        funext z
        rw [← force_eq L]
        simp [Matrix.one_apply, Layout.force, snd]
      rw [e2] at g
      exact g
    · simp only [if_neg ha]
      exact (IsGradient.const 0 _).congr append_zero_zero.symm
  · simp only [Finset.sum_const_zero]
    rfl

/-- C52: the acceleration of the centre of mass. -/
theorem C52_centroidal_acceleration (C : Contacts nk) (L : Layout nk m) (mass : ℝ) (gravity : Vec 3) :
    Right (centroidalAcceleration C L mass gravity : Fun n m 3)
      fun _ u => mass⁻¹ • Spec.resultant C.active L.fs u + gravity := by
  have hv : ∀ x u (d : FData n m 3), (centroidalAcceleration C L mass gravity : Fun n m 3).evaluate x u d =
      (⟨mass⁻¹ • Spec.resultant C.active L.fs u + gravity, d.Jx, d.Ju⟩ : FData n m 3) := by
    intro x u d
    have := foldl_value (n := n) (m := m) (fun (d : FData n m 3) i =>
      if C.active i then { d with value := d.value + L.force u i } else d)
      (fun i => if C.active i = true then Spec.force L.fs u i else 0) (by
        intro i e
        rw [force_eq]
        split_ifs
        · rfl
        · rw [add_zero]) { d with value := 0 }
    simp only [centroidalAcceleration]
    rw [this]
    dsimp only
    rw [← sum_active, zero_add]
    congr 2
    funext c
    simp only [Pi.smul_apply, smul_eq_mul]
    exact (inv_mul_eq_div _ _).symm
  have hj : ∀ x u (d : FData n m 3), (centroidalAcceleration C L mass gravity : Fun n m 3).computeJacobians x u d =
      (⟨d.value, d.Jx, ∑ i, dF C L 0 mass⁻¹ i⟩ : FData n m 3) := by
    intro x u d
    refine (foldl_finRange _ (fun _ => 0) (dF C L 0 mass⁻¹) (ZeroCols L) ?_ ?_ _ ?_).trans ?_
    · intro i e hz
      have h3 := L.h3
      unfold dF
      by_cases ha : C.active i = true
      · rw [if_pos ha, if_pos ha, setBlock_of_zero e.Ju 0 (i * L.fs) _ fun a l _ hl => hz a l (by omega), add_zero, one_div,
          mul_comm]
      · rw [if_neg ha, if_neg ha, add_zero, add_zero]
    · intro i j e hij hz a l hl
      dsimp only
      rw [Matrix.add_apply, hz a l hl, zero_add, dF_col C L 0 _ i j hij a l hl]
    · intro i a l _
      rfl
    · simp
  refine right_plain _ _ _ (fun A _ => A = 0) rfl hv fun x u d hd => ⟨_, _, hj x u d, hd, isJac_rows fun k => ?_⟩
  have g := (grad_resultant (n := n) C L mass⁻¹ 0 k k (by simp) x u).add (IsGradient.const (gravity k) _)
  refine g.congr ?_
  rw [add_zero, hd]
  rfl

/-! ### Cones -/

/-- A function of consecutive coordinates of the control. -/
theorem isJac_block (w c0 : ℕ) (hw : c0 + w ≤ m) (G : Vec w → Vec r) (B : Mat r w) (x : Vec n) (u : Vec m)
    (hG : IsJacobian G B (fun c => u ⟨c0 + c, by omega⟩)) :
    Spec.IsJac (fun _ u => G fun c => u ⟨c0 + c, by omega⟩) (0 : Mat r n) (setBlock (0 : Mat r m) 0 c0 B) x u := by
  have hs : IsJacobian (fun z : Vec (n + m) => fun c : Fin w => z (Fin.natAdd n (⟨c0 + c, by omega⟩ : Fin m)))
      (Matrix.of fun c => Fin.append 0 (Pi.single (⟨c0 + c, by omega⟩ : Fin m) 1)) (Fin.append x u) := fun c => grad_u _ _
  have h := IsJacobian.comp (F := G) (A := B) (z := Fin.append x u) (by simpa only [Fin.append_right] using hG) hs
  refine IsJacobian.congr h ?_
  funext i
  rw [setBlock_row 0 c0 B i i (by simp) (fun c => (⟨c0 + c, by omega⟩ : Fin m)) (fun c => rfl)]
  funext l
  rw [Matrix.mul_apply]
  refine Fin.addCases (fun l => ?_) (fun l => ?_) l
  · simp
  · simp [Finset.sum_apply]

/-- C52: the friction-cone residual: its value and its Jacobians. -/
theorem C52_friction_cone (k : ℕ) (hk : k * 3 + 3 ≤ m) (mu eps : ℝ) :
    Right (frictionCone k hk mu eps : Fun n m 2) (fun _ u => ![eps - Spec.three u (k * 3) 2,
      Spec.three u (k * 3) 0 ^ 2 + Spec.three u (k * 3) 1 ^ 2 - mu ^ 2 * Spec.three u (k * 3) 2 ^ 2]) := by
  refine right_plain _ _ _ (fun A B => A = 0 ∧ ∀ M : Mat 2 3, setBlock B 0 (k * 3) M = setBlock 0 0 (k * 3) M)
    ⟨rfl, fun _ => rfl⟩ ?_ ?_
  · intro x u d
    simp only [← three_eq (k * 3) hk]
    congr 1
    funext i
    fin_cases i
    · simp; ring
    · simp; ring
  · intro x u d hd
    refine ⟨_, _, rfl, ⟨hd.1, fun M => ?_⟩, ?_⟩
    · rw [setBlock_setBlock, hd.2]
    · rw [hd.1, hd.2]
      simp only [← three_eq (k * 3) hk]
      refine isJac_block 3 (k * 3) hk (fun f => ![eps - f 2, f 0 ^ 2 + f 1 ^ 2 - mu ^ 2 * f 2 ^ 2]) _ x u fun i => ?_
      have g := fun c : Fin 3 => IsGradient.coord c (fun c : Fin 3 => u ⟨k * 3 + c, by omega⟩)
      fin_cases i
      · refine ((IsGradient.const eps _).sub (g 2)).congr ?_
        funext c
        fin_cases c <;> simp
      · have e : (fun y : Vec 3 => y 0 * y 0 + y 1 * y 1 - mu ^ 2 * (y 2 * y 2)) =
            fun y => y 0 ^ 2 + y 1 ^ 2 - mu ^ 2 * y 2 ^ 2 := by
          funext y; ring
        have h := (((g 0).mul (g 0)).add ((g 1).mul (g 1))).sub (((g 2).mul (g 2)).smul (mu ^ 2))
        rw [e] at h
        refine h.congr ?_
        funext c
        fin_cases c <;> simp <;> ring

/-- C52: the friction-cone residual is nonpositive exactly on the friction cone. -/
theorem C52_friction_cone_set (k : ℕ) (hk : k * 3 + 3 ≤ m) (mu eps : ℝ) (hmu : 0 ≤ mu) (heps : 0 ≤ eps) (x : Vec n)
    (u : Vec m) (d : FData n m 2) :
    (∀ i, ((frictionCone k hk mu eps : Fun n m 2).evaluate x u d).value i ≤ 0) ↔
      Spec.InFrictionCone mu eps (Spec.three u (k * 3)) := by
  rw [← three_eq (k * 3) hk]
  simp only [Fin.forall_fin_two, Spec.InFrictionCone]
  have e0 : ((frictionCone k hk mu eps : Fun n m 2).evaluate x u d).value 0 = -u ⟨k * 3 + 2, by omega⟩ + eps := rfl
  have e1 : ((frictionCone k hk mu eps : Fun n m 2).evaluate x u d).value 1 = -(mu * mu) * u ⟨k * 3 + 2, by omega⟩ ^ 2 +
    u ⟨k * 3, by omega⟩ ^ 2 + u ⟨k * 3 + 1, by omega⟩ ^ 2 := rfl
  rw [e0, e1]
  show _ ↔ eps ≤ u ⟨k * 3 + 2, _⟩ ∧ Real.sqrt (u ⟨k * 3, _⟩ ^ 2 + u ⟨k * 3 + 1, _⟩ ^ 2) ≤ mu * u ⟨k * 3 + 2, _⟩
  constructor
  · rintro ⟨h0, h1⟩
    have hz : eps ≤ u ⟨k * 3 + 2, by omega⟩ := by linarith
    refine ⟨hz, ?_⟩
    rw [Real.sqrt_le_left (mul_nonneg hmu (heps.trans hz))]
    nlinarith
  · rintro ⟨hz, h1⟩
    rw [Real.sqrt_le_left (mul_nonneg hmu (heps.trans hz))] at h1
    exact ⟨by linarith, by nlinarith⟩

theorem abs_add_abs_le {a b c : ℝ} : |a| + |b| ≤ c ↔ a + b ≤ c ∧ a - b ≤ c ∧ -a + b ≤ c ∧ -a - b ≤ c := by
  constructor
  · intro h
    have := le_abs_self a
    have := neg_le_abs a
    have := le_abs_self b
    have := neg_le_abs b
    exact ⟨by linarith, by linarith, by linarith, by linarith⟩
  · rintro ⟨h1, h2, h3, h4⟩
    rcases abs_cases a with ⟨h, _⟩ | ⟨h, _⟩ <;> rcases abs_cases b with ⟨h', _⟩ | ⟨h', _⟩ <;> rw [h, h'] <;> linarith

/-- The matrix of the wrench cone. -/
def wrenchMat (mu hL hW : ℝ) : Mat 17 6 :=
  !![0, 0, -1, 0, 0, 0;
     -1, 0, -mu, 0, 0, 0;
     1, 0, -mu, 0, 0, 0;
     0, -1, -mu, 0, 0, 0;
     0, 1, -mu, 0, 0, 0;
     0, 0, -hW, -1, 0, 0;
     0, 0, -hW, 1, 0, 0;
     0, 0, -hL, 0, -1, 0;
     0, 0, -hL, 0, 1, 0;
     -hW, -hL, -(hL + hW) * mu, mu, mu, -1;
     -hW, hL, -(hL + hW) * mu, mu, -mu, -1;
     hW, -hL, -(hL + hW) * mu, -mu, mu, -1;
     hW, hL, -(hL + hW) * mu, -mu, -mu, -1;
     hW, hL, -(hL + hW) * mu, mu, mu, 1;
     hW, -hL, -(hL + hW) * mu, mu, -mu, 1;
     -hW, hL, -(hL + hW) * mu, -mu, mu, 1;
     -hW, -hL, -(hL + hW) * mu, -mu, -mu, 1]

theorem wrench_iff (mu hL hW : ℝ) (v : Vec 6) : (∀ i, (wrenchMat mu hL hW *ᵥ v) i ≤ 0) ↔
    Spec.InWrenchCone mu hL hW ![v 0, v 1, v 2] ![v 3, v 4, v 5] := by
  have e : ∀ i, (wrenchMat mu hL hW *ᵥ v) i = wrenchMat mu hL hW i 0 * v 0 + wrenchMat mu hL hW i 1 * v 1 +
      wrenchMat mu hL hW i 2 * v 2 + wrenchMat mu hL hW i 3 * v 3 + wrenchMat mu hL hW i 4 * v 4 +
      wrenchMat mu hL hW i 5 * v 5 := by
    intro i
    rw [Matrix.mulVec, dotProduct, Fin.sum_univ_six]
  have key : Spec.InWrenchCone mu hL hW ![v 0, v 1, v 2] ![v 3, v 4, v 5] ↔
      0 ≤ v 2 ∧ |v 0| ≤ mu * v 2 ∧ |v 1| ≤ mu * v 2 ∧ |v 3| ≤ hW * v 2 ∧ |v 4| ≤ hL * v 2 ∧
      |hW * v 0 - mu * v 3| + |hL * v 1 - mu * v 4| ≤ v 5 + mu * (hL + hW) * v 2 ∧
      |hW * v 0 + mu * v 3| + |hL * v 1 + mu * v 4| ≤ mu * (hL + hW) * v 2 - v 5 := by
    simp only [Spec.InWrenchCone, Matrix.cons_val]
    refine and_congr Iff.rfl (and_congr Iff.rfl (and_congr Iff.rfl (and_congr Iff.rfl (and_congr Iff.rfl
      (and_congr ⟨fun h => ?_, fun h => ?_⟩ ⟨fun h => ?_, fun h => ?_⟩))))) <;> linarith
  rw [key]
  simp only [abs_le, abs_add_abs_le, e]
  constructor
  · intro h
    have h0 := h 0
    have h1 := h 1
    have h2 := h 2
    have h3 := h 3
    have h4 := h 4
    have h5 := h 5
    have h6 := h 6
    have h7 := h 7
    have h8 := h 8
    have h9 := h 9
    have h10 := h 10
    have h11 := h 11
    have h12 := h 12
    have h13 := h 13
    have h14 := h 14
    have h15 := h 15
    have h16 := h 16
    simp [wrenchMat] at h0 h1 h2 h3 h4 h5 h6 h7 h8 h9 h10 h11 h12 h13 h14 h15 h16
    refine ⟨?_, ⟨?_, ?_⟩, ⟨?_, ?_⟩, ⟨?_, ?_⟩, ⟨?_, ?_⟩, ⟨?_, ?_, ?_, ?_⟩, ?_, ?_, ?_, ?_⟩ <;> linarith
  · rintro ⟨h0, ⟨h1, h2⟩, ⟨h3, h4⟩, ⟨h5, h6⟩, ⟨h7, h8⟩, ⟨h9, h10, h11, h12⟩, h13, h14, h15, h16⟩ i
    fin_cases i <;> simp [wrenchMat] <;> linarith

/-- C52: the wrench-cone residual has a value which is nonpositive exactly on the contact wrench cone, and the Jacobians of
this value. -/
theorem C52_wrench_cone (k : ℕ) (hk : k * 6 + 6 ≤ m) (mu hL hW : ℝ) :
    ∃ F : Vec n → Vec m → Vec 17, Right (wrenchCone k hk mu hL hW : Fun n m 17) F ∧
      ∀ x u, (∀ i, F x u i ≤ 0) ↔ Spec.InWrenchCone mu hL hW (Spec.three u (k * 6)) (Spec.three u (k * 6 + 3)) := by
  refine ⟨fun _ u => wrenchMat mu hL hW *ᵥ fun c : Fin 6 => u ⟨k * 6 + c, by omega⟩, ?_, ?_⟩
  · refine right_plain _ _ _ (fun A B => A = 0 ∧ ∀ M : Mat 17 6, setBlock B 0 (k * 6) M = setBlock 0 0 (k * 6) M)
      ⟨rfl, fun _ => rfl⟩ ?_ ?_
    · intro x u d
      dsimp only
      congr 1
      funext i
      fin_cases i <;> simp [wrenchMat, Matrix.mulVec, dotProduct, Fin.sum_univ_six] <;> ring
    · intro x u d hd
      refine ⟨_, _, rfl, ⟨hd.1, fun M => ?_⟩, ?_⟩
      · rw [setBlock_setBlock, hd.2]
      · rw [hd.1, hd.2]
        refine isJac_block 6 (k * 6) hk (fun w => wrenchMat mu hL hW *ᵥ w) _ x u ?_
        exact ((IsJacobian.id _).mulVec (wrenchMat mu hL hW)).congr (Matrix.mul_one _)
  · intro x u
    rw [← three_eq (k * 6) (by omega), ← three_eq (k * 6 + 3) (by omega)]
    refine (wrench_iff mu hL hW _).trans (Iff.of_eq ?_)
    congr 1
    · funext c
      fin_cases c <;> rfl
    · funext c
      fin_cases c <;> rfl

/-! ### The wrapper -/

/-- C52: wrapping a right function gives a right function of the state with the forces in it. -/
theorem C52_wrapper (f : Fun n m r) (F : Vec n → Vec m → Vec r) (h : Right f F) :
    Right (wrapper f) fun x _ => F (fst x) (snd x) := by
  refine right_of_inv _ _ (fun d : WData f => ∃ cs : List (Call n m), d.sub = cs.foldl f.call f.new) ⟨[], rfl⟩ ?_ ?_ ?_
  · rintro x u d ⟨cs, hd⟩
    refine ⟨cs ++ [.value (fst x) (snd x)], ?_⟩
    rw [List.foldl_append, ← hd]
    rfl
  · rintro x u d ⟨cs, hd⟩
    refine ⟨cs ++ [.jac (fst x) (snd x)], ?_⟩
    rw [List.foldl_append, ← hd]
    rfl
  · rintro x u d ⟨cs, hd⟩
    have h' := h cs (fst x) (snd x)
    rw [← hd] at h'
    obtain ⟨hv, _, _, _, hj⟩ := h'
    refine ⟨hv, rfl, rfl, rfl, ?_⟩
    set J := f.base (f.computeJacobians (fst x) (snd x) (WData.sub d)) with hJ
    show Spec.IsJac _ (setBlock (setBlock 0 0 0 J.Jx) 0 n J.Ju) (0 : Mat r m) x u
    have hx := IsJacobian.comp (F := stacked F) (z := Fin.append x u) (by
      rw [fst_append, ← append_fst_snd x]
      exact hj) (isJacobian_fst (Fin.append x u))
    refine IsJacobian.congr hx ((mul_selFst _).trans ?_)
    funext i
    congr 1
    funext l
    refine Fin.addCases (fun l => ?_) (fun l => ?_) l
    · rw [Fin.append_left]
      simp [setBlock]
    · rw [Fin.append_right]
      simp [setBlock]

/-! ### Dynamics -/

theorem addSeg_eq {p a : ℕ} (v : Vec p) (k : ℕ) (w : Vec a) : addSeg v k w = v + addSeg 0 k w := by
  funext i
  simp only [addSeg, Pi.add_apply]
  split_ifs <;> simp

theorem addSeg_add {p a : ℕ} (k : ℕ) (v w : Vec a) : addSeg (0 : Vec p) k (v + w) = addSeg 0 k v + addSeg 0 k w := by
  funext i
  simp only [addSeg, Pi.add_apply]
  split_ifs <;> simp

theorem addSeg_zero {p a : ℕ} (k : ℕ) : addSeg (0 : Vec p) k (0 : Vec a) = 0 := by
  funext i
  simp [addSeg]

theorem addSeg_sum {p a : ℕ} (k : ℕ) (s : Finset (Fin nk)) (w : Fin nk → Vec a) :
    addSeg (0 : Vec p) k (∑ i ∈ s, w i) = ∑ i ∈ s, addSeg 0 k (w i) := by
  classical
  induction s using Finset.induction_on with
  | empty => simp [addSeg_zero]
  | insert i s hi ih => rw [Finset.sum_insert hi, Finset.sum_insert hi, addSeg_add, ih]

theorem dX_row (C : Contacts nk) (L : Layout nk m) (r0 : ℕ) (u : Vec m) (row : Fin r)
    (h : ¬ (r0 ≤ row.val ∧ row.val < r0 + 3)) : (∑ i, dX C L r0 u i : Mat r n) row = 0 := by
  funext l
  rw [Matrix.sum_apply]
  refine Finset.sum_eq_zero fun i _ => ?_
  unfold dX
  split_ifs
  · rw [setBlock_zero_row _ _ _ _ h]
    rfl
  · rfl

theorem dU_row (C : Contacts nk) (L : Layout nk m) (r0 : ℕ) (c : Vec 3) (row : Fin r)
    (h : ¬ (r0 ≤ row.val ∧ row.val < r0 + 3)) : (∑ i, dU C L r0 c i : Mat r m) row = 0 := by
  funext l
  rw [Matrix.sum_apply]
  refine Finset.sum_eq_zero fun i _ => ?_
  unfold dU
  split_ifs
  · rw [Matrix.add_apply, setBlock_zero_row _ _ _ _ h, setBlock_zero_row _ _ _ _ h]
    simp
  · rw [add_zero, setBlock_zero_row _ _ _ _ h]
    rfl
  · rfl

theorem dF_row (C : Contacts nk) (L : Layout nk m) (r0 : ℕ) (y : ℝ) (row : Fin r)
    (h : ¬ (r0 ≤ row.val ∧ row.val < r0 + 3)) : (∑ i, dF C L r0 y i : Mat r m) row = 0 := by
  funext l
  rw [Matrix.sum_apply]
  refine Finset.sum_eq_zero fun i _ => ?_
  unfold dF
  split_ifs
  · rw [setBlock_zero_row _ _ _ _ h]
    rfl
  · rfl

theorem centroidal_eq (C : Contacts nk) (L : Layout nk m) (mass : ℝ) (gravity : Vec 3) (x : Vec 9) (u : Vec m)
    (v : Vec 9) :
    setSeg (setSeg (setSeg v 0 (fun c : Fin 3 => 1 / mass * x ⟨3 + c, by omega⟩)) 3 (mass • gravity)) 6 (0 : Vec 3) +
      (addSeg 0 3 (Spec.resultant C.active L.fs u) +
        addSeg 0 6 (Spec.totalMoment C.active C.pose L.fs (Spec.three x 0) u)) =
    Spec.centroidal C.active C.pose L.fs mass gravity x u := by
  have e := three_eq 3 (by omega) x
  funext row
  unfold Spec.centroidal
  rw [← e]
  fin_cases row <;> simp [setSeg, addSeg, Fin.append, Fin.addCases]

theorem isJac_centroidal (C : Contacts nk) (L : Layout nk m) (mass : ℝ) (gravity : Vec 3) (x : Vec 9) (u : Vec m) :
    Spec.IsJac (Spec.centroidal C.active C.pose L.fs mass gravity)
      (setBlock 0 0 3 ((1 / mass) • (1 : Mat 3 3)) + ∑ i, dX C L 6 u i)
      (∑ i, dU C L 6 (com (by omega) x) i + ∑ i, dF C L 3 1 i) x u := by
  apply isJac_rows
  intro row
  have add_row : ∀ {p : ℕ} (A B : Mat 9 p), (A + B) row = A row + B row := fun _ _ => rfl
  rw [add_row, add_row]
  by_cases h1 : row.val < 3
  · obtain ⟨k, hk⟩ : ∃ k : Fin 3, row.val = 0 + k.val := ⟨⟨row.val, h1⟩, by simp⟩
    rw [dX_row C L 6 u row (by omega), dU_row C L 6 _ row (by omega), dF_row C L 3 _ row (by omega), add_zero, add_zero]
    have g := grad_block_x (m := m) 0 3 ((1 / mass) • (1 : Mat 3 3)) row k hk (fun c => (⟨3 + c, by omega⟩ : Fin 9))
      (fun c => rfl) (Fin.append x u)
    have e : (fun z => stacked (Spec.centroidal C.active C.pose L.fs mass gravity) z row) = fun y : Vec (9 + m) =>
        ∑ c : Fin 3, ((1 / mass) • (1 : Mat 3 3)) k c * y (Fin.castAdd m (⟨3 + c, by omega⟩ : Fin 9)) := by
      funext z
      rw [show row = (⟨k.val, by omega⟩ : Fin 9) from Fin.ext (hk.trans (zero_add _))]
      simp only [stacked, Spec.centroidal]
      rw [← three_eq 3 (by omega) (fst z)]
      fin_cases k <;> simp [Fin.append, Fin.addCases, Matrix.one_apply, fst]
    rw [e]
    exact g
  by_cases h2 : row.val < 6
  · obtain ⟨k, hk⟩ : ∃ k : Fin 3, row.val = 3 + k.val := ⟨⟨row.val - 3, by omega⟩, by simp; omega⟩
    rw [dX_row C L 6 u row (by omega), dU_row C L 6 _ row (by omega), setBlock_zero_row _ _ _ _ (by omega), zero_add, zero_add]
    have g := (IsGradient.const (mass * gravity k) _).add (grad_resultant (n := 9) C L 1 3 row k hk x u)
    have e : (fun z => stacked (Spec.centroidal C.active C.pose L.fs mass gravity) z row) = fun z : Vec (9 + m) =>
        mass * gravity k + 1 * Spec.resultant C.active L.fs (snd z) k := by
      funext z
      rw [show row = (⟨3 + k.val, by omega⟩ : Fin 9) from Fin.ext hk]
      simp only [stacked, Spec.centroidal]
      fin_cases k <;> simp [Fin.append, Fin.addCases]
    rw [e]
    exact g.congr (zero_add _)
  · obtain ⟨k, hk⟩ : ∃ k : Fin 3, row.val = 6 + k.val := ⟨⟨row.val - 6, by omega⟩, by simp; omega⟩
    rw [dF_row C L 3 _ row (by omega), setBlock_zero_row _ _ _ _ (by omega), zero_add, add_zero]
    have g := grad_totalMoment (n := 9) C L (by omega) 6 row k hk x u
    have e : (fun z => stacked (Spec.centroidal C.active C.pose L.fs mass gravity) z row) = fun z : Vec (9 + m) =>
        Spec.totalMoment C.active C.pose L.fs (Spec.three (fst z) 0) (snd z) k := by
      funext z
      rw [show row = (⟨6 + k.val, by omega⟩ : Fin 9) from Fin.ext hk]
      simp only [stacked, Spec.centroidal]
      fin_cases k <;> simp [Fin.append, Fin.addCases]
    rw [e]
    exact g

/-- What a contact adds to the time derivative. -/
theorem sum_contacts (C : Contacts nk) (L : Layout nk m) {p : ℕ} (c : Vec 3) (u : Vec m) :
    (∑ i, if C.active i = true then (addSeg 0 3 (Spec.force L.fs u i) +
      addSeg 0 6 ((C.pose i - c) ⨯₃ Spec.force L.fs u i + Spec.moment L.fs u i) : Vec p) else 0) =
    addSeg 0 3 (Spec.resultant C.active L.fs u) + addSeg 0 6 (Spec.totalMoment C.active C.pose L.fs c u) := by
  rw [← Finset.sum_filter, Finset.sum_add_distrib, ← addSeg_sum, ← addSeg_sum]
  rfl

/-- C52: the centroidal dynamics is Newton's and Euler's equations. -/
theorem C52_centroidal_dynamics (C : Contacts nk) (L : Layout nk m) (mass : ℝ) (gravity : Vec 3) :
    Right (centroidalFwd C L mass gravity) (Spec.centroidal C.active C.pose L.fs mass gravity) := by
  refine right_plain _ _ _ (fun _ _ => True) trivial ?_ ?_
  · intro x u d
    refine (foldl_value _ (fun i => if C.active i = true then (addSeg 0 3 (Spec.force L.fs u i) +
      addSeg 0 6 ((C.pose i - Spec.three x 0) ⨯₃ Spec.force L.fs u i + Spec.moment L.fs u i)) else 0) ?_ _).trans ?_
    · intro i e
      by_cases ha : C.active i = true
      · rw [if_pos ha, if_pos ha, crossTerm_eq, com_eq, force_eq]
        by_cases h6 : L.fs = 6
        · rw [dif_pos h6, moment_eq]
          dsimp only
          rw [addSeg_eq (addSeg (addSeg _ _ _) _ _), addSeg_eq (addSeg _ _ _), addSeg_eq e.value, addSeg_add, add_assoc,
            add_assoc]
        · rw [dif_neg h6]
          dsimp only
          rw [addSeg_eq (addSeg _ _ _), addSeg_eq e.value, add_assoc]
          simp [Spec.moment, h6]
      · rw [if_neg ha, if_neg ha, add_zero]
    · dsimp only
      rw [sum_contacts, centroidal_eq]
  · intro x u d _
    refine ⟨_, _, ?_, trivial, isJac_centroidal C L mass gravity x u⟩
    refine (foldl_finRange _ (dX C L 6 u) (fun i => dU C L 6 (com (by omega) x) i + dF C L 3 1 i) (ZeroCols L) ?_ ?_ _ ?_).trans ?_
    · intro i e hz
      have h3 := L.h3
      unfold dX dU dF
      by_cases ha : C.active i = true
      · rw [if_pos ha, if_pos ha, if_pos ha, if_pos ha, one_smul]
        dsimp only
        rw [addCross_eq, addCross_zero,
          setBlock_of_zero e.Ju 6 (L.fs * i) _ fun a l _ hl => hz a l (by rw [mul_comm]; omega),
          setBlock_of_zero (_ + _) 3 (L.fs * i)]
        · by_cases h6 : L.fs = 6
          · rw [if_pos h6, if_pos h6, setBlock_of_zero (_ + _) 6 (L.fs * i + 3)]
            · congr 1
              abel
            · intro a l _ hl
              rw [Matrix.add_apply, Matrix.add_apply, hz a l (by rw [mul_comm]; omega),
                setBlock_zero_col _ _ _ _ _ (by omega), setBlock_zero_col _ _ _ _ _ (by omega), add_zero, add_zero]
          · rw [if_neg h6, if_neg h6, add_zero, add_assoc]
        · intro a l ha' hl
          rw [Matrix.add_apply, hz a l (by rw [mul_comm]; omega), setBlock_zero_row _ _ _ _ (by omega), zero_add]
          rfl
      · rw [if_neg ha, if_neg ha, if_neg ha, if_neg ha, add_zero, add_zero, add_zero]
    · intro i j e hij hz a l hl
      dsimp only
      rw [Matrix.add_apply, Matrix.add_apply, hz a l hl, dU_col C L 6 _ i j hij a l hl, dF_col C L 3 _ i j hij a l hl]
      simp
    · intro i a l _
      rfl
    · dsimp only
      rw [zero_add, Finset.sum_add_distrib]

/-! ### Forces in the state -/

theorem blocks_add' {n m p q : ℕ} (A A' : Mat n p) (B B' : Mat n q) :
    blocks (A + A') (B + B') (0 : Mat m p) (0 : Mat m q) = blocks A B 0 0 + blocks A' B' 0 0 := by
  funext i l
  rw [Matrix.add_apply]
  refine Fin.addCases (fun i => ?_) (fun i => ?_) i <;> refine Fin.addCases (fun l => ?_) (fun l => ?_) l <;>
    simp [blocks]

theorem blocks_zero' {n m p q : ℕ} : blocks (0 : Mat n p) (0 : Mat n q) (0 : Mat m p) (0 : Mat m q) = 0 := by
  funext i l
  refine Fin.addCases (fun i => ?_) (fun i => ?_) i <;> refine Fin.addCases (fun l => ?_) (fun l => ?_) l <;>
    simp [blocks]

theorem blocks_sum' {n m p q : ℕ} (A : Fin nk → Mat n p) (B : Fin nk → Mat n q) (s : Finset (Fin nk)) :
    blocks (∑ i ∈ s, A i) (∑ i ∈ s, B i) (0 : Mat m p) (0 : Mat m q) = ∑ i ∈ s, blocks (A i) (B i) 0 0 := by
  classical
  induction s using Finset.induction_on with
  | empty => simp only [Finset.sum_empty, blocks_zero']
  | insert i s hi ih => simp only [Finset.sum_insert hi, blocks_add', ih]

theorem setBlock_left {n m p q a b : ℕ} (r0 c0 : ℕ) (B : Mat a b) (hr : r0 + a ≤ n) (hc : c0 + b ≤ p) :
    setBlock (0 : Mat (n + m) (p + q)) r0 c0 B = blocks (setBlock 0 r0 c0 B) 0 0 0 := by
  funext i l
  refine Fin.addCases (fun i => ?_) (fun i => ?_) i <;> refine Fin.addCases (fun l => ?_) (fun l => ?_) l
  · simp [blocks, setBlock]
  · simp only [blocks, Fin.append_left, Fin.append_right]
    exact setBlock_zero_col _ _ _ _ _ (by simp; omega)
  · simp only [blocks, Fin.append_left, Fin.append_right]
    rw [setBlock_zero_row _ _ _ _ (by simp; omega)]
    rfl
  · simp only [blocks, Fin.append_right]
    rw [setBlock_zero_row _ _ _ _ (by simp; omega)]
    rfl

theorem setBlock_right {n m p q a b : ℕ} (r0 c0 : ℕ) (B : Mat a b) (hr : r0 + a ≤ n) :
    setBlock (0 : Mat (n + m) (p + q)) r0 (p + c0) B = blocks 0 (setBlock 0 r0 c0 B) 0 0 := by
  funext i l
  refine Fin.addCases (fun i => ?_) (fun i => ?_) i <;> refine Fin.addCases (fun l => ?_) (fun l => ?_) l
  · simp only [blocks, Fin.append_left]
    exact setBlock_zero_col _ _ _ _ _ (by simp; omega)
  · simp only [blocks, Fin.append_left, Fin.append_right]
    unfold setBlock
    have e : (p + l.val) - (p + c0) = l.val - c0 := by omega
    by_cases h : (r0 ≤ i.val ∧ i.val < r0 + a) ∧ (c0 ≤ l.val ∧ l.val < c0 + b)
    · rw [dif_pos h, dif_pos ⟨by simpa using h.1, by simp; omega⟩]
      congr 1
      exact Fin.ext (by simp; omega)
    · rw [dif_neg h, dif_neg (by simp; omega)]
      rfl
  · simp only [blocks, Fin.append_left, Fin.append_right]
    rw [setBlock_zero_row _ _ _ _ (by simp; omega)]
    rfl
  · simp only [blocks, Fin.append_right]
    rw [setBlock_zero_row _ _ _ _ (by simp; omega)]
    rfl

/-- C52: the centroidal dynamics with the forces in the state and their rates as the control. -/
theorem C52_continuous_centroidal_dynamics (C : Contacts nk) (L : Layout nk m) (mass : ℝ) (gravity : Vec 3) :
    Right (continuousCentroidalFwd C L mass gravity)
      fun x u => Fin.append (Spec.centroidal C.active C.pose L.fs mass gravity (fst x) (snd x)) u := by
  refine right_plain _ _ _ (fun _ _ => True) trivial ?_ ?_
  · intro x u d
    dsimp only [continuousCentroidalFwd]
    rw [foldl_value _ (fun i => if C.active i = true then (addSeg 0 3 (Spec.force L.fs (snd x) i) +
      addSeg 0 6 ((C.pose i - Spec.three (fst x) 0) ⨯₃ Spec.force L.fs (snd x) i + Spec.moment L.fs (snd x) i)) else 0)]
    · dsimp only
      rw [sum_contacts, ← centroidal_eq C L mass gravity (fst x) (snd x) 0]
      congr 1
      funext row
      refine Fin.addCases (fun i => ?_) (fun j => ?_) row
      · rw [Fin.append_left]
        fin_cases i <;> simp [setSeg, addSeg, fst] <;> rfl
      · rw [Fin.append_right]
        simp [setSeg]
    · intro i e
      have ec : com (show 3 ≤ 9 + m by omega) x = Spec.three (fst x) 0 := by
        rw [← com_eq (show 3 ≤ 9 by omega)]
        rfl
      have es : (fun j => x (Fin.natAdd 9 j)) = snd x := rfl
      by_cases ha : C.active i = true
      · rw [if_pos ha, if_pos ha, crossTerm_eq, ec, es, force_eq]
        by_cases h6 : L.fs = 6
        · rw [dif_pos h6, moment_eq]
          rw [addSeg_eq (addSeg (addSeg _ _ _) _ _), addSeg_eq (addSeg _ _ _), addSeg_eq e.value, addSeg_add, add_assoc,
            add_assoc]
        · rw [dif_neg h6]
          rw [addSeg_eq (addSeg _ _ _), addSeg_eq e.value, add_assoc]
          simp [Spec.moment, h6]
      · rw [if_neg ha, if_neg ha, add_zero]
  · intro x u d _
    have ec : com (show 3 ≤ 9 + m by omega) x = com (show 3 ≤ 9 by omega) (fst x) := rfl
    have hjac := isJac_centroidal C L mass gravity (fst x) (snd x)
    set A := setBlock (0 : Mat 9 9) 0 3 ((1 / mass) • (1 : Mat 3 3)) + ∑ i, dX C L 6 (snd x) i with hA
    set B : Mat 9 m := ∑ i, dU C L 6 (com (by omega) (fst x)) i + ∑ i, dF C L 3 1 i with hB
    refine ⟨blocks A B 0 0, setBlock 0 9 0 (1 : Mat m m), ?_, trivial, ?_⟩
    · dsimp only [continuousCentroidalFwd]
      rw [foldl_finRange _ (fun i => blocks (dX C L 6 (snd x) i) (dU C L 6 (com (by omega) (fst x)) i + dF C L 3 1 i) 0 0)
        (fun _ => 0) (fun i e => ∀ (a : Fin (9 + m)) (l : Fin (9 + m)), (9 + i * L.fs ≤ l.val ∧ l.val < 9 + i * L.fs + L.fs) →
          e.Jx a l = 0)]
      · dsimp only
        congr 1
        rw [setBlock_left 0 3 _ (by omega) (by omega), ← blocks_sum', ← blocks_add', zero_add, Finset.sum_add_distrib]
      · intro i e hz
        have h3 := L.h3
        unfold dX dU dF
        by_cases ha : C.active i = true
        · rw [if_pos ha, if_pos ha, if_pos ha, if_pos ha, one_smul, add_zero]
          have key : ∀ (X J : Mat 3 3) (Y : Mat 9 m), blocks (setBlock (0 : Mat 9 9) 6 0 X) (setBlock 0 6 (L.fs * i) J + Y +
              setBlock 0 3 (L.fs * i) (1 : Mat 3 3)) (0 : Mat m 9) (0 : Mat m m) = setBlock 0 6 0 X +
              (setBlock 0 6 (9 + L.fs * i) J + blocks 0 Y 0 0 + setBlock 0 3 (9 + L.fs * i) (1 : Mat 3 3)) := by
            intro X J Y
            rw [setBlock_left 6 0 X (by omega) (by omega), setBlock_right 6 (L.fs * i) J (by omega),
              setBlock_right 3 (L.fs * i) _ (by omega), ← blocks_add', ← blocks_add', ← blocks_add']
            simp
          rw [key, addCross_eq, addCross_zero, setBlock_of_zero (_ + _) 6 (9 + L.fs * i),
            setBlock_of_zero (_ + _) 3 (9 + L.fs * i)]
          · by_cases h6 : L.fs = 6
            · rw [if_pos h6, if_pos h6, setBlock_of_zero (_ + _) 6 (9 + L.fs * i + 3), add_assoc 9, setBlock_right 6 (L.fs * i + 3) _ (by omega)]
              · congr 1
                rw [← ec, show (fun j => x (Fin.natAdd 9 j)) = snd x from rfl]
                abel
              · intro a l _ hl
                rw [Matrix.add_apply, Matrix.add_apply, Matrix.add_apply, hz a l (by rw [mul_comm]; omega),
                  setBlock_zero_col _ _ _ _ _ (by omega), setBlock_zero_col _ _ _ _ _ (by omega),
                  setBlock_zero_col _ _ _ _ _ (by omega)]
                simp
            · rw [if_neg h6, if_neg h6, blocks_zero', add_zero]
              congr 1
              rw [← ec, show (fun j => x (Fin.natAdd 9 j)) = snd x from rfl]
              abel
          · intro a l ha' hl
            rw [Matrix.add_apply, Matrix.add_apply, hz a l (by rw [mul_comm]; omega), setBlock_zero_row _ _ _ _ (by omega),
              setBlock_zero_row _ _ _ _ (by omega)]
            simp
          · intro a l ha' hl
            rw [Matrix.add_apply, hz a l (by rw [mul_comm]; omega), setBlock_zero_col _ _ _ _ _ (by omega), zero_add]
        · rw [if_neg ha, if_neg ha, if_neg ha, if_neg ha, add_zero, blocks_zero', add_zero, add_zero]
      · intro i j e hij hz a l hl
        dsimp only
        rw [Matrix.add_apply, hz a l hl, zero_add]
        obtain ⟨l, rfl⟩ : ∃ l' : Fin m, l = Fin.natAdd 9 l' := ⟨⟨l.val - 9, by omega⟩, Fin.ext (by simp; omega)⟩
        have hl' : j * L.fs ≤ l.val ∧ l.val < j * L.fs + L.fs := by
          simp at hl
          omega
        refine Fin.addCases (fun a => ?_) (fun a => ?_) a
        · simp only [blocks, Fin.append_left, Fin.append_right]
          rw [Matrix.add_apply, dU_col C L 6 _ i j hij a l hl', dF_col C L 3 _ i j hij a l hl', add_zero]
        · simp [blocks]
      · intro i a l hl
        dsimp only
        exact setBlock_zero_col _ _ _ _ _ (by omega)
    · have h1 := IsJacobian.comp (F := stacked (Spec.centroidal C.active C.pose L.fs mass gravity)) (z := Fin.append x u) (by
        rw [fst_append, ← append_fst_snd x]
        exact hjac) (isJacobian_fst (Fin.append x u))
      refine IsJacobian.congr (h1.append (isJacobian_snd (Fin.append x u))) ?_
      funext row
      refine Fin.addCases (fun i => ?_) (fun j => ?_) row
      · refine (Fin.append_left _ _ i).trans ((congrFun (mul_selFst _) i).trans ?_)
        rw [setBlock_zero_row _ _ _ _ (by simp)]
        simp [blocks]
      · refine (Fin.append_right _ _ j).trans ?_
        funext l
        refine Fin.addCases (fun l => ?_) (fun l => ?_) l
        · rw [Fin.append_left]
          have h0 : blocks A B (0 : Mat m 9) (0 : Mat m m) (Fin.natAdd 9 j) l = 0 := by
            simp only [blocks, Fin.append_right]
            refine Fin.addCases (fun l => ?_) (fun l => ?_) l <;> simp
          rw [h0]
          simp [selSnd, Pi.single_apply, castAdd_ne_natAdd]
        · rw [Fin.append_right]
          simp [selSnd, setBlock, Pi.single_apply, Matrix.one_apply, eq_comm]

/-! ### The pendulum -/

/-- C52: the wheeled inverted pendulum. -/
theorem C52_pendulum (g l : ℝ) : Right (pendulum g l) (Spec.pendulum g l) := by
  refine right_plain _ _ _ (fun _ _ => True) trivial ?_ ?_
  · intro x u d
    dsimp only
    congr 1
    funext i
    fin_cases i <;> simp [Spec.pendulum]
    ring
  · intro x u d _
    refine ⟨_, _, rfl, trivial, isJac_rows fun i => ?_⟩
    have gx := fun c : Fin 7 => grad_x (m := 2) c (Fin.append x u)
    have gu := fun c : Fin 2 => grad_u (n := 7) c (Fin.append x u)
    have gs := fun c : Fin 7 => IsGradient.comp (Real.hasDerivAt_sin _) (gx c)
    have gc := fun c : Fin 7 => IsGradient.comp (Real.hasDerivAt_cos _) (gx c)
    fin_cases i
    · refine (gu 0).congr ?_
      congr 1 <;> funext c <;> fin_cases c <;> simp [setAt]
    · refine (gu 1).congr ?_
      congr 1 <;> funext c <;> fin_cases c <;> simp [setAt]
    · refine (gx 3).congr ?_
      congr 1 <;> funext c <;> fin_cases c <;> simp [setAt]
    · have h := (((gs 2).smul g).sub ((gu 0).mul (gc 2))).smul l⁻¹
      have e : (fun z => stacked (Spec.pendulum g l) z 3) = fun z : Vec (7 + 2) =>
          l⁻¹ * (g * Real.sin (z (Fin.castAdd 2 2)) - z (Fin.natAdd 7 0) * Real.cos (z (Fin.castAdd 2 2))) := by
        funext z
        simp [stacked, Spec.pendulum, fst, snd]
        ring
      refine IsGradient.congr (e ▸ h) ?_
      simp only [append_smul, append_add, append_sub, Fin.append_left, Fin.append_right]
      congr 1 <;> funext c <;> fin_cases c <;> simp [setAt] <;> ring
    · refine (gx 1).congr ?_
      congr 1 <;> funext c <;> fin_cases c <;> simp [setAt]
    · refine ((gx 0).mul (gc 4)).congr ?_
      simp only [append_smul, append_add, append_sub, Fin.append_left, Fin.append_right]
      congr 1 <;> funext c <;> fin_cases c <;> simp [setAt]
    · refine ((gx 0).mul (gs 4)).congr ?_
      simp only [append_smul, append_add, append_sub, Fin.append_left, Fin.append_right]
      congr 1 <;> funext c <;> fin_cases c <;> simp [setAt]

/-! ### Examples -/

/-- Two contacts, the second inactive. -/
def exContacts : Contacts 2 := ⟨![true, false], ![![1, 0, 0], ![0, 1, 0]]⟩

/-- Two active contacts. -/
def exBoth : Contacts 2 := ⟨fun _ => true, ![![1, 0, 0], ![0, 1, 0]]⟩

/-- Wrenches. -/
def exLayout : Layout 2 12 := ⟨6, by omega, by omega⟩

example : Right (centroidalFwd exContacts exLayout 2 ![0, 0, -10]) (Spec.centroidal ![true, false]
    ![![1, 0, 0], ![0, 1, 0]] 6 2 ![0, 0, -10]) := C52_centroidal_dynamics exContacts exLayout 2 ![0, 0, -10]

/-- A vertical force of 3 at the active contact, and a moment: the angular acceleration is `(1,0,0) × (0,0,3) + (0,0,7)`. -/
example : ((angularAcceleration exContacts exLayout (n := 9) (by omega)).evaluate 0
    ![0, 0, 3, 0, 0, 7, 0, 0, 5, 0, 0, 0] FData.new).value = ![0, -3, 7] := by
  rw [show ((angularAcceleration exContacts exLayout (n := 9) (by omega)).evaluate 0
    ![0, 0, 3, 0, 0, 7, 0, 0, 5, 0, 0, 0] FData.new).value = _ from
    (C52_angular_acceleration exContacts exLayout (n := 9) (by omega) [] 0 ![0, 0, 3, 0, 0, 7, 0, 0, 5, 0, 0, 0]).1]
  simp only [Spec.totalMoment, sum_active, Fin.sum_univ_two, cross_apply]
  funext i
  fin_cases i <;>
    simp [exContacts, exLayout, Spec.force, Spec.moment, Spec.three, Spec.get]

/-- A wrapped residual. -/
example : Right (wrapper (angularAcceleration exBoth exLayout (n := 9) (by omega)))
    (fun x _ => Spec.totalMoment exBoth.active exBoth.pose 6 (Spec.three (fst x) 0) (snd x)) :=
  C52_wrapper _ _ (C52_angular_acceleration exBoth exLayout (by omega))

/-- A force in the friction cone and one outside it. -/
example : Spec.InFrictionCone 1 (1 / 2) ![0, 1, 2] ∧ ¬ Spec.InFrictionCone 1 (1 / 2) ![3, 0, 2] := by
  simp only [Spec.InFrictionCone, Matrix.cons_val]
  constructor
  · rw [Real.sqrt_le_left (by norm_num)]
    norm_num
  · rw [Real.sqrt_le_left (by norm_num)]
    norm_num

/-- A wrench in the cone: a normal force with a small yaw torque; outside it: with too much yaw torque. -/
example : Spec.InWrenchCone 1 (1 / 10) (1 / 20) ![0, 0, 10] ![0, 0, 1] ∧
    ¬ Spec.InWrenchCone 1 (1 / 10) (1 / 20) ![0, 0, 10] ![0, 0, 2] := by
  simp only [Spec.InWrenchCone, Matrix.cons_val]
  norm_num

end Aligator.Centroidal
