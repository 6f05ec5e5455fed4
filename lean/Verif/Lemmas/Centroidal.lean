import Verif.Model.Centroidal
import Verif.Spec.Centroidal
import Verif.Lemmas.Derivatives
import Mathlib.Tactic.FinCases
import Mathlib.Tactic.Linarith

/-!
# Lemmas: block writes and loops over contacts
-/

namespace Aligator.Centroidal

open Matrix Aligator.Deriv

variable {n m r p q nk a b : ℕ}

theorem setBlock_setBlock (M : Mat p q) (r0 c0 : ℕ) (B B' : Mat a b) :
    setBlock (setBlock M r0 c0 B) r0 c0 B' = setBlock M r0 c0 B' := by
  funext i j
  unfold setBlock
  split_ifs <;> rfl

/-- Writing a block which is zero is adding. -/
theorem setBlock_of_zero (M : Mat p q) (r0 c0 : ℕ) (B : Mat a b)
    (h : ∀ (i : Fin p) (j : Fin q), (r0 ≤ i.val ∧ i.val < r0 + a) → (c0 ≤ j.val ∧ j.val < c0 + b) → M i j = 0) :
    setBlock M r0 c0 B = M + setBlock 0 r0 c0 B := by
  funext i j
  simp only [setBlock, Matrix.add_apply]
  split_ifs with hc
  · rw [h i j hc.1 hc.2, zero_add]
  · simp

/-- Columns outside a written block of zero. -/
theorem setBlock_zero_col (r0 c0 : ℕ) (B : Mat a b) (i : Fin p) (j : Fin q) (h : ¬ (c0 ≤ j.val ∧ j.val < c0 + b)) :
    setBlock (0 : Mat p q) r0 c0 B i j = 0 := by
  unfold setBlock
  rw [dif_neg (fun hc => h hc.2)]
  rfl

/-- Rows outside a written block of zero. -/
theorem setBlock_zero_row (r0 c0 : ℕ) (B : Mat a b) (i : Fin p) (h : ¬ (r0 ≤ i.val ∧ i.val < r0 + a)) :
    setBlock (0 : Mat p q) r0 c0 B i = 0 := by
  funext j
  unfold setBlock
  rw [dif_neg (fun hc => h hc.1)]
  rfl

/-- Rows of a written block of zero. -/
theorem setBlock_row (r0 c0 : ℕ) (B : Mat a b) (i : Fin p) (k : Fin a) (hi : i.val = r0 + k.val) (j : Fin b → Fin q)
    (hj : ∀ c, (j c).val = c0 + c.val) :
    setBlock (0 : Mat p q) r0 c0 B i = ∑ c, B k c • (Pi.single (j c) 1 : Vec q) := by
  funext l
  rw [Finset.sum_apply]
  unfold setBlock
  by_cases hl : c0 ≤ l.val ∧ l.val < c0 + b
  · rw [dif_pos ⟨by omega, hl⟩, Finset.sum_eq_single (⟨l.val - c0, by omega⟩ : Fin b)]
    · have e1 : (⟨i.val - r0, by omega⟩ : Fin a) = k := Fin.ext (by simp; omega)
      have e2 : j ⟨l.val - c0, by omega⟩ = l := Fin.ext (by rw [hj]; simp; omega)
      rw [e1, e2]
      simp
    · intro c _ hc
      have : l ≠ j c := by
        intro e
        apply hc
        apply Fin.ext
        have := hj c
        rw [← e] at this
        simp; omega
      simp [Pi.single_apply, this]
    · simp
  · rw [dif_neg (fun hc => hl hc.2), Finset.sum_eq_zero]
    · rfl
    · intro c _
      have : l ≠ j c := by
        intro e
        have := hj c
        rw [← e] at this
        omega
      simp [Pi.single_apply, this]

theorem addAt_eq (M : Mat p q) (i j : ℕ) (y : ℝ) : addAt M i j y = M + addAt 0 i j y := by
  funext c d
  simp only [addAt, Matrix.add_apply]
  split_ifs <;> simp

theorem addCross_eq (M : Mat p q) (r0 : ℕ) (f : Vec 3) : addCross M r0 f = M + addCross 0 r0 f := by
  unfold addCross
  dsimp only
  rw [addAt_eq (addAt (addAt (addAt (addAt (addAt M _ _ _) _ _ _) _ _ _) _ _ _) _ _ _), addAt_eq (addAt (addAt (addAt (addAt M _ _ _) _ _ _) _ _ _) _ _ _),
    addAt_eq (addAt (addAt (addAt M _ _ _) _ _ _) _ _ _), addAt_eq (addAt (addAt M _ _ _) _ _ _), addAt_eq (addAt M _ _ _), addAt_eq M,
    addAt_eq (addAt (addAt (addAt (addAt (addAt (0 : Mat p q) _ _ _) _ _ _) _ _ _) _ _ _) _ _ _), addAt_eq (addAt (addAt (addAt (addAt (0 : Mat p q) _ _ _) _ _ _) _ _ _) _ _ _),
    addAt_eq (addAt (addAt (addAt (0 : Mat p q) _ _ _) _ _ _) _ _ _), addAt_eq (addAt (addAt (0 : Mat p q) _ _ _) _ _ _), addAt_eq (addAt (0 : Mat p q) _ _ _)]
  abel

/-- The derivative of a cross product in its first argument, up to sign. -/
def crossX (f : Vec 3) : Mat 3 3 := !![0, -f 2, f 1; f 2, 0, -f 0; -f 1, f 0, 0]

theorem addCross_zero (r0 : ℕ) (f : Vec 3) : addCross (0 : Mat p q) r0 f = setBlock 0 r0 0 (crossX f) := by
  funext i j
  obtain ⟨i, hi⟩ := i
  obtain ⟨j, hj⟩ := j
  by_cases h : (r0 ≤ i ∧ i < r0 + 3) ∧ (0 ≤ j ∧ j < 0 + 3)
  · obtain ⟨k, rfl⟩ : ∃ k, i = r0 + k := ⟨i - r0, by omega⟩
    have hk : k = 0 ∨ k = 1 ∨ k = 2 := by omega
    have hj3 : j = 0 ∨ j = 1 ∨ j = 2 := by omega
    rcases hk with rfl | rfl | rfl <;> rcases hj3 with rfl | rfl | rfl <;>
      simp [addCross, addAt, setBlock, crossX]
  · unfold setBlock
    rw [dif_neg h]
    simp only [addCross, addAt]
    split_ifs <;> first | rfl | omega

/-- A loop in which each step adds its own contribution. -/
theorem foldl_acc (step : FData n m r → Fin nk → FData n m r) (X : Fin nk → Mat r n) (U : Fin nk → Mat r m)
    (Z : Fin nk → FData n m r → Prop)
    (h1 : ∀ i d, Z i d → step d i = ⟨d.value, d.Jx + X i, d.Ju + U i⟩)
    (h2 : ∀ i j d, i ≠ j → Z j d → Z j ⟨d.value, d.Jx + X i, d.Ju + U i⟩) :
    ∀ (l : List (Fin nk)) (d : FData n m r), l.Nodup → (∀ i ∈ l, Z i d) →
      l.foldl step d = ⟨d.value, d.Jx + (l.map X).sum, d.Ju + (l.map U).sum⟩ := by
  intro l
  induction l with
  | nil => intro d _ _; simp
  | cons i l ih =>
    intro d hn hZ
    rw [List.nodup_cons] at hn
    rw [List.foldl_cons, h1 i d (hZ i (by simp)), ih _ hn.2]
    · simp [add_assoc]
    · intro j hj
      exact h2 i j d (fun e => hn.1 (e ▸ hj)) (hZ j (by simp [hj]))

theorem foldl_finRange (step : FData n m r → Fin nk → FData n m r) (X : Fin nk → Mat r n) (U : Fin nk → Mat r m)
    (Z : Fin nk → FData n m r → Prop)
    (h1 : ∀ i d, Z i d → step d i = ⟨d.value, d.Jx + X i, d.Ju + U i⟩)
    (h2 : ∀ i j d, i ≠ j → Z j d → Z j ⟨d.value, d.Jx + X i, d.Ju + U i⟩) (d : FData n m r) (hZ : ∀ i, Z i d) :
    (List.finRange nk).foldl step d = ⟨d.value, d.Jx + ∑ i, X i, d.Ju + ∑ i, U i⟩ := by
  rw [foldl_acc step X U Z h1 h2 _ d (List.nodup_finRange nk) fun i _ => hZ i, Fin.sum_univ_def, Fin.sum_univ_def]

/-- A loop in which each step adds to the value. -/
theorem foldl_value (step : FData n m r → Fin nk → FData n m r) (V : Fin nk → Vec r)
    (h : ∀ i d, step d i = ⟨d.value + V i, d.Jx, d.Ju⟩) (d : FData n m r) :
    (List.finRange nk).foldl step d = ⟨d.value + ∑ i, V i, d.Jx, d.Ju⟩ := by
  have : ∀ (l : List (Fin nk)) (d : FData n m r), l.foldl step d = ⟨d.value + (l.map V).sum, d.Jx, d.Ju⟩ := by
    intro l
    induction l with
    | nil => intro d; simp
    | cons i l ih => intro d; rw [List.foldl_cons, h, ih]; simp [add_assoc]
  rw [this, Fin.sum_univ_def]

/-- Contacts have disjoint columns. -/
theorem disjoint_cols (fs : ℕ) {i j : ℕ} (hij : i ≠ j) (l : ℕ) (hi : i * fs ≤ l ∧ l < i * fs + fs) :
    ¬ (j * fs ≤ l ∧ l < j * fs + fs) := by
  rintro ⟨h1, h2⟩
  rcases Nat.lt_or_gt_of_ne hij with h | h
  · have := Nat.mul_le_mul_right fs (Nat.succ_le_of_lt h)
    rw [Nat.succ_mul] at this
    omega
  · have := Nat.mul_le_mul_right fs (Nat.succ_le_of_lt h)
    rw [Nat.succ_mul] at this
    omega

/-- The coordinates of a force. -/
theorem force_eq (L : Layout nk m) (u : Vec m) (i : Fin nk) : L.force u i = Spec.force L.fs u i := by
  have h0 := (L.ix i 0 (by have := L.h3; omega)).isLt
  have h1 := (L.ix i 1 (by have := L.h3; omega)).isLt
  have h2 := (L.ix i 2 (by have := L.h3; omega)).isLt
  simp only [Layout.ix] at h0 h1 h2
  funext c
  fin_cases c
  · simp [Layout.force, Spec.force, Spec.three, Spec.get, Layout.ix, show i.val * L.fs < m by omega]
  · simp [Layout.force, Spec.force, Spec.three, Spec.get, Layout.ix, h1]
  · simp [Layout.force, Spec.force, Spec.three, Spec.get, Layout.ix, h2]

theorem moment_eq (L : Layout nk m) (h : L.fs = 6) (u : Vec m) (i : Fin nk) :
    L.moment h u i = Spec.moment L.fs u i := by
  have h0 := (L.ix i 3 (by omega)).isLt
  have h1 := (L.ix i 4 (by omega)).isLt
  have h2 := (L.ix i 5 (by omega)).isLt
  simp only [Layout.ix] at h0 h1 h2
  unfold Spec.moment
  rw [if_pos h]
  funext c
  fin_cases c
  · simp [Layout.moment, Spec.three, Spec.get, Layout.ix, h0]
  · simp [Layout.moment, Spec.three, Spec.get, Layout.ix, add_assoc, h1]
  · simp [Layout.moment, Spec.three, Spec.get, Layout.ix, add_assoc, h2]

theorem com_eq (hn : 3 ≤ n) (x : Vec n) : com hn x = Spec.three x 0 := by
  funext c
  fin_cases c
  · simp [com, Spec.three, Spec.get, show 0 < n by omega]; rfl
  · simp [com, Spec.three, Spec.get, show 1 < n by omega]; rfl
  · simp [com, Spec.three, Spec.get, show 2 < n by omega]; rfl

theorem crossTerm_eq (s c f : Vec 3) : crossTerm s c f = (s - c) ⨯₃ f := by
  rw [cross_apply]
  rfl

/-- The value of one contact in the angular rate. -/
theorem sum_active (active : Fin nk → Bool) (V : Fin nk → Vec r) :
    (∑ i with active i = true, V i) = ∑ i, if active i = true then V i else 0 := by
  rw [Finset.sum_filter]

/-! ### Gradients of coordinates of the stacked variable -/

theorem grad_x (i : Fin n) (z : Vec (n + m)) :
    IsGradient (fun y => y (Fin.castAdd m i)) (Fin.append (Pi.single i 1) 0) z := by
  refine (IsGradient.coord _ z).congr ?_
  funext l
  refine Fin.addCases (fun l => ?_) (fun l => ?_) l
  · rw [Fin.append_left, Pi.single_apply, Pi.single_apply]
    simp
  · rw [Fin.append_right, Pi.single_apply, if_neg (castAdd_ne_natAdd i l).symm]
    rfl

theorem grad_u (j : Fin m) (z : Vec (n + m)) :
    IsGradient (fun y => y (Fin.natAdd n j)) (Fin.append 0 (Pi.single j 1)) z := by
  refine (IsGradient.coord _ z).congr ?_
  funext l
  refine Fin.addCases (fun l => ?_) (fun l => ?_) l
  · rw [Fin.append_left, Pi.single_apply, if_neg (castAdd_ne_natAdd l j)]
    rfl
  · rw [Fin.append_right, Pi.single_apply, Pi.single_apply]
    simp

/-- Gradients of linear functions of consecutive coordinates. -/
theorem grad_block_x (r0 c0 : ℕ) (B : Mat a b) (i : Fin r) (k : Fin a) (hi : i.val = r0 + k.val) (j : Fin b → Fin n)
    (hj : ∀ c, (j c).val = c0 + c.val) (z : Vec (n + m)) :
    IsGradient (fun y => ∑ c, B k c * y (Fin.castAdd m (j c))) (Fin.append (setBlock (0 : Mat r n) r0 c0 B i) 0) z := by
  refine (IsGradient.sum Finset.univ fun c _ => (grad_x (j c) z).smul (B k c)).congr ?_
  rw [setBlock_row r0 c0 B i k hi j hj]
  funext l
  refine Fin.addCases (fun l => ?_) (fun l => ?_) l <;> simp [Finset.sum_apply]

theorem grad_block_u (r0 c0 : ℕ) (B : Mat a b) (i : Fin r) (k : Fin a) (hi : i.val = r0 + k.val) (j : Fin b → Fin m)
    (hj : ∀ c, (j c).val = c0 + c.val) (z : Vec (n + m)) :
    IsGradient (fun y => ∑ c, B k c * y (Fin.natAdd n (j c))) (Fin.append 0 (setBlock (0 : Mat r m) r0 c0 B i)) z := by
  refine (IsGradient.sum Finset.univ fun c _ => (grad_u (j c) z).smul (B k c)).congr ?_
  rw [setBlock_row r0 c0 B i k hi j hj]
  funext l
  refine Fin.addCases (fun l => ?_) (fun l => ?_) l <;> simp [Finset.sum_apply]

/-- The gradient of the moment of one force. -/
theorem grad_cross (r0 c0 : ℕ) (s : Vec 3) (i : Fin r) (k : Fin 3) (hi : i.val = r0 + k.val) (jx : Fin 3 → Fin n)
    (hjx : ∀ c, (jx c).val = 0 + c.val) (ju : Fin 3 → Fin m) (hju : ∀ c, (ju c).val = c0 + c.val) (z : Vec (n + m)) :
    IsGradient (fun y => crossTerm s (fun c => y (Fin.castAdd m (jx c))) (fun c => y (Fin.natAdd n (ju c))) k)
      (Fin.append (setBlock (0 : Mat r n) r0 0 (crossX fun c => z (Fin.natAdd n (ju c))) i)
        (setBlock (0 : Mat r m) r0 c0 (jtemp s fun c => z (Fin.castAdd m (jx c))) i)) z := by
  have gx := fun c => grad_x (m := m) (jx c) z
  have gs := fun c => (IsGradient.const (s c) z).sub (gx c)
  have gu := fun c => grad_u (n := n) (ju c) z
  rw [setBlock_row r0 0 _ i k hi jx hjx, setBlock_row r0 c0 _ i k hi ju hju]
  fin_cases k
  · refine (((gs 1).mul (gu 2)).sub ((gs 2).mul (gu 1))).congr ?_
    funext l
    refine Fin.addCases (fun l => ?_) (fun l => ?_) l <;>
      simp [Fin.sum_univ_three, crossX, jtemp] <;> ring
  · refine (((gs 2).mul (gu 0)).sub ((gs 0).mul (gu 2))).congr ?_
    funext l
    refine Fin.addCases (fun l => ?_) (fun l => ?_) l <;>
      simp [Fin.sum_univ_three, crossX, jtemp] <;> ring
  · refine (((gs 0).mul (gu 1)).sub ((gs 1).mul (gu 0))).congr ?_
    funext l
    refine Fin.addCases (fun l => ?_) (fun l => ?_) l <;>
      simp [Fin.sum_univ_three, crossX, jtemp] <;> ring

end Aligator.Centroidal
