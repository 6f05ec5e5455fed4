import Verif.Lemmas.BunchKaufman
import Mathlib.Logic.Equiv.Basic
import Mathlib.Algebra.Order.BigOperators.Group.Finset

set_option linter.unusedSectionVars false

namespace Aligator.BK

variable {𝕜 : Type*} [Field 𝕜] [LinearOrder 𝕜] [IsStrictOrderedRing 𝕜]

/-! ### Pivot selection -/

theorem maxCoeff_spec (f : ℕ → 𝕜) (lo len : ℕ) :
    lo ≤ (maxCoeff f lo len).2 ∧ (maxCoeff f lo len).2 ≤ lo + len ∧
    (maxCoeff f lo len).1 = f (maxCoeff f lo len).2 ∧
    ∀ j, lo ≤ j → j ≤ lo + len → f j ≤ (maxCoeff f lo len).1 := by
  induction len with
  | zero =>
    refine ⟨le_rfl, le_rfl, rfl, ?_⟩
    intro j h1 h2
    have : j = lo := by omega
    subst this; exact le_rfl
  | succ len ih =>
    obtain ⟨h1, h2, h3, h4⟩ := ih
    unfold maxCoeff
    dsimp only
    split
    · rename_i hlt
      refine ⟨by dsimp only; omega, by dsimp only; omega, rfl, ?_⟩
      intro j hj hj'
      by_cases e : j = lo + len + 1
      · rw [e]
      · exact (h4 j hj (by omega)).trans hlt.le
    · rename_i hlt
      refine ⟨h1, by omega, h3, ?_⟩
      intro j hj hj'
      by_cases e : j = lo + len + 1
      · rw [e]; exact not_lt.1 hlt
      · exact h4 j hj (by omega)

/-- What a selected pivot guarantees. -/
structure PivotOK (n k : ℕ) (a : Arr 𝕜) (two : Bool) (kp : ℕ) : Prop where
  ge : kkOf k two ≤ kp
  lt : kp < n
  one : two = false → a kp kp ≠ 0
  two : two = true → a kp k ≠ 0 ∧ a k k * a kp kp - a kp k * a kp k ≠ 0

theorem choosePivot_some {alpha : 𝕜} (h0 : 0 < alpha) (h1 : alpha < 1) {n k : ℕ} (hk : k < n)
    {a : Arr 𝕜} {two : Bool} {kp : ℕ} (h : choosePivot alpha n k a = some (two, kp)) :
    PivotOK n k a two kp := by
  unfold choosePivot at h
  dsimp only at h
  by_cases hk1 : k + 1 < n
  · rw [if_pos hk1] at h
    obtain ⟨m1, m2, m3, m4⟩ := maxCoeff_spec (fun i => |a i k|) (k + 1) (n - k - 2)
    generalize maxCoeff (fun i => |a i k|) (k + 1) (n - k - 2) = cm at *
    obtain ⟨colmax, imax⟩ := cm
    dsimp only at m1 m2 m3 m4 h
    by_cases hz : max |a k k| colmax = 0
    · rw [if_pos hz] at h; cases h
    rw [if_neg hz] at h
    have hcn : 0 ≤ colmax := m3 ▸ abs_nonneg _
    by_cases hc1 : colmax * alpha ≤ |a k k|
    · rw [if_pos hc1] at h
      simp only [Option.some.injEq, Prod.mk.injEq] at h
      obtain ⟨rfl, rfl⟩ := h
      refine ⟨by simp [kkOf], hk, fun _ hz' => hz ?_, fun h => by cases h⟩
      have e0 : |a k k| = 0 := by rw [hz', abs_zero]
      have : colmax = 0 := by
        by_contra hne
        have : 0 < colmax := lt_of_le_of_ne hcn (Ne.symm hne)
        have := mul_pos this h0
        linarith
      rw [e0, this, max_self]
    rw [if_neg hc1] at h
    have hc1' := not_le.1 hc1
    have hcp : 0 < colmax := by
      by_contra hne
      have : colmax = 0 := le_antisymm (not_lt.1 hne) hcn
      rw [this, zero_mul] at hc1'
      exact absurd hc1' (not_lt.2 (abs_nonneg _))
    rw [if_pos (show 0 < imax - k by omega)] at h
    obtain ⟨r1, r2, r3, r4⟩ := maxCoeff_spec (fun j => |a imax j|) k (imax - k - 1)
    generalize maxCoeff (fun j => |a imax j|) k (imax - k - 1) = rm at *
    obtain ⟨rm0, ri⟩ := rm
    dsimp only at r1 r2 r3 r4 h
    have hrow : colmax ≤ (if 0 < n - imax - 1 then
        max rm0 (maxCoeff (fun i => |a i imax|) (imax + 1) (n - imax - 2)).1 else rm0) := by
      have : colmax ≤ rm0 := by rw [m3]; exact r4 k le_rfl (by omega)
      split
      · exact le_max_of_le_left this
      · exact this
    generalize (if 0 < n - imax - 1 then
        max rm0 (maxCoeff (fun i => |a i imax|) (imax + 1) (n - imax - 2)).1 else rm0) = rowmax at *
    have hrp : 0 < rowmax := lt_of_lt_of_le hcp hrow
    by_cases hc2 : alpha * colmax * (colmax / rowmax) ≤ |a k k|
    · rw [if_pos hc2] at h
      simp only [Option.some.injEq, Prod.mk.injEq] at h
      obtain ⟨rfl, rfl⟩ := h
      refine ⟨by simp [kkOf], hk, fun _ hz' => ?_, fun h => by cases h⟩
      rw [hz', abs_zero] at hc2
      have : 0 < alpha * colmax * (colmax / rowmax) :=
        mul_pos (mul_pos h0 hcp) (div_pos hcp hrp)
      linarith
    rw [if_neg hc2] at h
    by_cases hc3 : alpha * rowmax ≤ |a imax imax|
    · rw [if_pos hc3] at h
      simp only [Option.some.injEq, Prod.mk.injEq] at h
      obtain ⟨rfl, rfl⟩ := h
      refine ⟨by simp only [kkOf]; simp only [Bool.false_eq_true, if_false]; omega, by omega,
        fun _ hz' => ?_, fun h => by cases h⟩
      rw [hz', abs_zero] at hc3
      have := mul_pos h0 hrp
      linarith
    rw [if_neg hc3] at h
    simp only [Option.some.injEq, Prod.mk.injEq] at h
    obtain ⟨rfl, rfl⟩ := h
    refine ⟨by simp only [kkOf, if_true]; omega, by omega, (fun h => by cases h), fun _ => ?_⟩
    have hne : a imax k ≠ 0 := by
      intro hz'
      rw [m3, hz', abs_zero] at hcp
      exact lt_irrefl _ hcp
    refine ⟨hne, fun hdet => ?_⟩
    have hc2' := not_le.1 hc2
    have hc3' := not_le.1 hc3
    have e1 : |a k k * a imax imax| = colmax * colmax := by
      rw [sub_eq_zero.1 hdet, abs_mul, ← m3]
    rw [abs_mul] at e1
    have e2 : |a k k| * |a imax imax| ≤ |a k k| * (alpha * rowmax) :=
      mul_le_mul_of_nonneg_left hc3'.le (abs_nonneg _)
    have e3 : |a k k| * (alpha * rowmax) ≤ alpha * colmax * (colmax / rowmax) * (alpha * rowmax) :=
      mul_le_mul_of_nonneg_right hc2'.le (mul_pos h0 hrp).le
    have e4 : alpha * colmax * (colmax / rowmax) * (alpha * rowmax) =
        alpha * alpha * (colmax * colmax) := by
      field_simp
    have e5 : alpha * alpha < 1 := by nlinarith
    have e6 := mul_lt_mul_of_pos_right e5 (mul_pos hcp hcp)
    linarith
  · rw [if_neg hk1] at h
    dsimp only at h
    by_cases hz : max |a k k| 0 = 0
    · rw [if_pos hz] at h; cases h
    rw [if_neg hz, if_pos (by rw [zero_mul]; exact abs_nonneg _)] at h
    simp only [Option.some.injEq, Prod.mk.injEq] at h
    obtain ⟨rfl, rfl⟩ := h
    refine ⟨by simp [kkOf], hk, fun _ hz' => hz ?_, fun h => by cases h⟩
    rw [hz', abs_zero, max_self]

theorem choosePivot_none {alpha : 𝕜} {n k : ℕ} {a : Arr 𝕜}
    (h : choosePivot alpha n k a = none) : ∀ i, k ≤ i → i < n → a i k = 0 := by
  unfold choosePivot at h
  dsimp only at h
  intro i hi hi'
  by_cases hk1 : k + 1 < n
  · rw [if_pos hk1] at h
    obtain ⟨m1, m2, m3, m4⟩ := maxCoeff_spec (fun i => |a i k|) (k + 1) (n - k - 2)
    generalize maxCoeff (fun i => |a i k|) (k + 1) (n - k - 2) = cm at *
    obtain ⟨colmax, imax⟩ := cm
    dsimp only at m1 m2 m3 m4 h
    by_cases hz : max |a k k| colmax = 0
    · by_cases e : i = k
      · subst e
        have := le_max_left |a i i| colmax
        rw [hz] at this
        exact abs_nonpos_iff.1 this
      · have h1 := m4 i (by omega) (by omega)
        have h2 := le_max_right |a k k| colmax
        rw [hz] at h2
        exact abs_nonpos_iff.1 (h1.trans h2)
    · rw [if_neg hz] at h
      split_ifs at h
  · rw [if_neg hk1] at h
    dsimp only at h
    have e : i = k := by omega
    subst e
    by_cases hz : max |a i i| 0 = 0
    · have := le_max_left |a i i| 0
      rw [hz] at this
      exact abs_nonpos_iff.1 this
    · rw [if_neg hz, if_pos (by rw [zero_mul]; exact abs_nonneg _)] at h
      cases h

/-! ### Effect of one step on the represented matrix -/

/-- `B` is the symmetrically permuted trailing matrix of `a`. -/
def permuted (a : Arr 𝕜) (kk kp i j : ℕ) : 𝕜 := sym a (tau kk kp i) (tau kk kp j)

theorem permuted_comm (a : Arr 𝕜) (kk kp i j : ℕ) : permuted a kk kp i j = permuted a kk kp j i :=
  sym_comm _ _ _

/-- Result of a 1x1 step. -/
structure Step1 (n k kp : ℕ) (a a' : Arr 𝕜) : Prop where
  pivot : permuted a k kp k k ≠ 0
  diag : a' k k = 1 / permuted a k kp k k
  col : ∀ i, k < i → i < n → a' i k = permuted a k kp i k * (1 / permuted a k kp k k)
  trail : ∀ i j, k < i → i < n → k < j → j < n → sym a' i j =
    permuted a k kp i j - permuted a k kp j k * (1 / permuted a k kp k k) * permuted a k kp i k

/-- Entries of the stored inverse of a 2x2 pivot block, as computed. -/
def blkInv11 (p11 p21 p22 : 𝕜) : 𝕜 :=
  1 / |p21| * p22 * (1 / (1 / |p21| * p22 * (1 / |p21| * p11) - 1) * (1 / |p21|))
@[inherit_doc blkInv11]
def blkInv21 (p11 p21 p22 : 𝕜) : 𝕜 :=
  -(p21 * (1 / |p21|)) * (1 / (1 / |p21| * p22 * (1 / |p21| * p11) - 1) * (1 / |p21|))
@[inherit_doc blkInv11]
def blkInv22 (p11 p21 p22 : 𝕜) : 𝕜 :=
  1 / |p21| * p11 * (1 / (1 / |p21| * p22 * (1 / |p21| * p11) - 1) * (1 / |p21|))

/-- Result of a 2x2 step: `e` is the inverse of the 2x2 pivot block. -/
structure Step2 (n k kp : ℕ) (a a' : Arr 𝕜) : Prop where
  inv11 : a' k k * permuted a (k+1) kp k k + a' (k+1) k * permuted a (k+1) kp (k+1) k = 1
  inv12 : a' k k * permuted a (k+1) kp (k+1) k + a' (k+1) k * permuted a (k+1) kp (k+1) (k+1) = 0
  inv21 : a' (k+1) k * permuted a (k+1) kp k k + a' (k+1) (k+1) * permuted a (k+1) kp (k+1) k = 0
  inv22 : a' (k+1) k * permuted a (k+1) kp (k+1) k +
    a' (k+1) (k+1) * permuted a (k+1) kp (k+1) (k+1) = 1
  col : ∀ i, k + 1 < i → i < n → a' i k =
    permuted a (k+1) kp i k * a' k k + permuted a (k+1) kp i (k+1) * a' (k+1) k
  col1 : ∀ i, k + 1 < i → i < n → a' i (k+1) =
    permuted a (k+1) kp i k * a' (k+1) k + permuted a (k+1) kp i (k+1) * a' (k+1) (k+1)
  v11 : a' k k = blkInv11 (permuted a (k+1) kp k k) (permuted a (k+1) kp (k+1) k)
    (permuted a (k+1) kp (k+1) (k+1))
  v21 : a' (k+1) k = blkInv21 (permuted a (k+1) kp k k) (permuted a (k+1) kp (k+1) k)
    (permuted a (k+1) kp (k+1) (k+1))
  v22 : a' (k+1) (k+1) = blkInv22 (permuted a (k+1) kp k k) (permuted a (k+1) kp (k+1) k)
    (permuted a (k+1) kp (k+1) (k+1))
  trail : ∀ i j, k + 1 < i → i < n → k + 1 < j → j < n → sym a' i j =
    permuted a (k+1) kp i j - (permuted a (k+1) kp i k * a' j k +
      permuted a (k+1) kp i (k+1) * a' j (k+1))

theorem tau_lt {r p i n : ℕ} (hr : r < n) (hp : p < n) (hi : i < n) : tau r p i < n := by
  unfold tau; split_ifs <;> omega

theorem tau_ge {r p i k : ℕ} (hr : k ≤ r) (hp : k ≤ p) (hi : k ≤ i) : k ≤ tau r p i := by
  unfold tau; split_ifs <;> omega

theorem tau_tau (r p i : ℕ) : tau r p (tau r p i) = i := by
  unfold tau; grind

theorem step1 {n k kp : ℕ} {a : Arr 𝕜} (hk : k < n) (h : PivotOK n k a false kp) :
    Step1 n k kp a (eliminate1 n k (interchange n k false kp a)) := by
  have hge : k ≤ kp := by simpa [kkOf] using h.ge
  have hB : ∀ i j, k ≤ i → i < n → k ≤ j → j < n →
      sym (interchange n k false kp a) i j = permuted a k kp i j := by
    intro i j h1 h2 h3 h4
    have := interchange_sym n k false kp a h.ge h.lt i j h1 h2 h3 h4
    simpa [kkOf, permuted] using this
  have hkk : permuted a k kp k k = a kp kp := by
    simp only [permuted, tau, if_true, sym, max_self, min_self]
  have hB' : ∀ i j, j ≤ i → k ≤ i → i < n → k ≤ j → j < n →
      interchange n k false kp a i j = permuted a k kp i j := by
    intro i j hij h1 h2 h3 h4
    rw [← hB i j h1 h2 h3 h4, sym_le _ hij]
  have ekk := hB' k k le_rfl le_rfl hk le_rfl hk
  refine ⟨hkk ▸ h.one rfl, ?_, ?_, ?_⟩
  · rw [eliminate1_closed, if_pos ⟨rfl, rfl⟩, ekk]
  · intro i h1 h2
    rw [eliminate1_closed, if_neg (by omega), if_neg (by omega), if_pos ⟨rfl, h1, h2⟩, ekk,
      hB' i k h1.le h1.le h2 le_rfl hk]
  · intro i j h1 h2 h3 h4
    have key : ∀ i j, j ≤ i → k < i → i < n → k < j → j < n →
        sym (eliminate1 n k (interchange n k false kp a)) i j = permuted a k kp i j -
          permuted a k kp j k * (1 / permuted a k kp k k) * permuted a k kp i k := by
      intro i j hij h1 h2 h3 h4
      rw [sym_le _ hij, eliminate1_closed, if_neg (by omega), if_pos ⟨h3, hij, h2⟩, ekk,
        hB' i j hij h1.le h2 h3.le h4, hB' j k h3.le h3.le h4 le_rfl hk,
        hB' i k h1.le h1.le h2 le_rfl hk]
    rcases le_total j i with hij | hij
    · exact key i j hij h1 h2 h3 h4
    · rw [sym_comm, key j i hij h3 h4 h1 h2, permuted_comm a k kp j i]
      ring

theorem step2 {n k kp : ℕ} {a : Arr 𝕜} (h : PivotOK n k a true kp) :
    Step2 n k kp a (eliminate2 n k (interchange n k true kp a)) := by
  have hge : k + 1 ≤ kp := by simpa [kkOf] using h.ge
  have hlt := h.lt
  have hB : ∀ i j, k ≤ i → i < n → k ≤ j → j < n →
      sym (interchange n k true kp a) i j = permuted a (k + 1) kp i j := by
    intro i j h1 h2 h3 h4
    have := interchange_sym n k true kp a h.ge h.lt i j h1 h2 h3 h4
    simpa [kkOf, permuted] using this
  have hB' : ∀ i j, j ≤ i → k ≤ i → i < n → k ≤ j → j < n →
      interchange n k true kp a i j = permuted a (k + 1) kp i j := by
    intro i j hij h1 h2 h3 h4
    rw [← hB i j h1 h2 h3 h4, sym_le _ hij]
  obtain ⟨hne, hdet⟩ := h.two rfl
  have e11 := hB' k k le_rfl le_rfl (by omega) le_rfl (by omega)
  have e21 := hB' (k + 1) k (by omega) (by omega) (by omega) le_rfl (by omega)
  have e22 := hB' (k + 1) (k + 1) le_rfl (by omega) (by omega) (by omega) (by omega)
  have p11 : permuted a (k + 1) kp k k = a k k := by
    simp only [permuted, tau]
    rw [if_neg (by omega), if_neg (by omega), sym_le _ le_rfl]
  have p21 : permuted a (k + 1) kp (k + 1) k = a kp k := by
    simp only [permuted, tau, if_true]
    rw [if_neg (by omega), if_neg (by omega), sym_le _ (by omega)]
  have p22 : permuted a (k + 1) kp (k + 1) (k + 1) = a kp kp := by
    simp only [permuted, tau, if_true, sym_le _ le_rfl]
  rw [← p11, ← p21, ← p22] at hdet
  rw [← p21] at hne
  set b := interchange n k true kp a with hb
  set d11 := 1 / |b (k + 1) k| * b (k + 1) (k + 1) with h11
  set d22 := 1 / |b (k + 1) k| * b k k with h22
  set d21 := b (k + 1) k * (1 / |b (k + 1) k|) with h21
  set d := 1 / (d11 * d22 - 1) * (1 / |b (k + 1) k|) with hd
  have cl := eliminate2_closed n k b d11 d21 d22 d h11 h22 h21 hd
  have f11 : eliminate2 n k b k k = d11 * d := by
    rw [cl k k (by omega), if_pos ⟨rfl, rfl⟩]
  have f21 : eliminate2 n k b (k + 1) k = -d21 * d := by
    rw [cl (k + 1) k (by omega), if_neg (by omega), if_pos ⟨rfl, rfl⟩]
  have f22 : eliminate2 n k b (k + 1) (k + 1) = d22 * d := by
    rw [cl (k + 1) (k + 1) (by omega), if_neg (by omega), if_neg (by omega), if_pos ⟨rfl, rfl⟩]
  have fk : ∀ i, k + 1 < i → i < n → eliminate2 n k b i k = permuted a (k+1) kp i k * (d11 * d) +
      permuted a (k+1) kp i (k+1) * (-d21 * d) := by
    intro i h1 h2
    rw [cl i k h2, if_neg (by omega), if_neg (by omega), if_neg (by omega), if_neg (by omega),
      if_pos ⟨rfl, h1⟩, wkOf, hB' i k (by omega) (by omega) h2 le_rfl (by omega),
      hB' i (k + 1) (by omega) (by omega) h2 (by omega) (by omega)]
    ring
  have fk1 : ∀ i, k + 1 < i → i < n → eliminate2 n k b i (k + 1) =
      permuted a (k+1) kp i k * (-d21 * d) + permuted a (k+1) kp i (k+1) * (d22 * d) := by
    intro i h1 h2
    rw [cl i (k + 1) h2, if_neg (by omega), if_neg (by omega), if_neg (by omega), if_neg (by omega),
      if_neg (by omega), if_pos ⟨rfl, h1⟩, wkp1Of, hB' i k (by omega) (by omega) h2 le_rfl (by omega),
      hB' i (k + 1) (by omega) (by omega) h2 (by omega) (by omega)]
    ring
  -- the stored block is the inverse of the pivot block
  have hy : |b (k + 1) k| ≠ 0 := by rw [e21]; exact abs_ne_zero.2 hne
  have hy2 : |b (k + 1) k| * |b (k + 1) k| = permuted a (k+1) kp (k+1) k * permuted a (k+1) kp (k+1) k := by
    rw [e21, abs_mul_abs_self]
  have hden : d11 * d22 - 1 ≠ 0 := by
    intro hz
    apply hdet
    rw [h11, h22, e11, e22] at hz
    have : permuted a (k+1) kp (k+1) (k+1) * permuted a (k+1) kp k k -
        |b (k + 1) k| * |b (k + 1) k| = 0 := by
      field_simp at hz
      linear_combination hz
    rw [hy2] at this
    linear_combination this
  have hdd : d * (permuted a (k+1) kp k k * permuted a (k+1) kp (k+1) (k+1) -
      permuted a (k+1) kp (k+1) k * permuted a (k+1) kp (k+1) k) = |b (k + 1) k| := by
    have : permuted a (k+1) kp k k * permuted a (k+1) kp (k+1) (k+1) -
      permuted a (k+1) kp (k+1) k * permuted a (k+1) kp (k+1) k =
        (d11 * d22 - 1) * (|b (k + 1) k| * |b (k + 1) k|) := by
      rw [← hy2, h11, h22, e11, e22]
      field_simp
    rw [this, hd]
    field_simp
  have g11 : d11 * d = permuted a (k+1) kp (k+1) (k+1) / (permuted a (k+1) kp k k *
      permuted a (k+1) kp (k+1) (k+1) - permuted a (k+1) kp (k+1) k * permuted a (k+1) kp (k+1) k) := by
    rw [eq_div_iff hdet, mul_assoc, hdd, h11, e22]
    field_simp
  have g21 : d21 * d = permuted a (k+1) kp (k+1) k / (permuted a (k+1) kp k k *
      permuted a (k+1) kp (k+1) (k+1) - permuted a (k+1) kp (k+1) k * permuted a (k+1) kp (k+1) k) := by
    rw [eq_div_iff hdet, mul_assoc, hdd, h21, e21]
    rw [e21] at hy
    field_simp
  have g22 : d22 * d = permuted a (k+1) kp k k / (permuted a (k+1) kp k k *
      permuted a (k+1) kp (k+1) (k+1) - permuted a (k+1) kp (k+1) k * permuted a (k+1) kp (k+1) k) := by
    rw [eq_div_iff hdet, mul_assoc, hdd, h22, e11]
    field_simp
  obtain ⟨D, hD⟩ : ∃ D, D = permuted a (k+1) kp k k * permuted a (k+1) kp (k+1) (k+1) -
      permuted a (k+1) kp (k+1) k * permuted a (k+1) kp (k+1) k := ⟨_, rfl⟩
  rw [← hD] at g11 g21 g22 hdet
  refine ⟨?_, ?_, ?_, ?_, ?_, ?_, ?_, ?_, ?_, ?_⟩
  · rw [f11, f21, neg_mul, g11, g21]; field_simp; rw [hD]; ring
  · rw [f11, f21, neg_mul, g11, g21]; field_simp; ring
  · rw [f22, f21, neg_mul, g22, g21]; field_simp; ring
  · rw [f22, f21, neg_mul, g22, g21]; field_simp; rw [hD]; ring
  · intro i h1 h2; rw [f11, f21]; exact fk i h1 h2
  · intro i h1 h2; rw [f22, f21]; exact fk1 i h1 h2
  · rw [f11, hd, h11, h22, e11, e21, e22]; rfl
  · rw [f21, hd, h11, h22, h21, e11, e21, e22]; rfl
  · rw [f22, hd, h11, h22, e11, e21, e22]; rfl
  · have key : ∀ i j, j ≤ i → k + 1 < i → i < n → k + 1 < j → j < n →
        sym (eliminate2 n k b) i j = permuted a (k+1) kp i j -
          (permuted a (k+1) kp i k * eliminate2 n k b j k +
            permuted a (k+1) kp i (k+1) * eliminate2 n k b j (k+1)) := by
      intro i j hij h1 h2 h3 h4
      rw [sym_le _ hij, cl i j h2, if_neg (by omega), if_neg (by omega), if_neg (by omega),
        if_pos ⟨h3, hij⟩, fk j h3 h4, fk1 j h3 h4, wkOf, wkp1Of,
        hB' i j hij (by omega) h2 (by omega) h4,
        hB' i k (by omega) (by omega) h2 le_rfl (by omega),
        hB' i (k + 1) (by omega) (by omega) h2 (by omega) (by omega),
        hB' j k (by omega) (by omega) h4 le_rfl (by omega),
        hB' j (k + 1) (by omega) (by omega) h4 (by omega) (by omega)]
      ring
    intro i j h1 h2 h3 h4
    rcases le_total j i with hij | hij
    · exact key i j hij h1 h2 h3 h4
    · rw [sym_comm, key j i hij h3 h4 h1 h2, fk i h1 h2, fk1 i h1 h2, fk j h3 h4, fk1 j h3 h4,
        permuted_comm a (k+1) kp j i]
      ring

/-- One step writes only entries of the lower triangle of the trailing block. -/
theorem eliminate1_frame {n k : ℕ} (b : Arr 𝕜) (i j : ℕ) (h : j < k ∨ i < j ∨ n ≤ i) (hk : k < n) :
    eliminate1 n k b i j = b i j := by
  rw [eliminate1_closed, if_neg (by omega), if_neg (by omega), if_neg (by omega)]

theorem eliminate2_frame {n k : ℕ} (b : Arr 𝕜) (i j : ℕ) (h : j < k ∨ i < j ∨ n ≤ i) (hk : k + 1 < n) :
    eliminate2 n k b i j = b i j := by
  unfold eliminate2
  dsimp only
  rw [forRange, eliminate2_outer]
  simp only [setE]
  grind

theorem interchange_frame {n k : ℕ} {two : Bool} {kp : ℕ} (a : Arr 𝕜) (hk : kkOf k two ≤ kp)
    (hn : kp < n) (i j : ℕ) (h : j < k ∨ i < j ∨ n ≤ i) : interchange n k two kp a i j = a i j := by
  have := kkOf_bounds k two
  rw [interchange_closed n k two kp a hk]
  grind

end Aligator.BK
