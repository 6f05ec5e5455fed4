import Verif.Lemmas.BunchKaufmanBlocked

set_option linter.unusedSectionVars false

namespace Aligator.BK

variable {𝕜 : Type*} [Field 𝕜] [LinearOrder 𝕜] [IsStrictOrderedRing 𝕜]

open Finset

/-! ### Undoing interchanges -/

/-- `undoSwaps` in recursive form: undo the interchanges of the blocks below `k`. -/
def undo (piv : ℕ → ℤ) : ℕ → Arr 𝕜 → Arr 𝕜
  | 0, a => a
  | k + 1, a =>
    if piv k < 0 then undo piv (k - 1) (swapRows (k - 1) (pivIdx (piv k)) k a)
    else undo piv k (swapRows k (pivIdx (piv k)) k a)
termination_by k => k

theorem swapRows_zero (r p : ℕ) (a : Arr 𝕜) : swapRows 0 r p a = a := by
  funext i j; rw [swapRows, if_neg (by omega)]

theorem swapRows_self (k r : ℕ) (a : Arr 𝕜) : swapRows k r r a = a := by
  funext i j; simp only [swapRows]; grind

theorem undo_one (piv : ℕ → ℤ) (a : Arr 𝕜) : undo piv 1 a = a := by
  rw [undo]
  simp only [Nat.zero_sub, swapRows_zero, undo, ite_self]

theorem undoSwaps_eq (piv : ℕ → ℤ) (j : ℕ) (a : Arr 𝕜) : undoSwaps piv j a = undo piv (j + 1) a := by
  induction j using Nat.strong_induction_on generalizing a with
  | _ j ih =>
    rw [undoSwaps]
    dsimp only
    have hu : undo piv (j + 1) a = undo piv (if piv j < 0 then j - 1 else j)
        (swapRows (if piv j < 0 then j - 1 else j) (pivIdx (piv j)) j a) := by
      rw [undo]; split <;> rfl
    rw [hu]
    have hle : (if piv j < 0 then j - 1 else j) ≤ j := by split <;> omega
    generalize (if piv j < 0 then j - 1 else j) = j1 at *
    have hsw : (if pivIdx (piv j) ≠ j then swapRows j1 (pivIdx (piv j)) j a else a) =
        swapRows j1 (pivIdx (piv j)) j a := by
      split
      · rfl
      · rename_i h; rw [not_not.1 h, swapRows_self]
    rw [hsw]
    by_cases h0 : j1 = 0
    · rw [dif_pos h0, h0, swapRows_zero, undo]
    · rw [dif_neg h0]
      by_cases h1 : j1 - 1 = 0
      · rw [if_pos h1]
        have : j1 = 1 := by omega
        rw [this, undo_one]
      · rw [if_neg h1, ih (j1 - 1) (by omega)]
        congr 1
        omega

theorem undo_ge (piv : ℕ → ℤ) (k : ℕ) (a : Arr 𝕜) (i j : ℕ) (hj : k ≤ j) : undo piv k a i j = a i j := by
  induction k using Nat.strong_induction_on generalizing a with
  | _ k ih =>
    cases k with
    | zero => rw [undo]
    | succ k =>
      rw [undo]
      split
      · rw [ih (k - 1) (by omega) _ (by omega), swapRows_ge _ _ _ (by omega)]
      · rw [ih k (by omega) _ (by omega), swapRows_ge _ _ _ (by omega)]

theorem undo_congr (piv piv' : ℕ → ℤ) (k : ℕ) (a b : Arr 𝕜) (j : ℕ) (hp : ∀ l, l < k → piv l = piv' l)
    (h : ∀ i, a i j = b i j) (i : ℕ) : undo piv k a i j = undo piv' k b i j := by
  induction k using Nat.strong_induction_on generalizing a b with
  | _ k ih =>
    cases k with
    | zero => rw [undo, undo]; exact h i
    | succ k =>
      rw [undo, undo, hp k (by omega)]
      split
      · refine ih (k - 1) (by omega) _ _ (fun l hl => hp l (by omega)) fun i => ?_
        simp only [swapRows, h]
      · refine ih k (by omega) _ _ (fun l hl => hp l (by omega)) fun i => ?_
        simp only [swapRows, h]

/-! ### Pivot selection -/

theorem maxCoeff_congr {f g : ℕ → 𝕜} {lo len : ℕ} (h : ∀ j, lo ≤ j → j ≤ lo + len → f j = g j) :
    maxCoeff f lo len = maxCoeff g lo len := by
  induction len with
  | zero => simp only [maxCoeff]; rw [h lo le_rfl (by omega)]
  | succ len ih =>
    simp only [maxCoeff]
    rw [ih (fun j h1 h2 => h j h1 (by omega)), h (lo + len + 1) (by omega) (by omega)]

/-- Invariant of the blocked loop: `u` is the array of the unblocked algorithm after the same steps. -/
structure Inv (n k : ℕ) (b : BSt 𝕜) (u : Arr 𝕜) : Prop where
  low : ∀ i j, j < k → undo b.piv k b.a i j = u i j
  trail : ∀ i j, k ≤ j → j ≤ i → i < n → u i j = b.a i j - dotRows k b.a b.w i j
  symm : ∀ i j, k ≤ i → i < n → k ≤ j → j < n → dotRows k b.a b.w i j = dotRows k b.a b.w j i
  rest : ∀ i j, k ≤ j → (i < j ∨ n ≤ i) → b.a i j = u i j

theorem Inv.sym_eq {n k : ℕ} {b : BSt 𝕜} {u : Arr 𝕜} (h : Inv n k b u) (i j : ℕ) (h1 : k ≤ i)
    (h2 : i < n) (h3 : k ≤ j) (h4 : j < n) : sym u i j = sym b.a i j - dotRows k b.a b.w i j := by
  rcases le_total j i with hij | hij
  · rw [sym_le _ hij, sym_le _ hij]; exact h.trail i j h3 hij h2
  · rw [sym_comm u, sym_comm b.a, sym_le _ hij, sym_le _ hij, h.symm i j h1 h2 h3 h4]
    exact h.trail j i h1 hij h4

theorem dotRows_congr {k : ℕ} {a a' w w' : Arr 𝕜} {i i' j j' : ℕ} (ha : ∀ b, b < k → a i b = a' i' b)
    (hw : ∀ b, b < k → w j b = w' j' b) : dotRows k a w i j = dotRows k a' w' i' j' := by
  unfold dotRows
  refine Finset.sum_congr rfl fun b hb => ?_
  rw [mem_range] at hb
  rw [ha b hb, hw b hb]

/-- Outcome of the blocked pivot selection. -/
structure PivW (n k : ℕ) (u w w' : Arr 𝕜) (two : Bool) (kp : ℕ) : Prop where
  old : ∀ i c, c < k → w' i c = w i c
  one : two = false → ∀ i, k ≤ i → i < n → w' i k = sym u i kp
  two : two = true → ∀ i, k ≤ i → i < n → w' i k = sym u i k ∧ w' i (k + 1) = sym u i kp

theorem blockPivot_spec (alpha : 𝕜) {n k : ℕ} {b : BSt 𝕜} {u : Arr 𝕜} (h : Inv n k b u) (hk : k < n) :
    match blockPivot alpha n k b.a (loadCol n k b.a b.w) with
    | none => choosePivot alpha n k u = none
    | some (two, kp, w') => choosePivot alpha n k u = some (two, kp) ∧ PivW n k u b.w w' two kp := by
  set w := loadCol n k b.a b.w with hw
  have wk : ∀ i, k ≤ i → i < n → w i k = u i k := by
    intro i h1 h2
    rw [hw, loadCol, if_pos ⟨rfl, h1, h2⟩, h.trail i k le_rfl h1 h2]
  have wk' : ∀ i, k ≤ i → i < n → w i k = sym u i k := by
    intro i h1 h2
    rw [wk i h1 h2, sym_le _ h1]
  have wold : ∀ i c, c < k → w i c = b.w i c := by
    intro i c hc
    rw [hw, loadCol, if_neg (by omega)]
  unfold blockPivot choosePivot
  dsimp only
  rw [wk k le_rfl hk]
  by_cases hk1 : k + 1 < n
  · rw [if_pos hk1, if_pos hk1, maxCoeff_congr (f := fun i => |w i k|) (g := fun i => |u i k|)
      (fun j h1 h2 => by rw [wk j (by omega) (by omega)])]
    obtain ⟨m1, m2, -, -⟩ := maxCoeff_spec (fun i => |u i k|) (k + 1) (n - k - 2)
    generalize maxCoeff (fun i => |u i k|) (k + 1) (n - k - 2) = cm at *
    obtain ⟨colmax, imax⟩ := cm
    dsimp only at m1 m2 ⊢
    by_cases hz : max |u k k| colmax = 0
    · rw [if_pos hz, if_pos hz]
    rw [if_neg hz, if_neg hz]
    by_cases hc1 : colmax * alpha ≤ |u k k|
    · rw [if_pos hc1, if_pos hc1]
      exact ⟨rfl, ⟨wold, fun _ => wk', fun h => by cases h⟩⟩
    rw [if_neg hc1, if_neg hc1]
    set w2 := loadRow n k imax b.a w with hw2
    have w2k : ∀ i, k ≤ i → i < n → w2 i (k+1) = sym u i imax := by
      intro i h1 h2
      rw [hw2, loadRow, if_pos ⟨rfl, h1, h2⟩, h.sym_eq i imax h1 h2 (by omega) (by omega),
        dotRows_congr (fun _ _ => rfl) (fun c hc => wold imax c hc)]
      congr 1
      split
      · rw [sym_comm, sym_le _ (by omega)]
      · rw [sym_le _ (by omega)]
    have w2old : ∀ i c, c < k + 1 → w2 i c = w i c := by
      intro i c hc
      rw [hw2, loadRow, if_neg (by omega)]
    rw [if_pos (show 0 < imax - k by omega), if_pos (show 0 < imax - k by omega),
      maxCoeff_congr (f := fun i => |w2 i (k+1)|) (g := fun j => |u imax j|) (lo := k)
      (fun j h1 h2 => by
        rw [w2k j (by omega) (by omega), sym_comm, sym_le _ (by omega)]),
      w2k imax (by omega) (by omega), sym_le _ (le_refl imax)]
    have hrm : (if 0 < n - imax - 1 then
        max (maxCoeff (fun j => |u imax j|) k (imax - k - 1)).1
          (maxCoeff (fun i => |w2 i (k+1)|) (imax + 1) (n - imax - 2)).1
      else (maxCoeff (fun j => |u imax j|) k (imax - k - 1)).1) =
      (if 0 < n - imax - 1 then
        max (maxCoeff (fun j => |u imax j|) k (imax - k - 1)).1
          (maxCoeff (fun i => |u i imax|) (imax + 1) (n - imax - 2)).1
      else (maxCoeff (fun j => |u imax j|) k (imax - k - 1)).1) := by
      split
      · rw [maxCoeff_congr (f := fun i => |w2 i (k+1)|) (g := fun i => |u i imax|) (lo := imax + 1)
          (fun j h1 h2 => by
            rw [w2k j (by omega) (by omega), sym_le _ (by omega)])]
      · rfl
    rw [hrm]
    generalize (if 0 < n - imax - 1 then
        max (maxCoeff (fun j => |u imax j|) k (imax - k - 1)).1
          (maxCoeff (fun i => |u i imax|) (imax + 1) (n - imax - 2)).1
      else (maxCoeff (fun j => |u imax j|) k (imax - k - 1)).1) = rowmax
    by_cases hc2 : alpha * colmax * (colmax / rowmax) ≤ |u k k|
    · rw [if_pos hc2, if_pos hc2]
      refine ⟨rfl, ⟨fun i c hc => ?_, fun _ i h1 h2 => ?_, fun h => by cases h⟩⟩
      · rw [w2old i c (by omega), wold i c hc]
      · rw [w2old i k (by omega), wk' i h1 h2]
    rw [if_neg hc2, if_neg hc2]
    by_cases hc3 : alpha * rowmax ≤ |u imax imax|
    · rw [if_pos hc3, if_pos hc3]
      refine ⟨rfl, ⟨fun i c hc => ?_, fun _ i h1 h2 => ?_, fun h => by cases h⟩⟩
      · rw [if_neg (by omega), w2old i c (by omega), wold i c hc]
      · rw [if_pos ⟨rfl, h1, h2⟩, w2k i h1 h2]
    rw [if_neg hc3, if_neg hc3]
    refine ⟨rfl, ⟨fun i c hc => ?_, (fun h => by cases h), fun _ i h1 h2 => ⟨?_, ?_⟩⟩⟩
    · rw [w2old i c (by omega), wold i c hc]
    · rw [w2old i k (by omega), wk' i h1 h2]
    · exact w2k i h1 h2
  · rw [if_neg hk1, if_neg hk1]
    dsimp only
    by_cases hz : max |u k k| 0 = 0
    · rw [if_pos hz, if_pos hz]
    rw [if_neg hz, if_neg hz, if_pos (by rw [zero_mul]; exact abs_nonneg _),
      if_pos (by rw [zero_mul]; exact abs_nonneg _)]
    exact ⟨rfl, ⟨wold, fun _ => wk', fun h => by cases h⟩⟩

/-! ### Interchange -/

theorem copyRow_closed (kk kp : ℕ) (h : kk < kp) (a : Arr 𝕜) :
    forRange (kk + 1) kp (fun j a => setE a kp j (a j kk)) a =
      fun i j => if i = kp ∧ kk < j ∧ j < kp then a j kk else a i j := by
  have aux : ∀ len, kk + 1 + len ≤ kp → forLen (fun j a => setE a kp j (a j kk)) (kk + 1) len a =
      fun i j => if i = kp ∧ kk < j ∧ j < kk + 1 + len then a j kk else a i j := by
    intro len
    induction len with
    | zero => intro _; funext i j; simp only [forLen]; grind
    | succ len ih =>
      intro hl
      funext i j
      simp only [forLen]
      rw [ih (by omega)]
      simp only [setE]
      grind
  rw [forRange, aux _ (by omega)]
  funext i j
  grind

theorem blockInterchange_spec {n k : ℕ} {two : Bool} {kp : ℕ} (a : Arr 𝕜) (hk : kkOf k two ≤ kp)
    (hn : kp < n) :
    (∀ i j, j < k → blockInterchange n k two kp a i j = a (tau (kkOf k two) kp i) j) ∧
    (∀ i j, kkOf k two < j → j ≤ i → i < n → blockInterchange n k two kp a i j =
      sym a (tau (kkOf k two) kp i) (tau (kkOf k two) kp j)) ∧
    (∀ i j, k ≤ j → (i < j ∨ n ≤ i) → blockInterchange n k two kp a i j = a i j) := by
  have hb := kkOf_bounds k two
  unfold blockInterchange
  have hkk : (if two = true then k + 1 else k) = kkOf k two := rfl
  simp only [hkk]
  generalize kkOf k two = kk at *
  by_cases h0 : kp = kk
  · rw [if_neg (not_not.2 h0)]
    subst h0
    have ht : ∀ i, tau kp kp i = i := by intro i; unfold tau; grind
    simp only [ht]
    exact ⟨fun _ _ _ => trivial, fun i j h1 h2 h3 => (sym_le _ h2).symm, fun _ _ _ _ => trivial⟩
  · have hlt : kk < kp := by omega
    rw [if_pos h0, copyRow_closed kk kp hlt]
    refine ⟨?_, ?_, ?_⟩
    · intro i j hj
      simp only [swapRows, setE, tau]
      grind (splits := 30)
    · intro i j h1 h2 h3
      simp only [swapRows, setE, tau, sym]
      grind (splits := 30)
    · intro i j h1 h2
      simp only [swapRows, setE]
      grind (splits := 30)

theorem blockInterchangeW_spec {k : ℕ} {two : Bool} {kp : ℕ} (w : Arr 𝕜) (i c : ℕ)
    (hc : c ≤ kkOf k two) : blockInterchangeW k two kp w i c = w (tau (kkOf k two) kp i) c := by
  unfold blockInterchangeW
  have hkk : (if two = true then k + 1 else k) = kkOf k two := rfl
  simp only [hkk]
  generalize kkOf k two = kk at *
  by_cases h0 : kp = kk
  · rw [if_neg (not_not.2 h0)]
    subst h0
    have ht : tau kp kp i = i := by unfold tau; grind
    rw [ht]
  · rw [if_pos h0]
    simp only [swapRows, tau]
    grind

/-! ### Storing columns -/

theorem blockStore1_spec {n k : ℕ} (hk : k < n) (a w : Arr 𝕜) :
    (∀ i j, j ≠ k → blockStore1 n k a w i j = a i j) ∧
    blockStore1 n k a w k k = 1 / w k k ∧
    (∀ i, k < i → i < n → blockStore1 n k a w i k = w i k * (1 / w k k)) ∧
    (∀ i, (i < k ∨ n ≤ i) → blockStore1 n k a w i k = a i k) := by
  unfold blockStore1
  simp only [setE]
  refine ⟨?_, ?_, ?_, ?_⟩ <;> grind

theorem store2_loop (k : ℕ) (d11 d21 d22 d : 𝕜) (a w : Arr 𝕜) (len : ℕ) :
    forLen (fun j a => setE (setE a j k ((w j k * d11 - w j (k + 1) * d21) * d)) j (k + 1)
      ((w j (k + 1) * d22 - w j k * d21) * d)) (k + 2) len a =
    fun i j => if k + 1 < i ∧ i < k + 2 + len ∧ j = k then (w i k * d11 - w i (k + 1) * d21) * d
      else if k + 1 < i ∧ i < k + 2 + len ∧ j = k + 1 then (w i (k + 1) * d22 - w i k * d21) * d
      else a i j := by
  induction len with
  | zero => funext i j; simp only [forLen]; grind
  | succ len ih =>
    funext i j
    simp only [forLen]
    rw [ih]
    simp only [setE]
    grind

theorem blockStore2_spec {n k : ℕ} (hk : k + 1 < n) (a w : Arr 𝕜) :
    (∀ i j, j ≠ k → j ≠ k + 1 → blockStore2 n k a w i j = a i j) ∧
    blockStore2 n k a w k k = blkInv11 (w k k) (w (k+1) k) (w (k+1) (k+1)) ∧
    blockStore2 n k a w (k+1) k = blkInv21 (w k k) (w (k+1) k) (w (k+1) (k+1)) ∧
    blockStore2 n k a w (k+1) (k+1) = blkInv22 (w k k) (w (k+1) k) (w (k+1) (k+1)) ∧
    (∀ i, k + 1 < i → i < n → blockStore2 n k a w i k =
      w i k * blkInv11 (w k k) (w (k+1) k) (w (k+1) (k+1)) +
      w i (k+1) * blkInv21 (w k k) (w (k+1) k) (w (k+1) (k+1))) ∧
    (∀ i, k + 1 < i → i < n → blockStore2 n k a w i (k+1) =
      w i k * blkInv21 (w k k) (w (k+1) k) (w (k+1) (k+1)) +
      w i (k+1) * blkInv22 (w k k) (w (k+1) k) (w (k+1) (k+1))) ∧
    (∀ i j, k ≤ j → (i < j ∨ n ≤ i) → blockStore2 n k a w i j = a i j) := by
  unfold blockStore2
  dsimp only
  rw [forRange, store2_loop]
  simp only [setE]
  unfold blkInv11 blkInv21 blkInv22
  refine ⟨?_, ?_, ?_, ?_, ?_, ?_, ?_⟩
  · intro i j h1 h2
    rw [if_neg (by omega), if_neg (by omega), if_neg (by omega), if_neg (by omega), if_neg (by omega)]
  · rw [if_neg (by omega), if_neg (by omega), if_neg (by omega), if_neg (by omega), if_pos (by simp)]
  · rw [if_neg (by omega), if_neg (by omega), if_neg (by omega), if_pos (by simp)]
  · rw [if_neg (by omega), if_neg (by omega), if_pos (by simp)]
  · intro i h1 h2
    rw [if_pos (by refine ⟨h1, by omega, by simp⟩)]
    ring
  · intro i h1 h2
    rw [if_neg (by omega), if_pos (by refine ⟨h1, by omega, by simp⟩)]
    ring
  · intro i j h1 h2
    rw [if_neg (by omega), if_neg (by omega), if_neg (by omega), if_neg (by omega), if_neg (by omega)]

end Aligator.BK
