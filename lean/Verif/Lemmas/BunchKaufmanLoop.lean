import Verif.Lemmas.BunchKaufmanStep
import Mathlib.Algebra.BigOperators.Ring.Finset

set_option linter.unusedSectionVars false

namespace Aligator.BK

variable {𝕜 : Type*} [Field 𝕜] [LinearOrder 𝕜] [IsStrictOrderedRing 𝕜]

open Finset

theorem swapV_eq (r p : ℕ) (x : ℕ → 𝕜) (i : ℕ) : swapV r p x i = x (tau r p i) := by
  unfold swapV tau; split_ifs <;> rfl

/-- `(B z)_i` over the index range `[k, n)`. -/
def rowSum (k n : ℕ) (B : ℕ → ℕ → 𝕜) (z : ℕ → 𝕜) (i : ℕ) : 𝕜 := ∑ j ∈ Ico k n, B i j * z j

theorem rowSum_permuted {k n r p : ℕ} (a : Arr 𝕜) (hr : k ≤ r) (hr' : r < n) (hp : k ≤ p)
    (hp' : p < n) (z : ℕ → 𝕜) (i : ℕ) :
    rowSum k n (sym a) (swapV r p z) (tau r p i) = rowSum k n (permuted a r p) z i := by
  unfold rowSum permuted
  refine Finset.sum_nbij' (tau r p) (tau r p) ?_ ?_ ?_ ?_ ?_
  · intro j hj
    rw [mem_Ico] at hj ⊢
    exact ⟨tau_ge hr hp hj.1, tau_lt hr' hp' hj.2⟩
  · intro j hj
    rw [mem_Ico] at hj ⊢
    exact ⟨tau_ge hr hp hj.1, tau_lt hr' hp' hj.2⟩
  · intro j _; exact tau_tau _ _ _
  · intro j _; exact tau_tau _ _ _
  · intro j _
    rw [swapV_eq, tau_tau]

/-- Bordering lemma for a 1x1 pivot. -/
theorem border1 {k n : ℕ} (hk : k < n) {B B' : ℕ → ℕ → 𝕜} {L : ℕ → 𝕜} (hd : B k k ≠ 0)
    (hsym : ∀ i j, B i j = B j i)
    (hL : ∀ i, k < i → i < n → L i = B i k * (1 / B k k))
    (hB' : ∀ i j, k < i → i < n → k < j → j < n → B' i j = B i j - B j k * (1 / B k k) * B i k)
    (y w : ℕ → 𝕜) (p : 𝕜)
    (hy : ∀ i, k < i → i < n → rowSum (k+1) n B' y i = w i - L i * p) (i : ℕ) (hi : k ≤ i)
    (hi' : i < n) :
    rowSum k n B (fun j => if j = k then p * (1 / B k k) - ∑ j ∈ Ico (k+1) n, L j * y j else y j) i =
      if i = k then p else w i := by
  unfold rowSum at hy ⊢
  rw [Finset.sum_eq_sum_Ico_succ_bot hk]
  beta_reduce
  rw [if_pos rfl]
  have hrest : ∑ j ∈ Ico (k+1) n, B i j *
      (if j = k then p * (1 / B k k) - ∑ j ∈ Ico (k+1) n, L j * y j else y j) =
      ∑ j ∈ Ico (k+1) n, B i j * y j := by
    refine Finset.sum_congr rfl fun j hj => ?_
    rw [mem_Ico] at hj
    rw [if_neg (by omega)]
  rw [hrest]
  by_cases e : i = k
  · subst e
    rw [if_pos rfl]
    have : ∑ j ∈ Ico (i+1) n, B i j * y j = B i i * ∑ j ∈ Ico (i+1) n, L j * y j := by
      rw [Finset.mul_sum]
      refine Finset.sum_congr rfl fun j hj => ?_
      rw [mem_Ico] at hj
      rw [hL j (by omega) hj.2, hsym i j]
      field_simp
    rw [this]
    field_simp
    ring
  · rw [if_neg e]
    have h1 := hy i (by omega) hi'
    have h2 : ∑ j ∈ Ico (k+1) n, B i j * y j =
        ∑ j ∈ Ico (k+1) n, B' i j * y j + B i k * ∑ j ∈ Ico (k+1) n, L j * y j := by
      rw [Finset.mul_sum, ← Finset.sum_add_distrib]
      refine Finset.sum_congr rfl fun j hj => ?_
      rw [mem_Ico] at hj
      rw [hB' i j (by omega) hi' (by omega) hj.2, hL j (by omega) hj.2]
      ring
    rw [h2, h1, hL i (by omega) hi']
    ring

/-- Bordering lemma for a 2x2 pivot with inverse block `e11 e21 e22`. -/
theorem border2 {k n : ℕ} (hk : k + 1 < n) {B B' : ℕ → ℕ → 𝕜} {L0 L1 : ℕ → 𝕜} {e11 e21 e22 : 𝕜}
    (hsym : ∀ i j, B i j = B j i)
    (i11 : e11 * B k k + e21 * B (k+1) k = 1)
    (i12 : e11 * B (k+1) k + e21 * B (k+1) (k+1) = 0)
    (i21 : e21 * B k k + e22 * B (k+1) k = 0)
    (i22 : e21 * B (k+1) k + e22 * B (k+1) (k+1) = 1)
    (hL0 : ∀ i, k + 1 < i → i < n → L0 i = B i k * e11 + B i (k+1) * e21)
    (hL1 : ∀ i, k + 1 < i → i < n → L1 i = B i k * e21 + B i (k+1) * e22)
    (hB' : ∀ i j, k + 1 < i → i < n → k + 1 < j → j < n →
      B' i j = B i j - (B i k * L0 j + B i (k+1) * L1 j))
    (y w : ℕ → 𝕜) (p q : 𝕜)
    (hy : ∀ i, k + 1 < i → i < n → rowSum (k+2) n B' y i = w i - L0 i * p - L1 i * q) (i : ℕ)
    (hi : k ≤ i) (hi' : i < n) :
    rowSum k n B (fun j => if j = k then p * e11 + q * e21 - ∑ j ∈ Ico (k+2) n, L0 j * y j
      else if j = k + 1 then q * e22 + p * e21 - ∑ j ∈ Ico (k+2) n, L1 j * y j else y j) i =
      if i = k then p else if i = k + 1 then q else w i := by
  unfold rowSum at hy ⊢
  rw [Finset.sum_eq_sum_Ico_succ_bot (by omega : k < n), Finset.sum_eq_sum_Ico_succ_bot hk]
  beta_reduce
  rw [if_pos rfl, if_neg (by omega : ¬ k + 1 = k), if_pos rfl]
  have hrest : ∑ j ∈ Ico (k+1+1) n, B i j *
      (if j = k then p * e11 + q * e21 - ∑ j ∈ Ico (k+2) n, L0 j * y j
      else if j = k + 1 then q * e22 + p * e21 - ∑ j ∈ Ico (k+2) n, L1 j * y j else y j) =
      ∑ j ∈ Ico (k+2) n, B i j * y j := by
    refine Finset.sum_congr rfl fun j hj => ?_
    rw [mem_Ico] at hj
    rw [if_neg (by omega), if_neg (by omega)]
  rw [hrest]
  have s12 : B k (k+1) = B (k+1) k := hsym _ _
  by_cases e : i = k
  · subst e
    rw [if_pos rfl]
    have : ∑ j ∈ Ico (i+2) n, B i j * y j = B i i * ∑ j ∈ Ico (i+2) n, L0 j * y j +
        B (i+1) i * ∑ j ∈ Ico (i+2) n, L1 j * y j := by
      rw [Finset.mul_sum, Finset.mul_sum, ← Finset.sum_add_distrib]
      refine Finset.sum_congr rfl fun j hj => ?_
      rw [mem_Ico] at hj
      rw [hL0 j (by omega) hj.2, hL1 j (by omega) hj.2, hsym i j]
      linear_combination (-(B j i * y j)) * i11 - B j (i+1) * y j * i21
    rw [this, s12]
    linear_combination p * i11 + q * i21
  rw [if_neg e]
  by_cases e1 : i = k + 1
  · subst e1
    rw [if_pos rfl]
    have : ∑ j ∈ Ico (k+2) n, B (k+1) j * y j = B (k+1) k * ∑ j ∈ Ico (k+2) n, L0 j * y j +
        B (k+1) (k+1) * ∑ j ∈ Ico (k+2) n, L1 j * y j := by
      rw [Finset.mul_sum, Finset.mul_sum, ← Finset.sum_add_distrib]
      refine Finset.sum_congr rfl fun j hj => ?_
      rw [mem_Ico] at hj
      rw [hL0 j (by omega) hj.2, hL1 j (by omega) hj.2, hsym (k+1) j]
      linear_combination (-(B j k * y j)) * i12 - B j (k+1) * y j * i22
    rw [this]
    linear_combination p * i12 + q * i22
  rw [if_neg e1]
  have h1 := hy i (by omega) hi'
  have h2 : ∑ j ∈ Ico (k+2) n, B i j * y j =
      ∑ j ∈ Ico (k+2) n, B' i j * y j + (B i k * ∑ j ∈ Ico (k+2) n, L0 j * y j +
        B i (k+1) * ∑ j ∈ Ico (k+2) n, L1 j * y j) := by
    rw [Finset.mul_sum, Finset.mul_sum, ← Finset.sum_add_distrib, ← Finset.sum_add_distrib]
    refine Finset.sum_congr rfl fun j hj => ?_
    rw [mem_Ico] at hj
    rw [hB' i j (by omega) hi' (by omega) hj.2]
    ring
  rw [h2, h1, hL0 i (by omega) hi', hL1 i (by omega) hi']
  ring

/-! ### Elimination chains -/

/-- `(af, piv)` records an elimination of `a` from column `k` on. -/
inductive Fac (n : ℕ) (af : Arr 𝕜) (piv : ℕ → ℤ) : ℕ → Arr 𝕜 → Prop
  | stop (a : Arr 𝕜) : Fac n af piv n a
  | one (k kp : ℕ) (a a' : Arr 𝕜) (hk : k < n) (lo : k ≤ kp) (hi : kp < n) (hp : piv k = kp)
      (st : Step1 n k kp a a') (hc : ∀ i, k ≤ i → i < n → af i k = a' i k)
      (t : Fac n af piv (k + 1) a') : Fac n af piv k a
  | two (k kp : ℕ) (a a' : Arr 𝕜) (lo : k + 1 ≤ kp) (hi : kp < n) (hp : piv k = -1 - kp)
      (hp1 : piv (k + 1) = -1 - kp) (st : Step2 n k kp a a')
      (hc : ∀ i, k ≤ i → i < n → af i k = a' i k)
      (hc1 : ∀ i, k + 1 ≤ i → i < n → af i (k + 1) = a' i (k + 1))
      (t : Fac n af piv (k + 2) a') : Fac n af piv k a

/-- The elimination of `a` from column `k` on reaches a zero column. -/
inductive Sing (n : ℕ) : ℕ → Arr 𝕜 → Prop
  | here (k : ℕ) (a : Arr 𝕜) (hk : k < n) (h : ∀ i, k ≤ i → i < n → a i k = 0) : Sing n k a
  | one (k kp : ℕ) (a a' : Arr 𝕜) (hk : k < n) (lo : k ≤ kp) (hi : kp < n) (st : Step1 n k kp a a')
      (t : Sing n (k + 1) a') : Sing n k a
  | two (k kp : ℕ) (a a' : Arr 𝕜) (lo : k + 1 ≤ kp) (hi : kp < n) (st : Step2 n k kp a a')
      (t : Sing n (k + 2) a') : Sing n k a

/-- Relation between the final state of the loop and the extracted factors, from block `k` on. -/
inductive Ext (n : ℕ) (piv : ℕ → ℤ) (a L : Arr 𝕜) (sd : ℕ → 𝕜) : ℕ → Prop
  | stop (k : ℕ) (h : n ≤ k) : Ext n piv a L sd k
  | one (k : ℕ) (h : k < n) (hp : ¬ piv k < 0) (hL : ∀ i, L i k = a i k)
      (t : Ext n piv a L sd (k + 1)) : Ext n piv a L sd k
  | two (k : ℕ) (h : k < n) (hp : piv k < 0) (h0 : L (k+1) k = 0) (hs : sd k = a (k+1) k)
      (hL : ∀ i, i ≠ k + 1 → L i k = a i k) (hL1 : ∀ i, L i (k+1) = a i (k+1))
      (t : Ext n piv a L sd (k + 2)) : Ext n piv a L sd k

/-- Interleaved ("lazy") solve: interchange, eliminate, solve the rest, multiply by the stored inverse,
back-substitute, interchange back. -/
def lazySolve (n : ℕ) (L : Arr 𝕜) (sd : ℕ → 𝕜) (piv : ℕ → ℤ) (k : ℕ) (x : ℕ → 𝕜) : ℕ → 𝕜 :=
  if k < n then
    if piv k < 0 then
      let x1 := swapV (k+1) (pivIdx (piv k)) x
      let x2 : ℕ → 𝕜 := fun i => if k + 1 < i ∧ i < n then x1 i - L i k * x1 k - L i (k+1) * x1 (k+1)
        else x1 i
      let y := lazySolve n L sd piv (k+2) x2
      swapV (k+1) (pivIdx (piv k)) (fun j =>
        if j = k then x1 k * L k k + x1 (k+1) * sd k - ∑ j ∈ Ico (k+2) n, L j k * y j
        else if j = k + 1 then
          x1 (k+1) * L (k+1) (k+1) + x1 k * sd k - ∑ j ∈ Ico (k+2) n, L j (k+1) * y j
        else y j)
    else
      let x1 := swapV k (pivIdx (piv k)) x
      let x2 : ℕ → 𝕜 := fun i => if k < i ∧ i < n then x1 i - L i k * x1 k else x1 i
      let y := lazySolve n L sd piv (k+1) x2
      swapV k (pivIdx (piv k)) (fun j =>
        if j = k then x1 k * L k k - ∑ j ∈ Ico (k+1) n, L j k * y j else y j)
  else x
termination_by n - k

theorem pivIdx_nonneg (m : ℕ) : pivIdx (m : ℤ) = m := by
  unfold pivIdx
  rw [if_neg (by omega)]
  exact Int.toNat_natCast m

theorem pivIdx_neg (m : ℕ) : pivIdx (-1 - (m : ℤ)) = m := by
  unfold pivIdx
  rw [if_pos (by omega)]
  have : -1 - (-1 - (m : ℤ)) = m := by omega
  rw [this]
  exact Int.toNat_natCast m

theorem Fac.solves {n k : ℕ} {a af : Arr 𝕜} {piv : ℕ → ℤ} (h : Fac n af piv k a)
    {L : Arr 𝕜} {sd : ℕ → 𝕜} (hE : Ext n piv af L sd k)
    (x : ℕ → 𝕜) (i : ℕ) (hi : k ≤ i) (hi' : i < n) :
    rowSum k n (sym a) (lazySolve n L sd piv k x) i = x i := by
  induction h generalizing x i with
  | stop => omega
  | one k kp a a' hk g1 g2 hp st hc t ih =>
    have hnn : ¬ piv k < 0 := by rw [hp]; omega
    rw [lazySolve, if_pos hk, if_neg hnn]
    dsimp only
    rw [hp, pivIdx_nonneg]
    cases hE with
    | stop _ h' => omega
    | two _ _ hp' => exact absurd hp' hnn
    | one _ _ _ hL tE =>
      set x1 := swapV k kp x with hx1
      set x2 : ℕ → 𝕜 := fun i => if k < i ∧ i < n then x1 i - L i k * x1 k else x1 i with hx2
      have IH := fun i hi hi' => ih tE x2 i hi hi'
      set y := lazySolve n L sd piv (k+1) x2
      have hLk : ∀ i, k ≤ i → i < n → L i k = a' i k := fun i h1 h2 => (hL i).trans (hc i h1 h2)
      have b := border1 (B := permuted a k kp) (B' := sym a') (L := fun i => L i k) hk
        st.pivot (permuted_comm a k kp)
        (fun i h1 h2 => by rw [hLk i h1.le h2, st.col i h1 h2]) st.trail y x1 (x1 k)
        (fun i h1 h2 => by
          rw [IH i (by omega) h2, hx2]
          dsimp only
          rw [if_pos ⟨h1, h2⟩])
        (tau k kp i) (tau_ge le_rfl g1 hi) (tau_lt hk g2 hi')
      have r := rowSum_permuted a (le_refl k) hk g1 g2
        (fun j => if j = k then x1 k * L k k - ∑ j ∈ Ico (k+1) n, L j k * y j else y j)
        (tau k kp i)
      rw [tau_tau] at r
      rw [r, hLk k le_rfl hk, st.diag, b]
      have e : (if tau k kp i = k then x1 k else x1 (tau k kp i)) = x1 (tau k kp i) := by
        split
        · rename_i e; rw [e]
        · rfl
      rw [e, hx1, swapV_eq, tau_tau]
  | two k kp a a' g1 g2 hp hp1 st hc hc1 t ih =>
    have hneg : piv k < 0 := by rw [hp]; omega
    rw [lazySolve, if_pos (by omega), if_pos hneg]
    dsimp only
    rw [hp, pivIdx_neg]
    cases hE with
    | stop _ h' => omega
    | one _ _ hp' => exact absurd hneg hp'
    | two _ _ _ hz hsd hL hL1 tE =>
      set x1 := swapV (k+1) kp x with hx1
      set x2 : ℕ → 𝕜 := fun i => if k + 1 < i ∧ i < n then
        x1 i - L i k * x1 k - L i (k+1) * x1 (k+1) else x1 i with hx2
      have IH := fun i hi hi' => ih tE x2 i hi hi'
      set y := lazySolve n L sd piv (k+2) x2
      have hLk : ∀ i, i ≠ k + 1 → k ≤ i → i < n → L i k = a' i k :=
        fun i hi h1 h2 => (hL i hi).trans (hc i h1 h2)
      have hLk1 : ∀ i, k + 1 ≤ i → i < n → L i (k+1) = a' i (k+1) :=
        fun i h1 h2 => (hL1 i).trans (hc1 i h1 h2)
      have hsd' : sd k = a' (k+1) k := hsd.trans (hc (k+1) (by omega) (by omega))
      have b := border2 (B := permuted a (k+1) kp) (B' := sym a') (L0 := fun i => L i k)
        (L1 := fun i => L i (k+1)) (by omega : k + 1 < n)
        (permuted_comm a (k+1) kp) st.inv11 st.inv12 st.inv21 st.inv22
        (fun i h1 h2 => by rw [hLk i (by omega) (by omega) h2, st.col i h1 h2])
        (fun i h1 h2 => by rw [hLk1 i (by omega) h2, st.col1 i h1 h2])
        (fun i j h1 h2 h3 h4 => by
          rw [hLk j (by omega) (by omega) h4, hLk1 j (by omega) h4]
          exact st.trail i j h1 h2 h3 h4)
        y x1 (x1 k) (x1 (k+1))
        (fun i h1 h2 => by
          rw [IH i (by omega) h2, hx2]
          dsimp only
          rw [if_pos ⟨h1, h2⟩])
        (tau (k+1) kp i) (tau_ge (by omega) (by omega) hi) (tau_lt (by omega) g2 hi')
      have r := rowSum_permuted a (show k ≤ k + 1 by omega) (by omega : k + 1 < n)
        (by omega : k ≤ kp) g2
        (fun j =>
          if j = k then x1 k * L k k + x1 (k+1) * sd k - ∑ j ∈ Ico (k+2) n, L j k * y j
          else if j = k + 1 then
            x1 (k+1) * L (k+1) (k+1) + x1 k * sd k - ∑ j ∈ Ico (k+2) n, L j (k+1) * y j
          else y j)
        (tau (k+1) kp i)
      rw [tau_tau] at r
      rw [r, hLk k (by omega) le_rfl (by omega), hLk1 (k+1) le_rfl (by omega), hsd', b]
      have e : (if tau (k+1) kp i = k then x1 k else if tau (k+1) kp i = k + 1 then x1 (k+1)
          else x1 (tau (k+1) kp i)) = x1 (tau (k+1) kp i) := by
        split
        · rename_i e; rw [e]
        · split
          · rename_i e; rw [e]
          · rfl
      rw [e, hx1, swapV_eq, tau_tau]

/-- A failing elimination exhibits a null vector of the represented matrix. -/
theorem Sing.null {n k : ℕ} {a : Arr 𝕜} (h : Sing n k a) :
    ∃ y : ℕ → 𝕜, (∃ i, k ≤ i ∧ i < n ∧ y i ≠ 0) ∧
      ∀ i, k ≤ i → i < n → rowSum k n (sym a) y i = 0 := by
  induction h with
  | here k a hk hz =>
    refine ⟨fun i => if i = k then 1 else 0, ⟨k, le_rfl, hk, by simp⟩, ?_⟩
    intro i hi hi'
    unfold rowSum
    simp only [mul_ite, mul_one, mul_zero]
    rw [Finset.sum_ite_eq' (Ico k n) k, if_pos (mem_Ico.2 ⟨le_rfl, hk⟩), sym_le _ hi]
    exact hz i hi hi'
  | one k kp a a' hk g1 g2 st t ih =>
    obtain ⟨y, ⟨i0, j1, j2, j3⟩, hy⟩ := ih
    refine ⟨swapV k kp (fun j => if j = k then
        0 * (1 / permuted a k kp k k) - ∑ j ∈ Ico (k+1) n, a' j k * y j else y j),
      ⟨tau k kp i0, tau_ge le_rfl g1 (by omega), tau_lt hk g2 j2, ?_⟩, ?_⟩
    · rw [swapV_eq, tau_tau, if_neg (by omega)]
      exact j3
    · intro i hi hi'
      have b := border1 (B := permuted a k kp) (B' := sym a') (L := fun i => a' i k) hk
        st.pivot (permuted_comm a k kp) st.col st.trail y (fun _ => 0) 0
        (fun i h1 h2 => by rw [hy i (by omega) h2]; ring)
        (tau k kp i) (tau_ge le_rfl g1 hi) (tau_lt hk g2 hi')
      have r := rowSum_permuted a (le_refl k) hk g1 g2
        (fun j => if j = k then
          0 * (1 / permuted a k kp k k) - ∑ j ∈ Ico (k+1) n, a' j k * y j else y j)
        (tau k kp i)
      rw [tau_tau] at r
      rw [r, b, ite_self]
  | two k kp a a' g1 g2 st t ih =>
    obtain ⟨y, ⟨i0, j1, j2, j3⟩, hy⟩ := ih
    refine ⟨swapV (k+1) kp (fun j =>
        if j = k then 0 * a' k k + 0 * a' (k+1) k - ∑ j ∈ Ico (k+2) n, a' j k * y j
        else if j = k + 1 then 0 * a' (k+1) (k+1) + 0 * a' (k+1) k -
          ∑ j ∈ Ico (k+2) n, a' j (k+1) * y j
        else y j),
      ⟨tau (k+1) kp i0, tau_ge (by omega) (by omega) (by omega), tau_lt (by omega) g2 j2, ?_⟩,
      ?_⟩
    · rw [swapV_eq, tau_tau, if_neg (by omega), if_neg (by omega)]
      exact j3
    · intro i hi hi'
      have b := border2 (B := permuted a (k+1) kp) (B' := sym a')
        (L0 := fun i => a' i k) (L1 := fun i => a' i (k+1)) (by omega : k + 1 < n)
        (permuted_comm a (k+1) kp) st.inv11 st.inv12 st.inv21 st.inv22
        st.col st.col1 st.trail y (fun _ => 0) 0 0
        (fun i h1 h2 => by rw [hy i (by omega) h2]; ring)
        (tau (k+1) kp i) (tau_ge (by omega) (by omega) hi) (tau_lt (by omega) g2 hi')
      have r := rowSum_permuted a (show k ≤ k + 1 by omega) (by omega : k + 1 < n)
        (by omega : k ≤ kp) g2
        (fun j =>
          if j = k then 0 * a' k k + 0 * a' (k+1) k - ∑ j ∈ Ico (k+2) n, a' j k * y j
          else if j = k + 1 then 0 * a' (k+1) (k+1) + 0 * a' (k+1) k -
            ∑ j ∈ Ico (k+2) n, a' j (k+1) * y j
          else y j)
        (tau (k+1) kp i)
      rw [tau_tau] at r
      rw [r, b, ite_self, ite_self]

/-! ### The unblocked loop follows a chain -/

theorem setPivots_lt (k : ℕ) (two : Bool) (kp : ℕ) (piv : ℕ → ℤ) (j : ℕ) (hj : j < k) :
    setPivots k two kp piv j = piv j := by
  unfold setPivots
  split
  · rw [Function.update_of_ne (by omega), Function.update_of_ne (by omega)]
  · rw [Function.update_of_ne (by omega)]

theorem setPivots_ge (k : ℕ) (two : Bool) (kp : ℕ) (piv : ℕ → ℤ) (j : ℕ) (hj : kkOf k two < j) :
    setPivots k two kp piv j = piv j := by
  have := kkOf_bounds k two
  unfold setPivots
  unfold kkOf at hj
  split
  · rename_i h; rw [if_pos h] at hj
    rw [Function.update_of_ne (by omega), Function.update_of_ne (by omega)]
  · rename_i h; rw [if_neg h] at hj
    rw [Function.update_of_ne (by omega)]

/-- The possible outcomes of one iteration. -/
theorem bkStep_some {alpha : 𝕜} (h0 : 0 < alpha) (h1 : alpha < 1) {n k : ℕ} (hk : k < n) {s s' : St 𝕜}
    {two : Bool} (h : bkStep alpha n k s = some (s', two)) :
    ∃ kp, kkOf k two ≤ kp ∧ kp < n ∧ s'.piv = setPivots k two kp s.piv ∧
      (∀ i j, (j < k ∨ i < j ∨ n ≤ i) → s'.a i j = s.a i j) ∧
      (two = false → Step1 n k kp s.a s'.a) ∧ (two = true → Step2 n k kp s.a s'.a) := by
  unfold bkStep at h
  split at h
  · cases h
  · rename_i two' kp hc
    have ok := choosePivot_some h0 h1 hk hc
    simp only [Option.some.injEq, Prod.mk.injEq] at h
    obtain ⟨rfl, rfl⟩ := h
    refine ⟨kp, ok.ge, ok.lt, rfl, ?_, ?_, ?_⟩
    · intro i j hij
      have hge := ok.ge
      have hlt := ok.lt
      cases two'
      · simp only [Bool.false_eq_true, if_false]
        rw [eliminate1_frame _ _ _ hij hk, interchange_frame _ ok.ge ok.lt _ _ hij]
      · simp only [if_true]
        simp only [kkOf, if_true] at hge
        rw [eliminate2_frame _ _ _ hij (by omega), interchange_frame _ ok.ge ok.lt _ _ hij]
    · intro e
      subst e
      exact step1 hk ok
    · intro e
      subst e
      exact step2 ok

theorem bkStep_none {alpha : 𝕜} {n k : ℕ} {s : St 𝕜}
    (h : bkStep alpha n k s = none) : ∀ i, k ≤ i → i < n → s.a i k = 0 := by
  unfold bkStep at h
  split at h
  · rename_i hc; exact choosePivot_none hc
  · cases h

theorem bkLoop_frame {alpha : 𝕜} (h0 : 0 < alpha) (h1 : alpha < 1) {n k : ℕ} {s sf : St 𝕜}
    (h : bkLoop alpha n k s = some sf) :
    (∀ i j, (j < k ∨ i < j ∨ n ≤ i) → sf.a i j = s.a i j) ∧ (∀ j, j < k → sf.piv j = s.piv j) := by
  induction hm : n - k using Nat.strong_induction_on generalizing k s with
  | _ m ih =>
    rw [bkLoop] at h
    split at h
    · rename_i hk
      split at h
      · cases h
      · rename_i s' two hs
        obtain ⟨kp, g1, g2, g3, fr, g4, g5⟩ := bkStep_some h0 h1 hk hs
        have hlt : k < (if two then k + 2 else k + 1) := by split <;> omega
        obtain ⟨i1, i2⟩ := ih (n - if two then k + 2 else k + 1) (by omega) h rfl
        refine ⟨fun i j hj => (i1 i j (by omega)).trans (fr i j hj), fun j hj => ?_⟩
        rw [i2 j (by omega), g3, setPivots_lt _ _ _ _ _ hj]
    · cases h
      exact ⟨fun _ _ _ => rfl, fun _ _ => rfl⟩

theorem bkLoop_fac {alpha : 𝕜} (h0 : 0 < alpha) (h1 : alpha < 1) {n k : ℕ} (hkn : k ≤ n)
    {s sf : St 𝕜} (h : bkLoop alpha n k s = some sf) : Fac n sf.a sf.piv k s.a := by
  induction hm : n - k using Nat.strong_induction_on generalizing k s with
  | _ m ih =>
    rw [bkLoop] at h
    split at h
    · rename_i hk
      split at h
      · cases h
      · rename_i s' two hs
        obtain ⟨kp, g1, g2, g3, g3', g4, g5⟩ := bkStep_some h0 h1 hk hs
        obtain ⟨fr, frp⟩ := bkLoop_frame h0 h1 h
        cases two with
        | false =>
          simp only [Bool.false_eq_true, if_false] at h fr frp
          simp only [kkOf, Bool.false_eq_true, if_false] at g1
          have hp : sf.piv k = kp := by
            rw [frp k (by omega), g3]
            simp [setPivots]
          exact .one k kp _ _ hk g1 g2 hp (g4 rfl) (fun i _ _ => fr i k (by omega))
            (ih _ (by omega) (by omega) h rfl)
        | true =>
          simp only [if_true] at h fr frp
          simp only [kkOf, if_true] at g1
          have hp : sf.piv k = -1 - kp := by
            rw [frp k (by omega), g3]
            simp [setPivots, Function.update]
          have hp1 : sf.piv (k+1) = -1 - kp := by
            rw [frp (k+1) (by omega), g3]
            simp [setPivots, Function.update]
          exact .two k kp _ _ g1 g2 hp hp1 (g5 rfl) (fun i _ _ => fr i k (by omega))
            (fun i _ _ => fr i (k+1) (by omega)) (ih _ (by omega) (by omega) h rfl)
    · cases h
      have : k = n := by omega
      subst this
      exact .stop _

theorem bkLoop_sing {alpha : 𝕜} (h0 : 0 < alpha) (h1 : alpha < 1) {n k : ℕ}
    {s : St 𝕜} (h : bkLoop alpha n k s = none) : Sing n k s.a := by
  induction hm : n - k using Nat.strong_induction_on generalizing k s with
  | _ m ih =>
    rw [bkLoop] at h
    split at h
    · rename_i hk
      split at h
      · rename_i hs
        exact .here k _ hk (bkStep_none hs)
      · rename_i s' two hs
        obtain ⟨kp, g1, g2, g3, g3', g4, g5⟩ := bkStep_some h0 h1 hk hs
        cases two with
        | false =>
          simp only [Bool.false_eq_true, if_false] at h
          simp only [kkOf, Bool.false_eq_true, if_false] at g1
          exact .one k kp _ _ hk g1 g2 (g4 rfl) (ih _ (by omega) h rfl)
        | true =>
          simp only [if_true] at h
          simp only [kkOf, if_true] at g1
          exact .two k kp _ _ g1 g2 (g5 rfl) (ih _ (by omega) h rfl)
    · cases h

end Aligator.BK
