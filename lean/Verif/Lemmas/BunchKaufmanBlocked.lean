import Verif.Lemmas.BunchKaufmanSolve
import Verif.Model.BunchKaufmanBlocked

set_option linter.unusedSectionVars false

namespace Aligator.BK

variable {𝕜 : Type*} [Field 𝕜] [LinearOrder 𝕜] [IsStrictOrderedRing 𝕜]

open Finset

/-! ### Chains depend on the lower triangle only, and can be shifted -/

/-- Agreement on the lower triangle. -/
def LE (n : ℕ) (a b : Arr 𝕜) : Prop := ∀ i j, j ≤ i → i < n → a i j = b i j

theorem LE.sym_eq {n : ℕ} {a b : Arr 𝕜} (h : LE n a b) {i j : ℕ} (hi : i < n) (hj : j < n) :
    sym a i j = sym b i j := by
  unfold sym
  exact h _ _ (by omega) (by omega)

theorem LE.permuted_eq {n : ℕ} {a b : Arr 𝕜} (h : LE n a b) {r p i j : ℕ} (hr : r < n) (hp : p < n)
    (hi : i < n) (hj : j < n) : permuted a r p i j = permuted b r p i j :=
  h.sym_eq (tau_lt hr hp hi) (tau_lt hr hp hj)

theorem Step1.congr {n k kp : ℕ} {a b a' b' : Arr 𝕜} (hk : k < n) (hp : kp < n) (h : LE n a b)
    (h' : LE n a' b') (s : Step1 n k kp a a') : Step1 n k kp b b' := by
  have P : ∀ i j, i < n → j < n → permuted a k kp i j = permuted b k kp i j :=
    fun i j hi hj => h.permuted_eq hk hp hi hj
  refine ⟨?_, ?_, ?_, ?_⟩
  · rw [← P k k hk hk]; exact s.pivot
  · rw [← P k k hk hk, ← h' k k le_rfl hk]; exact s.diag
  · intro i h1 h2
    rw [← P k k hk hk, ← P i k h2 hk, ← h' i k h1.le h2]; exact s.col i h1 h2
  · intro i j h1 h2 h3 h4
    rw [← P k k hk hk, ← P i k h2 hk, ← P i j h2 h4, ← P j k h4 hk, ← h'.sym_eq h2 h4]
    exact s.trail i j h1 h2 h3 h4

theorem Step2.congr {n k kp : ℕ} {a b a' b' : Arr 𝕜} (hk : k + 1 < n) (hp : kp < n) (h : LE n a b)
    (h' : LE n a' b') (s : Step2 n k kp a a') : Step2 n k kp b b' := by
  have P : ∀ i j, i < n → j < n → permuted a (k+1) kp i j = permuted b (k+1) kp i j :=
    fun i j hi hj => h.permuted_eq hk hp hi hj
  have hk' : k < n := by omega
  have A11 := h' k k le_rfl hk'
  have A21 := h' (k+1) k (by omega) hk
  have A22 := h' (k+1) (k+1) le_rfl hk
  have P11 := P k k hk' hk'
  have P21 := P (k+1) k hk hk'
  have P22 := P (k+1) (k+1) hk hk
  refine ⟨?_, ?_, ?_, ?_, ?_, ?_, ?_, ?_, ?_, ?_⟩
  · rw [← A11, ← A21, ← P11, ← P21]; exact s.inv11
  · rw [← A11, ← A21, ← P22, ← P21]; exact s.inv12
  · rw [← A22, ← A21, ← P11, ← P21]; exact s.inv21
  · rw [← A22, ← A21, ← P22, ← P21]; exact s.inv22
  · intro i h1 h2
    rw [← A11, ← A21, ← P i k h2 hk', ← P i (k+1) h2 hk, ← h' i k (by omega) h2]; exact s.col i h1 h2
  · intro i h1 h2
    rw [← A22, ← A21, ← P i k h2 hk', ← P i (k+1) h2 hk, ← h' i (k+1) (by omega) h2]
    exact s.col1 i h1 h2
  · rw [← A11, ← P11, ← P21, ← P22]; exact s.v11
  · rw [← A21, ← P11, ← P21, ← P22]; exact s.v21
  · rw [← A22, ← P11, ← P21, ← P22]; exact s.v22
  · intro i j h1 h2 h3 h4
    rw [← P i k h2 hk', ← P i j h2 h4, ← P i (k+1) h2 hk, ← h' j k (by omega) h4,
      ← h' j (k+1) (by omega) h4, ← h'.sym_eq h2 h4]
    exact s.trail i j h1 h2 h3 h4

theorem LE.refl {n : ℕ} (a : Arr 𝕜) : LE n a a := fun _ _ _ _ => rfl

theorem LE.symm {n : ℕ} {a b : Arr 𝕜} (h : LE n a b) : LE n b a := fun i j h1 h2 => (h i j h1 h2).symm

theorem Fac.congr {n k : ℕ} {a b af : Arr 𝕜} {piv : ℕ → ℤ} (h : Fac n af piv k a) (hab : LE n a b) :
    Fac n af piv k b := by
  cases h with
  | stop => exact .stop _
  | one _ kp _ a' hk g1 g2 hp st hc t =>
    exact .one k kp b a' hk g1 g2 hp (st.congr hk g2 hab (LE.refl _)) hc t
  | two _ kp _ a' g1 g2 hp hp1 st hc hc1 t =>
    exact .two k kp b a' g1 g2 hp hp1 (st.congr (by omega) g2 hab (LE.refl _)) hc hc1 t

theorem Sing.congr {n k : ℕ} {a b : Arr 𝕜} (h : Sing n k a) (hab : LE n a b) : Sing n k b := by
  cases h with
  | here _ _ hk hz => exact .here k b hk fun i h1 h2 => (hab i k h1 h2) ▸ hz i h1 h2
  | one _ kp _ a' hk g1 g2 st t =>
    exact .one k kp b a' hk g1 g2 (st.congr hk g2 hab (LE.refl _)) t
  | two _ kp _ a' g1 g2 st t =>
    exact .two k kp b a' g1 g2 (st.congr (by omega) g2 hab (LE.refl _)) t

/-- The recorded factors only matter on the columns from `k` on. -/
theorem Fac.congr_af {n k : ℕ} {a af af' : Arr 𝕜} {piv piv' : ℕ → ℤ} (h : Fac n af piv k a)
    (hab : ∀ i j, k ≤ j → j ≤ i → i < n → af i j = af' i j) (hp : ∀ j, k ≤ j → j < n → piv j = piv' j) :
    Fac n af' piv' k a := by
  induction h with
  | stop => exact .stop _
  | one k kp a a' hk g1 g2 hpk st hc t ih =>
    exact .one k kp a a' hk g1 g2 ((hp k le_rfl hk) ▸ hpk) st
      (fun i h1 h2 => (hab i k le_rfl h1 h2) ▸ hc i h1 h2)
      (ih (fun i j h1 => hab i j (by omega)) (fun j h1 => hp j (by omega)))
  | two k kp a a' g1 g2 hpk hp1 st hc hc1 t ih =>
    exact .two k kp a a' g1 g2 ((hp k le_rfl (by omega)) ▸ hpk) ((hp (k+1) (by omega) (by omega)) ▸ hp1) st
      (fun i h1 h2 => (hab i k le_rfl h1 h2) ▸ hc i h1 h2)
      (fun i h1 h2 => (hab i (k+1) (by omega) h1 h2) ▸ hc1 i h1 h2)
      (ih (fun i j h1 => hab i j (by omega)) (fun j h1 => hp j (by omega)))

theorem sym_view (o : ℕ) (a : Arr 𝕜) (i j : ℕ) : sym (view o a) i j = sym a (i + o) (j + o) := by
  unfold sym view
  rw [Nat.add_max_add_right, Nat.add_min_add_right]

theorem tau_add (o r p i : ℕ) : tau (r + o) (p + o) (i + o) = tau r p i + o := by
  unfold tau; grind

theorem permuted_view (o : ℕ) (a : Arr 𝕜) (r p i j : ℕ) :
    permuted (view o a) r p i j = permuted a (r + o) (p + o) (i + o) (j + o) := by
  unfold permuted
  rw [sym_view, tau_add, tau_add]

theorem forall_add {P : ℕ → Prop} {o k n : ℕ} (h : ∀ i, k < i → i < n → P (i + o)) (i : ℕ)
    (h1 : k + o < i) (h2 : i < n + o) : P i := by
  have e : i = (i - o) + o := by omega
  rw [e]
  exact h _ (by omega) (by omega)

theorem Step1.shift {o n k kp : ℕ} {a a' : Arr 𝕜} (s : Step1 n k kp (view o a) (view o a')) :
    Step1 (n + o) (k + o) (kp + o) a a' := by
  obtain ⟨h1, h2, h3, h4⟩ := s
  simp only [permuted_view, sym_view, view] at h1 h2 h3 h4
  refine ⟨h1, h2, forall_add h3, fun i j e1 e2 e3 e4 => ?_⟩
  have ei : i = (i - o) + o := by omega
  have ej : j = (j - o) + o := by omega
  rw [ei, ej]
  exact h4 _ _ (by omega) (by omega) (by omega) (by omega)

theorem Step2.shift {o n k kp : ℕ} {a a' : Arr 𝕜} (s : Step2 n k kp (view o a) (view o a')) :
    Step2 (n + o) (k + o) (kp + o) a a' := by
  obtain ⟨h1, h2, h3, h4, h5, h6, h7, h8, h9, h10⟩ := s
  have e : k + 1 + o = k + o + 1 := by omega
  simp only [permuted_view, sym_view, view, e] at h1 h2 h3 h4 h5 h6 h7 h8 h9 h10
  refine ⟨h1, h2, h3, h4, fun i e1 e2 => ?_, fun i e1 e2 => ?_, h7, h8, h9, fun i j e1 e2 e3 e4 => ?_⟩
  · have ei : i = (i - o) + o := by omega
    rw [ei]
    exact h5 _ (by omega) (by omega)
  · have ei : i = (i - o) + o := by omega
    rw [ei]
    exact h6 _ (by omega) (by omega)
  · have ei : i = (i - o) + o := by omega
    have ej : j = (j - o) + o := by omega
    rw [ei, ej]
    exact h10 _ _ (by omega) (by omega) (by omega) (by omega)

theorem view_unview (o : ℕ) (a b : Arr 𝕜) : view o (unview o a b) = b := by
  funext i j
  unfold view unview
  rw [if_pos (by omega), Nat.add_sub_cancel, Nat.add_sub_cancel]

/-- Pivots of a view made absolute. -/
def absP (o : ℕ) (p : ℤ) : ℤ := if 0 ≤ p then p + o else p - o

theorem Sing.shift {o n k : ℕ} {b : Arr 𝕜} (h : Sing n k b) (a : Arr 𝕜) (hb : view o a = b) :
    Sing (n + o) (k + o) a := by
  induction h generalizing a with
  | here k b hk hz =>
    subst hb
    refine .here _ a (by omega) fun i h1 h2 => ?_
    have ei : i = (i - o) + o := by omega
    rw [ei]
    exact hz _ (by omega) (by omega)
  | one k kp b b' hk g1 g2 st t ih =>
    subst hb
    have e := ih (unview o a b') (view_unview _ _ _)
    refine .one _ (kp + o) a (unview o a b') (by omega) (by omega) (by omega) ?_
      (by rw [show k + o + 1 = k + 1 + o by omega]; exact e)
    exact Step1.shift (by rw [view_unview]; exact st)
  | two k kp b b' g1 g2 st t ih =>
    subst hb
    have e := ih (unview o a b') (view_unview _ _ _)
    refine .two _ (kp + o) a (unview o a b') (by omega) (by omega) ?_
      (by rw [show k + o + 2 = k + 2 + o by omega]; exact e)
    exact Step2.shift (by rw [view_unview]; exact st)

theorem Fac.shift {o n k : ℕ} {b af bf : Arr 𝕜} {piv rel : ℕ → ℤ} (h : Fac n bf rel k b)
    (hf : ∀ i j, k ≤ j → j ≤ i → i < n → af (i + o) (j + o) = bf i j)
    (hp : ∀ j, k ≤ j → j < n → piv (j + o) = absP o (rel j)) (a : Arr 𝕜) (hb : view o a = b) :
    Fac (n + o) af piv (k + o) a := by
  induction h generalizing a with
  | stop => exact .stop _
  | one k kp b b' hk g1 g2 hpk st hc t ih =>
    subst hb
    have e := ih (fun i j h1 => hf i j (by omega)) (fun j h1 => hp j (by omega)) (unview o a b')
      (view_unview _ _ _)
    refine .one _ (kp + o) a (unview o a b') (by omega) (by omega) (by omega) ?_ ?_ ?_
      (by rw [show k + o + 1 = k + 1 + o by omega]; exact e)
    · rw [hp k le_rfl hk, hpk, absP, if_pos (by omega)]; omega
    · exact Step1.shift (by rw [view_unview]; exact st)
    · intro i h1 h2
      have ei : i = (i - o) + o := by omega
      rw [ei, hf _ k le_rfl (by omega) (by omega), hc _ (by omega) (by omega)]
      exact (congrFun (congrFun (view_unview o a b') _) _).symm
  | two k kp b b' g1 g2 hpk hp1 st hc hc1 t ih =>
    subst hb
    have e := ih (fun i j h1 => hf i j (by omega)) (fun j h1 => hp j (by omega)) (unview o a b')
      (view_unview _ _ _)
    refine .two _ (kp + o) a (unview o a b') (by omega) (by omega) ?_ ?_ ?_ ?_ ?_
      (by rw [show k + o + 2 = k + 2 + o by omega]; exact e)
    · rw [hp k le_rfl (by omega), hpk, absP, if_neg (by omega)]; omega
    · rw [show k + o + 1 = k + 1 + o by omega, hp (k+1) (by omega) (by omega), hp1, absP,
        if_neg (by omega)]; omega
    · exact Step2.shift (by rw [view_unview]; exact st)
    · intro i h1 h2
      have ei : i = (i - o) + o := by omega
      rw [ei, hf _ k le_rfl (by omega) (by omega), hc _ (by omega) (by omega)]
      exact (congrFun (congrFun (view_unview o a b') _) _).symm
    · intro i h1 h2
      have ei : i = (i - o) + o := by omega
      rw [ei, show k + o + 1 = k + 1 + o by omega, hf _ (k+1) (by omega) (by omega) (by omega),
        hc1 _ (by omega) (by omega)]
      exact (congrFun (congrFun (view_unview o a b') _) _).symm

end Aligator.BK
