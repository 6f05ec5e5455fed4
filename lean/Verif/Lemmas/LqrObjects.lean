import Verif.Spec.LqrObjects
import Mathlib.Algebra.Order.BigOperators.Group.Finset
import Mathlib.Tactic.Linarith
import Mathlib.Tactic.Ring

/-! # Lemmas: blocks of LQ knots -/

namespace Aligator.LqrObj

open Spec

variable {K A : Type}

theorem fresh_length (j : ℕ → K) (n : ℕ) : (fresh j n).length = n := by simp [fresh]

theorem Live.assignable {m : AMat K A} (h : Live m) : m.data ≠ none ∨ m.cap = 0 := by
  obtain ⟨l, h1, h2, h3⟩ := h
  unfold AMat.contents at h1
  split at h1
  · right; rw [h3]; assumption
  · left; rw [h1]; simp

/-- Writing `l` in a block that is writable gives a block of that content. -/
theorem write_spec (m : AMat K A) (l : List K) (hl : l.length = m.rows * m.cols)
    (hw : m.data ≠ none ∨ m.rows * m.cols = 0) :
    ∃ m', m.write l = some m' ∧ m'.alloc = m.alloc ∧ m'.rows = m.rows ∧ m'.cols = m.cols ∧ m'.cap = m.cap ∧
      m'.contents = some l := by
  unfold AMat.write
  by_cases h0 : m.rows * m.cols = 0
  · refine ⟨m, by rw [if_pos h0], rfl, rfl, rfl, rfl, ?_⟩
    unfold AMat.contents
    rw [if_pos h0]
    rw [h0] at hl
    rw [List.length_eq_zero_iff.1 hl]
  · rw [if_neg h0]
    rcases hw with hw | hw
    · cases hd : m.data with
      | none => exact absurd hd hw
      | some d =>
        refine ⟨_, rfl, rfl, rfl, rfl, rfl, ?_⟩
        unfold AMat.contents
        rw [if_neg h0]
    · exact absurd hw h0

theorem resize_spec (j : ℕ → K) (m : AMat K A) (r c : ℕ) (hm : m.data ≠ none ∨ m.cap = 0) :
    (m.resize j r c).alloc = m.alloc ∧ (m.resize j r c).rows = r ∧ (m.resize j r c).cols = c ∧
      (m.resize j r c).cap = r * c ∧ ((m.resize j r c).data ≠ none ∨ r * c = 0) := by
  unfold AMat.resize
  by_cases h : m.cap = r * c
  · rw [if_neg (by simpa using h)]
    refine ⟨rfl, rfl, rfl, h, ?_⟩
    rcases hm with hm | hm
    · exact Or.inl hm
    · right; rw [← h, hm]
  · rw [if_pos h]
    exact ⟨rfl, rfl, rfl, rfl, Or.inl (by simp)⟩

theorem new_contents (j : ℕ → K) (r c : ℕ) (a : A) : (AMat.new j r c a).contents = some (fresh j (r * c)) := by
  unfold AMat.contents
  split
  · next h =>
    have h' : r * c = 0 := h
    rw [h']; rfl
  · rfl

theorem new_live (j : ℕ → K) (r c : ℕ) (a : A) : Live (AMat.new j r c a) :=
  ⟨_, new_contents j r c a, fresh_length _ _, rfl⟩

/-- What an operation that yields a copy of `o` on allocator `a` has to deliver. -/
def IsCopy (o m : AMat K A) (a : A) : Prop := val m = val o ∧ m.alloc = a ∧ Live m

theorem isCopy_of (o m : AMat K A) (a : A) (l : List K) (ho : o.contents = some l)
    (hl : l.length = o.rows * o.cols) (h1 : m.alloc = a) (h2 : m.rows = o.rows) (h3 : m.cols = o.cols)
    (h4 : m.cap = o.rows * o.cols) (h5 : m.contents = some l) : IsCopy o m a := by
  refine ⟨?_, h1, ⟨l, h5, ?_, ?_⟩⟩
  · unfold val; rw [h2, h3, h5, ho]
  · rw [h2, h3, hl]
  · rw [h2, h3, h4]

theorem copy_spec (j : ℕ → K) (o : AMat K A) (a : A) (ho : Live o) : ∃ m, o.copy j a = some m ∧ IsCopy o m a := by
  obtain ⟨l, h1, h2, h3⟩ := ho
  obtain ⟨m, w1, w2, w3, w4, w5, w6⟩ := write_spec (AMat.new j o.rows o.cols a) l h2 (Or.inl (by simp [AMat.new]))
  refine ⟨m, ?_, isCopy_of o m a l h1 h2 w2 w3 w4 w5 w6⟩
  unfold AMat.copy; rw [h1]; exact w1

theorem assign_spec (j : ℕ → K) (m o : AMat K A) (ho : Live o) (hm : m.data ≠ none ∨ m.cap = 0) :
    ∃ m', m.assign j o = some m' ∧ IsCopy o m' m.alloc := by
  obtain ⟨l, h1, h2, h3⟩ := ho
  obtain ⟨r1, r2, r3, r4, r5⟩ := resize_spec j m o.rows o.cols hm
  obtain ⟨m', w1, w2, w3, w4, w5, w6⟩ := write_spec (m.resize j o.rows o.cols) l (by rw [r2, r3, h2])
    (by rw [r2, r3]; exact r5)
  refine ⟨m', ?_, isCopy_of o m' _ l h1 h2 (w2.trans r1) (w3.trans r2) (w4.trans r3) (w5.trans r4) w6⟩
  unfold AMat.assign; rw [h1]; exact w1

theorem moveTo_spec [DecidableEq A] (j : ℕ → K) (o : AMat K A) (a : A) (ho : Live o) :
    ∃ m, o.moveTo j a = some m ∧ IsCopy o m a := by
  unfold AMat.moveTo
  by_cases h : a = o.alloc
  · rw [if_pos h]
    exact ⟨_, rfl, rfl, rfl, ho⟩
  · rw [if_neg h]
    obtain ⟨l, h1, h2, h3⟩ := ho
    obtain ⟨r1, r2, r3, r4, r5⟩ := resize_spec j (⟨a, 0, 0, 0, none⟩ : AMat K A) o.rows o.cols (Or.inr rfl)
    obtain ⟨m', w1, w2, w3, w4, w5, w6⟩ := write_spec (AMat.resize j (⟨a, 0, 0, 0, none⟩ : AMat K A) o.rows o.cols) l
      (by rw [r2, r3, h2]) (by rw [r2, r3]; exact r5)
    refine ⟨m', ?_, isCopy_of o m' _ l h1 h2 (w2.trans r1) (w3.trans r2) (w4.trans r3) (w5.trans r4) w6⟩
    rw [h1]; exact w1

/-- What zeroing delivers. -/
def IsZero [Zero K] (r c : ℕ) (a : A) (m : AMat K A) : Prop :=
  m.rows = r ∧ m.cols = c ∧ m.alloc = a ∧ m.cap = r * c ∧ m.contents = some (List.replicate (r * c) 0)

theorem IsZero.live [Zero K] {r c : ℕ} {a : A} {m : AMat K A} (h : IsZero r c a m) : Live m := by
  obtain ⟨h1, h2, -, h4, h5⟩ := h
  exact ⟨_, h5, by simp [h1, h2], by rw [h4, h1, h2]⟩

theorem zeroed_spec [Zero K] (j : ℕ → K) (r c : ℕ) (a : A) :
    ∃ m, (AMat.new j r c a).zeroed = some m ∧ IsZero r c a m := by
  obtain ⟨m, w1, w2, w3, w4, w5, w6⟩ := write_spec (AMat.new j r c a) (List.replicate (r * c) 0) (by simp [AMat.new])
    (Or.inl (by simp [AMat.new]))
  exact ⟨m, w1, w3, w4, w2, w5, w6⟩

theorem setZero_spec [Zero K] (j : ℕ → K) (m : AMat K A) (r c : ℕ) (hm : m.data ≠ none ∨ m.cap = 0) :
    ∃ m', m.setZero j r c = some m' ∧ IsZero r c m.alloc m' := by
  obtain ⟨r1, r2, r3, r4, r5⟩ := resize_spec j m r c hm
  obtain ⟨m', w1, w2, w3, w4, w5, w6⟩ := write_spec (m.resize j r c) (List.replicate (r * c) 0) (by simp [r2, r3])
    (by rw [r2, r3]; exact r5)
  exact ⟨m', w1, w3.trans r2, w4.trans r3, w2.trans r1, w5.trans r4, w6⟩

/-- Reading a null buffer of positive size is undefined. -/
theorem contents_null (m : AMat K A) (h : m.data = none) (hs : m.rows * m.cols ≠ 0) : m.contents = none := by
  unfold AMat.contents; rw [if_neg hs, h]

section near
variable [Field K] [LinearOrder K] [IsStrictOrderedRing K]

theorem sqNorm_eq (l : List K) : sqNorm l = ∑ i ∈ Finset.range l.length, (l.getD i 0) ^ 2 := by
  unfold sqNorm
  induction l with
  | nil => simp
  | cons x l ih =>
    rw [List.map_cons, List.sum_cons, ih, List.length_cons, Finset.sum_range_succ']
    simp only [List.getD_cons_succ, List.getD_cons_zero]
    ring

theorem zipSub_getD (a b : List K) (h : a.length = b.length) (i : ℕ) :
    (List.zipWith (· - ·) a b).getD i 0 = a.getD i 0 - b.getD i 0 := by
  induction a generalizing b i with
  | nil =>
    cases b with
    | nil => simp
    | cons y b => simp at h
  | cons x a ih =>
    cases b with
    | nil => simp at h
    | cons y b =>
      cases i with
      | zero => simp
      | succ i =>
        simp only [List.zipWith_cons_cons, List.getD_cons_succ]
        exact ih b (by simpa using h) i

/-- On two live blocks of one shape Eigen's test is `Near`. -/
theorem approx_spec (prec : K) (m o : AMat K A) (hm : Live m) (ho : Live o) (hr : m.rows = o.rows)
    (hc : m.cols = o.cols) : ∃ b, m.approx prec o = some b ∧ (b = true ↔ Near prec m o) := by
  obtain ⟨a, a1, a2, -⟩ := hm
  obtain ⟨b, b1, b2, -⟩ := ho
  have hab : a.length = b.length := by rw [a2, b2, hr, hc]
  have h : m.approx prec o
      = some (decide (sqNorm (List.zipWith (· - ·) a b) ≤ prec * prec * min (sqNorm a) (sqNorm b))) := by
    unfold AMat.approx
    rw [if_pos ⟨hr, hc⟩, a1, b1]
  refine ⟨_, h, ?_⟩
  · rw [decide_eq_true_iff]
    unfold Near coeff
    simp only [a1, b1, Option.getD_some]
    rw [sqNorm_eq, sqNorm_eq, sqNorm_eq, List.length_zipWith, ← hab, min_self, a2]
    simp only [zipSub_getD a b hab, pow_two]

theorem Near.refl (prec : K) (m : AMat K A) : Near prec m m := by
  unfold Near
  simp only [sub_self, min_self]
  rw [Finset.sum_eq_zero (fun i _ => by ring)]
  exact mul_nonneg (sq_nonneg _) (Finset.sum_nonneg fun i _ => sq_nonneg _)

omit [IsStrictOrderedRing K] in
theorem Near.symm {prec : K} {m o : AMat K A} (hr : m.rows = o.rows) (hc : m.cols = o.cols) (h : Near prec m o) :
    Near prec o m := by
  unfold Near at *
  dsimp only at *
  rw [← hr, ← hc, min_comm]
  refine le_trans (le_of_eq ?_) h
  exact Finset.sum_congr rfl fun i _ => by ring

/-- A block is near a zero block only if it is zero. -/
theorem Near.zero {prec : K} {m o : AMat K A} (h : Near prec m o)
    (hz : ∀ i, i < m.rows * m.cols → coeff o i = 0) : ∀ i, i < m.rows * m.cols → coeff m i = 0 := by
  unfold Near at h
  dsimp only at h
  have e : ∑ i ∈ Finset.range (m.rows * m.cols), coeff o i ^ 2 = 0 :=
    Finset.sum_eq_zero fun i hi => by rw [hz i (Finset.mem_range.1 hi)]; ring
  have e2 : ∑ i ∈ Finset.range (m.rows * m.cols), (coeff m i - coeff o i) ^ 2
      = ∑ i ∈ Finset.range (m.rows * m.cols), coeff m i ^ 2 :=
    Finset.sum_congr rfl fun i hi => by rw [hz i (Finset.mem_range.1 hi), sub_zero]
  rw [e, e2, min_eq_right (Finset.sum_nonneg fun i _ => sq_nonneg _), mul_zero] at h
  have h0 := le_antisymm h (Finset.sum_nonneg fun i _ => sq_nonneg _)
  intro i hi
  have := (Finset.sum_eq_zero_iff_of_nonneg (fun i _ => sq_nonneg (coeff m i))).1 h0 i (Finset.mem_range.2 hi)
  exact pow_eq_zero_iff (two_ne_zero) |>.1 this

end near

theorem allSC_true (l : List (Option Bool)) : allSC l = some true ↔ ∀ b ∈ l, b = some true := by
  induction l with
  | nil => simp [allSC]
  | cons x l ih =>
    rcases x with - | (- | -)
    · simp [allSC]
    · simp [allSC]
    · simp [allSC, ih]

theorem allSC_defined (l : List (Option Bool)) (h : ∀ b ∈ l, b ≠ none) : ∃ b, allSC l = some b := by
  induction l with
  | nil => exact ⟨_, rfl⟩
  | cons x l ih =>
    rcases x with - | (- | -)
    · exact absurd rfl (h none (by simp))
    · exact ⟨_, rfl⟩
    · exact ih fun b hb => h b (by simp [hb])

end Aligator.LqrObj
