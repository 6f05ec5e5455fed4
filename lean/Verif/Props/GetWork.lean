import Verif.Model.GetWork
import Mathlib.Tactic.Ring
import Mathlib.Tactic.Linarith
import Mathlib.Algebra.Order.Ring.Nat

/-!
# Properties of the work splitting (C09)
-/

namespace Aligator.Gar

/-- **C09** The ranges start at stage 0, end after the last stage, follow each other without gap and are
ordered. -/
theorem C09_ranges_chain (horz nthr : ℕ) (h : 0 < nthr) :
    (getWork horz 0 nthr).beg = 0 ∧ (getWork horz (nthr - 1) nthr).stop = horz + 1 ∧
    (∀ i, (getWork horz i nthr).stop = (getWork horz (i + 1) nthr).beg) ∧
    (∀ i, (getWork horz i nthr).beg ≤ (getWork horz i nthr).stop) := by
  refine ⟨by simp [getWork], ?_, fun i => rfl, fun i => ?_⟩
  · simp only [getWork, Nat.sub_add_cancel h]
    exact Nat.mul_div_cancel_left _ h
  · exact Nat.div_le_div_right (Nat.mul_le_mul_right _ (Nat.le_succ i))

/-- **C09** Every stage of the horizon belongs to the range of exactly one thread, and no range reaches
outside of the horizon. -/
theorem C09_partition (horz nthr : ℕ) (h : 0 < nthr) (t : ℕ) :
    (t ≤ horz ↔ ∃ i < nthr, (getWork horz i nthr).beg ≤ t ∧ t < (getWork horz i nthr).stop) ∧
    ∀ i j, (getWork horz i nthr).beg ≤ t → t < (getWork horz i nthr).stop →
      (getWork horz j nthr).beg ≤ t → t < (getWork horz j nthr).stop → i = j := by
  have mono : ∀ {i j : ℕ}, i ≤ j → i * (horz + 1) / nthr ≤ j * (horz + 1) / nthr :=
    fun hij => Nat.div_le_div_right (Nat.mul_le_mul_right _ hij)
  refine ⟨⟨fun ht => ?_, fun ⟨i, hi, _, h2⟩ => ?_⟩, fun i j h1 h2 h3 h4 => ?_⟩
  · -- the least i with t < stop i
    have hex : ∃ i, t < (i + 1) * (horz + 1) / nthr :=
      ⟨nthr - 1, by rw [Nat.sub_add_cancel h, Nat.mul_div_cancel_left _ h]; omega⟩
    classical
    refine ⟨Nat.find hex, ?_, ?_, Nat.find_spec hex⟩
    · have : Nat.find hex ≤ nthr - 1 := Nat.find_le (by
        rw [Nat.sub_add_cancel h, Nat.mul_div_cancel_left _ h]; omega)
      omega
    · show Nat.find hex * (horz + 1) / nthr ≤ t
      rcases Nat.eq_zero_or_pos (Nat.find hex) with h0 | h0
      · rw [h0]; simp
      · have := Nat.find_min hex (m := Nat.find hex - 1) (by omega)
        rw [Nat.sub_add_cancel h0] at this
        omega
  · have : (getWork horz i nthr).stop ≤ horz + 1 := by
      have := mono (show i + 1 ≤ nthr by omega)
      rwa [Nat.mul_div_cancel_left _ h] at this
    omega
  · simp only [getWork] at h1 h2 h3 h4
    by_contra hne
    rcases lt_or_gt_of_ne hne with hlt | hlt
    · have := mono (show i + 1 ≤ j by omega)
      omega
    · have := mono (show j + 1 ≤ i by omega)
      omega

theorem getWork_length (horz nthr i : ℕ) (h : 0 < nthr) :
    (horz + 1) / nthr ≤ (getWork horz i nthr).stop - (getWork horz i nthr).beg ∧
    (getWork horz i nthr).stop - (getWork horz i nthr).beg ≤ (horz + 1) / nthr + 1 := by
  simp only [getWork]
  rw [show (i + 1) * (horz + 1) = i * (horz + 1) + (horz + 1) by ring]
  have a := @Nat.div_add_div_le_add_div (i * (horz + 1)) (horz + 1) nthr
  have b := Nat.div_add_mod (i * (horz + 1)) nthr
  have c := Nat.div_add_mod (horz + 1) nthr
  have d := Nat.mod_lt (i * (horz + 1)) h
  have e := Nat.mod_lt (horz + 1) h
  have f : (i * (horz + 1) + (horz + 1)) / nthr ≤ i * (horz + 1) / nthr + (horz + 1) / nthr + 1 := by
    rw [← Nat.lt_succ_iff, Nat.div_lt_iff_lt_mul h]
    nlinarith
  clear b c d e
  generalize (i * (horz + 1) + (horz + 1)) / nthr = p at *
  generalize i * (horz + 1) / nthr = q at *
  generalize (horz + 1) / nthr = r at *
  omega

/-- **C09** The lengths of any two ranges differ by at most one. -/
theorem C09_balanced (horz nthr : ℕ) (h : 0 < nthr) (i j : ℕ) :
    (getWork horz i nthr).stop - (getWork horz i nthr).beg ≤
      (getWork horz j nthr).stop - (getWork horz j nthr).beg + 1 := by
  have a := getWork_length horz nthr i h
  have b := getWork_length horz nthr j h
  omega

/-- **C09** All threads get at least one stage exactly when there are at most `horizon + 1` threads; with
more threads some leg is empty (and the parallel solver then reads `stages[end - 1]` of another leg or
out of bounds). -/
theorem C09_nonempty_iff (horz nthr : ℕ) (h : 0 < nthr) :
    (∀ i < nthr, (getWork horz i nthr).beg < (getWork horz i nthr).stop) ↔ nthr ≤ horz + 1 := by
  constructor
  · intro hall
    by_contra hlt
    have := hall 0 h
    simp only [getWork, zero_mul, Nat.zero_div, zero_add, one_mul] at this
    rw [Nat.div_eq_of_lt (by omega)] at this
    omega
  · intro hle i _
    have a := (getWork_length horz nthr i h).1
    have : 0 < (horz + 1) / nthr := Nat.div_pos hle h
    omega

/-- **C09** The 32-bit computation agrees with the mathematical one as long as
`numThreads * (horizon + 1)` fits. -/
theorem C09_no_overflow (horz tid nthr : UInt32) (ht : tid < nthr)
    (hb : nthr.toNat * (horz.toNat + 1) < 2 ^ 32) :
    (getWork32 horz tid nthr).1.toNat = (getWork horz.toNat tid.toNat nthr.toNat).beg ∧
    (getWork32 horz tid nthr).2.toNat = (getWork horz.toNat tid.toNat nthr.toNat).stop := by
  have ht' : tid.toNat < nthr.toNat := by simpa [UInt32.lt_iff_toNat_lt] using ht
  have h1 : horz.toNat + 1 < 2 ^ 32 := by nlinarith
  have e1 : (horz + 1).toNat = horz.toNat + 1 := by
    rw [UInt32.toNat_add]; exact Nat.mod_eq_of_lt h1
  have h2 : tid.toNat + 1 < 2 ^ 32 := by have := nthr.toNat_lt; omega
  have e2 : (tid + 1).toNat = tid.toNat + 1 := by
    rw [UInt32.toNat_add]; exact Nat.mod_eq_of_lt h2
  have h3 : tid.toNat * (horz.toNat + 1) < 2 ^ 32 := by nlinarith
  have h4 : (tid.toNat + 1) * (horz.toNat + 1) < 2 ^ 32 := by nlinarith
  constructor
  · show (tid * (horz + 1) / nthr).toNat = _
    rw [UInt32.toNat_div, UInt32.toNat_mul, e1, Nat.mod_eq_of_lt h3]; rfl
  · show ((tid + 1) * (horz + 1) / nthr).toNat = _
    rw [UInt32.toNat_div, UInt32.toNat_mul, e1, e2, Nat.mod_eq_of_lt h4]; rfl

/-- **C09** Outside of that range the split is wrong: with `2^31` knots and 4 threads the last range ends
at 0 and misses stages. -/
theorem C09_overflow_breaks_partition :
    getWork32 (2147483647 : UInt32) 3 4 = (536870912, 0) ∧
    (getWork 2147483647 3 4).stop = 2147483648 := by
  constructor <;> rfl

/-- Non-vacuity: horizon 100 over 8 threads. -/
example : (List.range 8).map (fun i => (getWork 100 i 8).stop - (getWork 100 i 8).beg) =
    [12, 13, 12, 13, 13, 12, 13, 13] := by decide

end Aligator.Gar
