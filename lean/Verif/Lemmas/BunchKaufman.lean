import Verif.Model.BunchKaufman
import Mathlib.Tactic.Linarith
import Mathlib.Tactic.FieldSimp
import Mathlib.Tactic.LinearCombination
import Mathlib.Tactic.Ring

set_option linter.unusedSectionVars false

namespace Aligator.BK

variable {𝕜 : Type*} [Field 𝕜] [LinearOrder 𝕜]

/-! ### Closed forms of the loops -/

/-- A loop over `i` in which iteration `i` writes entry `(i, j)` from data of row `i`. -/
theorem forRange_rows (lo hi j : ℕ) (g : ℕ → (ℕ → 𝕜) → 𝕜) (a : Arr 𝕜) :
    forRange lo hi (fun i s => setE s i j (g i (s i))) a =
      fun i' j' => if lo ≤ i' ∧ i' < hi ∧ j' = j then g i' (a i') else a i' j' := by
  have aux : ∀ len, forLen (fun i s => setE s i j (g i (s i))) lo len a =
      fun i' j' => if lo ≤ i' ∧ i' < lo + len ∧ j' = j then g i' (a i') else a i' j' := by
    intro len
    induction len with
    | zero => funext i' j'; simp only [forLen]; grind
    | succ len ih =>
      funext i' j'
      simp only [forLen, ih, setE]
      have e : (fun j' => if lo ≤ lo + len ∧ lo + len < lo + len ∧ j' = j then
        g (lo + len) (a (lo + len)) else a (lo + len) j') = a (lo + len) := by funext j'; grind
      rw [e]
      grind
  funext i' j'
  rw [forRange, aux]
  dsimp only
  grind

theorem eliminate1_outer (n k : ℕ) (a : Arr 𝕜) (d : 𝕜) (len : ℕ) : forLen (fun j a =>
      forRange j n (fun i a' => setE a' i j (a' i j - a j k * d * a' i k)) a) (k + 1) len a =
      fun i j => if k < j ∧ j < k + 1 + len ∧ j ≤ i ∧ i < n then a i j - a j k * d * a i k
        else a i j := by
  induction len with
  | zero => funext i j; simp only [forLen]; grind
  | succ len ih =>
    funext i j
    simp only [forLen]
    rw [ih]
    set s : Arr 𝕜 := fun i j => if k < j ∧ j < k + 1 + len ∧ j ≤ i ∧ i < n then
      a i j - a j k * d * a i k else a i j with hs
    have h := forRange_rows (k + 1 + len) n (k + 1 + len)
        (fun _ r => r (k + 1 + len) - s (k + 1 + len) k * d * r k) s
    rw [h]
    simp only [hs]
    grind

theorem eliminate1_closed (n k : ℕ) (a : Arr 𝕜) (i j : ℕ) :
    eliminate1 n k a i j =
      if i = k ∧ j = k then 1 / a k k
      else if k < j ∧ j ≤ i ∧ i < n then a i j - a j k * (1 / a k k) * a i k
      else if j = k ∧ k < i ∧ i < n then a i k * (1 / a k k)
      else a i j := by
  unfold eliminate1
  dsimp only
  rw [forRange_rows (k + 1) n k (fun _ r => r k * (1 / a k k))]
  rw [forRange, eliminate1_outer]
  simp only [setE]
  generalize 1 / a k k = d
  grind

/-- `wk` of the 2x2 elimination. -/
def wkOf (a : Arr 𝕜) (k : ℕ) (d11 d21 d : 𝕜) (j : ℕ) : 𝕜 := (a j k * d11 - a j (k + 1) * d21) * d

/-- `wkp1` of the 2x2 elimination. -/
def wkp1Of (a : Arr 𝕜) (k : ℕ) (d22 d21 d : 𝕜) (j : ℕ) : 𝕜 := (a j (k + 1) * d22 - a j k * d21) * d

theorem eliminate2_outer (n k : ℕ) (d11 d21 d22 d : 𝕜) (a : Arr 𝕜) (len : ℕ) : forLen (fun j a =>
      setE (setE (forRange j n (fun i a' => setE a' i j (a' i j -
        (a' i k * ((a j k * d11 - a j (k + 1) * d21) * d) +
          a' i (k + 1) * ((a j (k + 1) * d22 - a j k * d21) * d)))) a)
        j k ((a j k * d11 - a j (k + 1) * d21) * d))
        j (k + 1) ((a j (k + 1) * d22 - a j k * d21) * d)) (k + 2) len a =
      fun i j =>
        if k + 1 < j ∧ j < k + 2 + len ∧ j ≤ i ∧ i < n then
          a i j - (a i k * wkOf a k d11 d21 d j + a i (k + 1) * wkp1Of a k d22 d21 d j)
        else if j = k ∧ k + 1 < i ∧ i < k + 2 + len then wkOf a k d11 d21 d i
        else if j = k + 1 ∧ k + 1 < i ∧ i < k + 2 + len then wkp1Of a k d22 d21 d i
        else a i j := by
  induction len with
  | zero => funext i j; simp only [forLen]; grind
  | succ len ih =>
    simp only [forLen]
    rw [ih]
    set jj := k + 2 + len with hjj
    set s : Arr 𝕜 := fun i j =>
        if k + 1 < j ∧ j < jj ∧ j ≤ i ∧ i < n then
          a i j - (a i k * wkOf a k d11 d21 d j + a i (k + 1) * wkp1Of a k d22 d21 d j)
        else if j = k ∧ k + 1 < i ∧ i < jj then wkOf a k d11 d21 d i
        else if j = k + 1 ∧ k + 1 < i ∧ i < jj then wkp1Of a k d22 d21 d i
        else a i j with hs
    have sk : ∀ i, jj ≤ i → s i k = a i k := by
      intro i hi; simp only [hs]; grind
    have sk1 : ∀ i, jj ≤ i → s i (k + 1) = a i (k + 1) := by
      intro i hi; simp only [hs]; grind
    rw [forRange_rows jj n jj (fun _ r => r jj -
        (r k * ((s jj k * d11 - s jj (k + 1) * d21) * d) +
          r (k + 1) * ((s jj (k + 1) * d22 - s jj k * d21) * d)))]
    rw [sk jj le_rfl, sk1 jj le_rfl]
    have e1 : (a jj k * d11 - a jj (k + 1) * d21) * d = wkOf a k d11 d21 d jj := rfl
    have e2 : (a jj (k + 1) * d22 - a jj k * d21) * d = wkp1Of a k d22 d21 d jj := rfl
    rw [e1, e2]
    generalize wkOf a k d11 d21 d = W at *
    generalize wkp1Of a k d22 d21 d = W1 at *
    funext i j
    simp only [setE]
    by_cases c3 : jj ≤ i
    · rw [sk i c3, sk1 i c3]
      simp only [hs]
      grind (splits := 30)
    · simp only [hs]
      grind (splits := 30)

theorem eliminate2_closed (n k : ℕ) (a : Arr 𝕜) (d11 d21 d22 d : 𝕜)
    (h11 : d11 = 1 / |a (k + 1) k| * a (k + 1) (k + 1)) (h22 : d22 = 1 / |a (k + 1) k| * a k k)
    (h21 : d21 = a (k + 1) k * (1 / |a (k + 1) k|))
    (hd : d = 1 / (d11 * d22 - 1) * (1 / |a (k + 1) k|)) (i j : ℕ) (hi : i < n) :
    eliminate2 n k a i j =
      if i = k ∧ j = k then d11 * d
      else if i = k + 1 ∧ j = k then -d21 * d
      else if i = k + 1 ∧ j = k + 1 then d22 * d
      else if k + 1 < j ∧ j ≤ i then
        a i j - (a i k * wkOf a k d11 d21 d j + a i (k + 1) * wkp1Of a k d22 d21 d j)
      else if j = k ∧ k + 1 < i then wkOf a k d11 d21 d i
      else if j = k + 1 ∧ k + 1 < i then wkp1Of a k d22 d21 d i
      else a i j := by
  unfold eliminate2
  dsimp only
  rw [← h11, ← h22, ← h21, ← hd]
  rw [forRange, eliminate2_outer]
  clear h11 h22 h21 hd
  have e : ∀ i, k + 1 < i → wkOf (setE (setE (setE a k k (d11 * d)) (k + 1) k (-d21 * d)) (k + 1)
      (k + 1) (d22 * d)) k d11 d21 d i = wkOf a k d11 d21 d i := by
    intro i hi; simp only [wkOf, setE]; grind
  have e' : ∀ i, k + 1 < i → wkp1Of (setE (setE (setE a k k (d11 * d)) (k + 1) k (-d21 * d)) (k + 1)
      (k + 1) (d22 * d)) k d22 d21 d i = wkp1Of a k d22 d21 d i := by
    intro i hi; simp only [wkp1Of, setE]; grind
  have e2 : ∀ i j, k + 1 < i → setE (setE (setE a k k (d11 * d)) (k + 1) k (-d21 * d)) (k + 1)
      (k + 1) (d22 * d) i j = a i j := by
    intro i j hi; simp only [setE]; grind
  have e3 : setE (setE (setE a k k (d11 * d)) (k + 1) k (-d21 * d)) (k + 1)
      (k + 1) (d22 * d) i j = if i = k ∧ j = k then d11 * d
      else if i = k + 1 ∧ j = k then -d21 * d
      else if i = k + 1 ∧ j = k + 1 then d22 * d else a i j := by
    simp only [setE]; grind
  have hlt : k + 2 ≤ n ∨ n < k + 2 := by omega
  by_cases hik : k + 1 < i
  · by_cases hjk : k + 1 < j
    · simp only [e2 i _ hik, e j hjk, e' j hjk]
      grind
    · simp only [e2 i _ hik, e i hik, e' i hik]
      grind
  · dsimp only
    rw [e3]
    grind (splits := 30)

theorem swapE_col_closed (n kk kp : ℕ) (h : kk < kp) (a : Arr 𝕜) :
    forRange (kp + 1) n (fun i a => swapE a i kk i kp) a =
      fun i j => if kp < i ∧ i < n then (if j = kk then a i kp else if j = kp then a i kk else a i j)
        else a i j := by
  have aux : ∀ len, forLen (fun i a => swapE a i kk i kp) (kp + 1) len a =
      fun i j => if kp < i ∧ i < kp + 1 + len then
        (if j = kk then a i kp else if j = kp then a i kk else a i j) else a i j := by
    intro len
    induction len with
    | zero => funext i j; simp only [forLen]; grind
    | succ len ih =>
      funext i j
      rw [forLen, ih]
      simp only [swapE, setE]
      grind
  funext i j
  rw [forRange, aux]
  dsimp only
  grind

theorem swapE_cross_closed (kk kp : ℕ) (h : kk < kp) (a : Arr 𝕜) :
    forRange (kk + 1) kp (fun j a => swapE a j kk kp j) a =
      fun i j => if kk < i ∧ i < kp ∧ j = kk then a kp i
        else if i = kp ∧ kk < j ∧ j < kp then a j kk else a i j := by
  have aux : ∀ len, kk + 1 + len ≤ kp → forLen (fun j a => swapE a j kk kp j) (kk + 1) len a =
      fun i j => if kk < i ∧ i < kk + 1 + len ∧ j = kk then a kp i
        else if i = kp ∧ kk < j ∧ j < kk + 1 + len then a j kk else a i j := by
    intro len
    induction len with
    | zero => intro _; funext i j; simp only [forLen]; grind
    | succ len ih =>
      intro hle
      funext i j
      rw [forLen, ih (by omega)]
      simp only [swapE, setE]
      grind
  rw [forRange, aux _ (by omega)]
  have : kk + 1 + (kp - (kk + 1)) = kp := by omega
  rw [this]

/-- The symmetric matrix represented by a lower triangle. -/
def sym (a : Arr 𝕜) (i j : ℕ) : 𝕜 := a (max i j) (min i j)

theorem sym_comm (a : Arr 𝕜) (i j : ℕ) : sym a i j = sym a j i := by
  unfold sym; rw [max_comm, min_comm]

theorem sym_le (a : Arr 𝕜) {i j : ℕ} (h : j ≤ i) : sym a i j = a i j := by
  unfold sym; rw [max_eq_left h, min_eq_right h]

/-- `kk` of the code. -/
def kkOf (k : ℕ) (two : Bool) : ℕ := if two then k + 1 else k

theorem kkOf_bounds (k : ℕ) (two : Bool) : k ≤ kkOf k two ∧ kkOf k two ≤ k + 1 := by
  unfold kkOf; split <;> omega

theorem interchange_closed (n k : ℕ) (two : Bool) (kp : ℕ) (a : Arr 𝕜) (hk : kkOf k two ≤ kp)
    (i j : ℕ) :
    interchange n k two kp a i j =
      if kp = kkOf k two then a i j
      else if two ∧ j = k ∧ i = k + 1 then a kp k
      else if two ∧ j = k ∧ i = kp then a (k + 1) k
      else if i = kkOf k two ∧ j = kkOf k two then a kp kp
      else if i = kp ∧ j = kp then a (kkOf k two) (kkOf k two)
      else if kkOf k two < i ∧ i < kp ∧ j = kkOf k two then a kp i
      else if i = kp ∧ kkOf k two < j ∧ j < kp then a j (kkOf k two)
      else if kp < i ∧ i < n ∧ j = kkOf k two then a i kp
      else if kp < i ∧ i < n ∧ j = kp then a i (kkOf k two)
      else a i j := by
  unfold interchange
  have hkk : (if two = true then k + 1 else k) = kkOf k two := rfl
  have hkk3 : two = true → kkOf k two = k + 1 := by intro h; simp [kkOf, h]
  simp only [hkk]
  generalize kkOf k two = kk at *
  by_cases h0 : kp = kk
  · rw [if_neg (not_not.2 h0), if_pos h0]
  have hlt : kk < kp := by omega
  rw [if_pos h0, if_neg h0, swapE_col_closed n kk kp hlt, swapE_cross_closed kk kp hlt]
  cases two with
  | false =>
    simp only [Bool.false_eq_true, if_false, false_and, swapE, setE]
    grind
  | true =>
    have hkk4 := hkk3 rfl
    simp only [if_true, true_and, swapE, setE]
    clear hkk hkk3
    subst hkk4
    grind (splits := 30)

/-- The interchange leaves the already computed columns alone. -/
theorem interchange_cols (n k : ℕ) (two : Bool) (kp : ℕ) (a : Arr 𝕜) (hk : kkOf k two ≤ kp)
    (i j : ℕ) (hj : j < k) : interchange n k two kp a i j = a i j := by
  have := kkOf_bounds k two
  rw [interchange_closed n k two kp a hk]
  grind

/-- Transposition of `r` and `p`. -/
def tau (r p i : ℕ) : ℕ := if i = r then p else if i = p then r else i

theorem interchange_sym (n k : ℕ) (two : Bool) (kp : ℕ) (a : Arr 𝕜) (hk : kkOf k two ≤ kp)
    (hn : kp < n) (i j : ℕ) (hi : k ≤ i) (hi' : i < n) (hj : k ≤ j) (hj' : j < n) :
    sym (interchange n k two kp a) i j = sym a (tau (kkOf k two) kp i) (tau (kkOf k two) kp j) := by
  wlog hij : j ≤ i generalizing i j
  · rw [sym_comm, this j i hj hj' hi hi' (by omega), sym_comm]
  rw [sym_le _ hij, interchange_closed n k two kp a hk]
  have hkk2 := kkOf_bounds k two
  have hkk3 : two = true → kkOf k two = k + 1 := by intro h; simp [kkOf, h]
  have hkk4 : two = false → kkOf k two = k := by intro h; simp [kkOf, h]
  generalize kkOf k two = kk at *
  unfold tau sym
  cases two <;> simp only [reduceCtorEq, forall_const, false_and, true_and, if_false,
    Nat.max_def, Nat.min_def] at * <;> grind

end Aligator.BK
