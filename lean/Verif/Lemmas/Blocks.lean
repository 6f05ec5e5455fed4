import Verif.Model.Blocks
import Verif.Spec.Blocks
import Mathlib.Tactic

/-! # Lemmas: constraint stacks and block matrices -/

namespace Aligator.Blocks

open Spec

theorem initLoop_fst_length (ds : List ℕ) (t : ℕ) : (initLoop ds t).1.length = ds.length := by
  induction ds generalizing t with
  | nil => rfl
  | cons d ds ih => simp [initLoop, ih]

theorem initLoop_snd (ds : List ℕ) (t : ℕ) : (initLoop ds t).2 = t + ds.sum := by
  induction ds generalizing t with
  | nil => simp [initLoop]
  | cons d ds ih => simp only [initLoop, ih, List.sum_cons]; omega

theorem initLoop_get (ds : List ℕ) (t k : ℕ) (h : k < ds.length) :
    (initLoop ds t).1[k]? = some (t + (ds.take k).sum) := by
  induction ds generalizing t k with
  | nil => simp at h
  | cons d ds ih =>
    cases k with
    | zero => simp [initLoop]
    | succ k =>
      simp only [initLoop, List.getElem?_cons_succ, List.take_succ_cons, List.sum_cons]
      rw [ih (t + d) k (by simpa using h), Nat.add_assoc]

theorem sum_take_succ (ds : List ℕ) (k d : ℕ) (h : ds[k]? = some d) :
    (ds.take (k + 1)).sum = (ds.take k).sum + d := by
  rw [List.take_add_one, h]; simp

theorem sum_take_le (ds : List ℕ) {k k' : ℕ} (h : k ≤ k') : (ds.take k).sum ≤ (ds.take k').sum := by
  induction ds generalizing k k' with
  | nil => simp
  | cons d ds ih =>
    cases k with
    | zero => simp
    | succ k =>
      cases k' with
      | zero => omega
      | succ k' =>
        simp only [List.take_succ_cons, List.sum_cons]
        have := ih (k := k) (k' := k') (by omega)
        omega

theorem sum_take_le_sum (ds : List ℕ) (k : ℕ) : (ds.take k).sum ≤ ds.sum := by
  have := sum_take_le ds (k := k) (k' := max k ds.length) (le_max_left _ _)
  rwa [List.take_of_length_le (le_max_right _ _)] at this

theorem exists_interval (ds : List ℕ) (p : ℕ) (h : p < ds.sum) :
    ∃ k d, ds[k]? = some d ∧ (ds.take k).sum ≤ p ∧ p < (ds.take k).sum + d := by
  induction ds generalizing p with
  | nil => simp at h
  | cons d ds ih =>
    rw [List.sum_cons] at h
    by_cases hp : p < d
    · exact ⟨0, d, rfl, by simp, by simpa using hp⟩
    · obtain ⟨k, d', h1, h2, h3⟩ := ih (p - d) (by omega)
      exact ⟨k + 1, d', h1, by simp only [List.take_succ_cons, List.sum_cons]; omega,
        by simp only [List.take_succ_cons, List.sum_cons]; omega⟩

theorem interval_unique (ds : List ℕ) (p : ℕ) {k k' d d' : ℕ} (h : ds[k]? = some d) (h' : ds[k']? = some d')
    (h1 : (ds.take k).sum ≤ p) (h2 : p < (ds.take k).sum + d) (h3 : (ds.take k').sum ≤ p)
    (h4 : p < (ds.take k').sum + d') : k' = k := by
  rcases lt_trichotomy k k' with hlt | he | hgt
  · have := sum_take_le ds (k := k + 1) (k' := k') (by omega)
    rw [sum_take_succ ds k d h] at this
    omega
  · exact he.symm
  · have := sum_take_le ds (k := k' + 1) (k' := k) (by omega)
    rw [sum_take_succ ds k' d' h'] at this
    omega

theorem tiles_of_starts (starts ds : List ℕ) (hl : starts.length = ds.length)
    (hs : ∀ k, k < ds.length → starts[k]? = some (ds.take k).sum) : Tiles starts ds ds.sum := by
  have key : ∀ {k s d : ℕ}, starts[k]? = some s → ds[k]? = some d → s = (ds.take k).sum := by
    intro k s d h1 h2
    have hk : k < ds.length := (List.getElem?_eq_some_iff.1 h2).1
    exact Option.some.inj (h1.symm.trans (hs k hk))
  refine ⟨hl, fun p hp => ?_, fun k s d h1 h2 => ?_⟩
  · obtain ⟨k, d, h1, h2, h3⟩ := exists_interval ds p hp
    refine ⟨k, ⟨_, d, hs k (List.getElem?_eq_some_iff.1 h1).1, h1, h2, h3⟩, ?_⟩
    rintro k' ⟨s', d', h4, h5, h6, h7⟩
    obtain rfl := key h4 h5
    exact interval_unique ds p h1 h5 h2 h3 h6 h7
  · obtain rfl := key h1 h2
    rw [← sum_take_succ ds k d h2]
    exact sum_take_le_sum ds _

/-! Flat addresses -/

theorem addr_inj {s r r' c c' : ℕ} (h : r < s) (h' : r' < s) (e : r + c * s = r' + c' * s) : r = r' ∧ c = c' := by
  have hs : 0 < s := by omega
  have h1 : (r + c * s) % s = r := by rw [Nat.add_mul_mod_self_right, Nat.mod_eq_of_lt h]
  have h2 : (r' + c' * s) % s = r' := by rw [Nat.add_mul_mod_self_right, Nat.mod_eq_of_lt h']
  have h3 : (r + c * s) / s = c := by rw [Nat.add_mul_div_right _ _ hs, Nat.div_eq_of_lt h, Nat.zero_add]
  have h4 : (r' + c' * s) / s = c' := by rw [Nat.add_mul_div_right _ _ hs, Nat.div_eq_of_lt h', Nat.zero_add]
  exact ⟨by rw [← h1, e, h2], by rw [← h3, e, h4]⟩

theorem addr_lt {s n r c : ℕ} (h : r < s) (h' : c < n) : r + c * s < s * n := by
  calc r + c * s < s + c * s := by omega
    _ = s * (c + 1) := by ring
    _ ≤ s * n := Nat.mul_le_mul_left s h'

/-! Writing a list of addresses -/

variable {α : Type}

theorem foldl_set_length {β : Type} (l : List β) (addr : β → ℕ) (x : β → α) (buf : List α) :
    (l.foldl (fun buf b => buf.set (addr b) (x b)) buf).length = buf.length := by
  induction l generalizing buf with
  | nil => rfl
  | cons b l ih => simp [ih]

theorem foldl_set_other {β : Type} (l : List β) (addr : β → ℕ) (x : β → α) (buf : List α) (p : ℕ)
    (h : ∀ b ∈ l, addr b ≠ p) : (l.foldl (fun buf b => buf.set (addr b) (x b)) buf)[p]? = buf[p]? := by
  induction l generalizing buf with
  | nil => rfl
  | cons b l ih =>
    rw [List.foldl_cons, ih _ (fun b hb => h b (by simp [hb])), List.getElem?_set_ne (h b (by simp))]

theorem foldl_set_mem {β : Type} (l : List β) (addr : β → ℕ) (x : β → α) (buf : List α) (b : β) (hb : b ∈ l)
    (hinj : ∀ b' ∈ l, addr b' = addr b → x b' = x b) (hlt : addr b < buf.length) :
    (l.foldl (fun buf b => buf.set (addr b) (x b)) buf)[addr b]? = some (x b) := by
  induction l generalizing buf with
  | nil => simp at hb
  | cons c l ih =>
    rw [List.foldl_cons]
    by_cases hl : b ∈ l
    · exact ih _ hl (fun b' hb' => hinj b' (by simp [hb'])) (by simpa using hlt)
    · obtain rfl : b = c := by simpa [hl] using hb
      by_cases ho : ∀ b' ∈ l, addr b' ≠ addr b
      · rw [foldl_set_other _ _ _ _ _ ho, List.getElem?_set_self hlt]
      · push Not at ho
        obtain ⟨b', hb', e⟩ := ho
        clear ih hl hb
        have hinj' : ∀ b' ∈ l, addr b' = addr b → x b' = x b := fun b' h => hinj b' (by simp [h])
        have : ∀ buf : List α, buf[addr b]? = some (x b) →
            (l.foldl (fun buf b => buf.set (addr b) (x b)) buf)[addr b]? = some (x b) := by
          clear hinj hb' e
          induction l with
          | nil => intro buf h; exact h
          | cons c l ih =>
            intro buf h
            rw [List.foldl_cons]
            refine ih (fun b' h => hinj' b' (by simp [h])) _ ?_
            by_cases hc : addr c = addr b
            · rw [hc, List.getElem?_set_self (List.getElem?_eq_some_iff.1 h).1, hinj' c (by simp) hc]
            · rw [List.getElem?_set_ne hc, h]
        exact this _ (List.getElem?_set_self hlt)

/-- The two nested loops of a block assignment as one loop over the entries. -/
theorem View.write_eq (V : View) (buf : List α) (X : ℕ → ℕ → α) :
    V.write buf X = ((List.range V.cols).flatMap fun b => (List.range V.rows).map fun a => (a, b)).foldl
      (fun buf ab => buf.set (V.addr ab.1 ab.2) (X ab.1 ab.2)) buf := by
  unfold View.write View.writeEntry
  rw [List.foldl_flatMap]
  congr 1
  funext buf b
  rw [List.foldl_map]

end Aligator.Blocks
