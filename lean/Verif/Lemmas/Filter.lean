import Verif.Model.Filter
import Verif.Spec.Filter
import Mathlib.Tactic.Linarith
import Mathlib.Tactic.NormNum
import Mathlib.Tactic.Ring
import Mathlib.Algebra.Order.Archimedean.Basic

set_option linter.unusedSectionVars false

namespace Aligator.Filter

variable {R : Type*} [Field R] [LinearOrder R] [IsStrictOrderedRing R]

theorem dominates_refl (e : R × R) : Dominates e e := ⟨le_refl _, le_refl _⟩
theorem dominates_trans {a b c : R × R} (h₁ : Dominates a b) (h₂ : Dominates b c) :
    Dominates a c := ⟨h₁.1.trans h₂.1, h₁.2.trans h₂.2⟩
theorem dominates_antisymm {a b : R × R} (h₁ : Dominates a b) (h₂ : Dominates b a) : a = b :=
  Prod.ext (le_antisymm h₁.1 h₂.1) (le_antisymm h₁.2 h₂.2)

theorem blocks_zero (e f : R × R) : blocks 0 e f = true ↔ Dominates e f := by
  simp [blocks, Dominates]

theorem dominatedBy_iff (e f : R × R) : dominatedBy f e = true ↔ Dominates f e := by
  simp [dominatedBy, Dominates]

/-- The invariant tying the stored pairs to the candidates seen since the last reset. -/
structure Inv (s : State R) (cs : List (R × R)) : Prop where
  beta : s.beta = 0
  front : ∀ e, e ∈ s.pairs ↔ ParetoMinimal cs e
  cover : ∀ c ∈ cs, ∃ e ∈ s.pairs, Dominates e c
  nodup : s.pairs.Nodup

theorem acceptPair_flag {s : State R} {cs : List (R × R)} (h : Inv s cs) (f : R × R) :
    (acceptPair s f).2 = true ↔ ∀ c ∈ cs, ¬ Dominates c f := by
  unfold acceptPair
  split
  · rename_i hb
    simp only [Bool.false_eq_true, false_iff, not_forall, not_not]
    obtain ⟨e, he, hd⟩ := List.any_eq_true.1 hb
    rw [h.beta, blocks_zero] at hd
    exact ⟨e, ((h.front e).1 he).1, hd⟩
  · rename_i hb
    simp only [true_iff]
    intro c hc hd
    obtain ⟨e, he, hec⟩ := h.cover c hc
    apply hb
    rw [List.any_eq_true]
    exact ⟨e, he, by rw [h.beta, blocks_zero]; exact dominates_trans hec hd⟩

theorem acceptPair_inv {s : State R} {cs : List (R × R)} (h : Inv s cs) (f : R × R) :
    Inv (acceptPair s f).1 (cs ++ [f]) := by
  by_cases hacc : (acceptPair s f).2 = true
  · have hnd := (acceptPair_flag h f).1 hacc
    have hs : (acceptPair s f).1 =
        { s with pairs := s.pairs.filter (fun e => !dominatedBy f e) ++ [f] } := by
      unfold acceptPair at hacc ⊢
      split
      · rename_i hb; simp [hb] at hacc
      · rfl
    rw [hs]
    have hmem : ∀ e, e ∈ s.pairs.filter (fun e => !dominatedBy f e) ++ [f] ↔
        (e ∈ s.pairs ∧ ¬ Dominates f e) ∨ e = f := by
      intro e
      rw [List.mem_append, List.mem_filter, List.mem_singleton]
      have : (!dominatedBy f e) = true ↔ ¬ Dominates f e := by
        rw [← dominatedBy_iff]; simp
      rw [this]
    constructor
    · exact h.beta
    · intro e
      rw [hmem]
      constructor
      · rintro (⟨he, hfe⟩ | rfl)
        · have hm := (h.front e).1 he
          refine ⟨List.mem_append_left _ hm.1, ?_⟩
          intro c hc hd
          rcases List.mem_append.1 hc with hc | hc
          · exact hm.2 c hc hd
          · rw [List.mem_singleton] at hc; subst hc; exact absurd hd hfe
        · refine ⟨by simp, ?_⟩
          intro c hc hd
          rcases List.mem_append.1 hc with hc | hc
          · exact absurd hd (hnd c hc)
          · simpa using hc
      · rintro ⟨he, hmin⟩
        by_cases hef : e = f
        · exact Or.inr hef
        · left
          have he' : e ∈ cs := by
            rcases List.mem_append.1 he with he | he
            · exact he
            · exact absurd (by simpa using he) hef
          refine ⟨(h.front e).2 ⟨he', fun c hc => hmin c (List.mem_append_left _ hc)⟩, ?_⟩
          intro hd
          exact hef (hmin f (by simp) hd).symm
    · intro c hc
      rcases List.mem_append.1 hc with hc | hc
      · obtain ⟨e, he, hec⟩ := h.cover c hc
        by_cases hfe : Dominates f e
        · exact ⟨f, (hmem f).2 (Or.inr rfl), dominates_trans hfe hec⟩
        · exact ⟨e, (hmem e).2 (Or.inl ⟨he, hfe⟩), hec⟩
      · rw [List.mem_singleton] at hc; subst hc
        exact ⟨c, (hmem c).2 (Or.inr rfl), dominates_refl c⟩
    · refine List.nodup_append.2 ⟨h.nodup.filter _, by simp, ?_⟩
      intro e he b hef hb
      rw [List.mem_singleton] at hef
      subst hef; subst hb
      have hm := (h.front e).1 (List.mem_of_mem_filter he)
      exact hnd e hm.1 (dominates_refl e)
  · have hs : (acceptPair s f).1 = s := by
      unfold acceptPair at hacc ⊢
      split
      · rfl
      · rename_i hb; simp [hb] at hacc
    rw [hs]
    have hd : ∃ c ∈ cs, Dominates c f := by
      by_contra hcon
      push Not at hcon
      exact hacc ((acceptPair_flag h f).2 hcon)
    obtain ⟨c, hc, hcf⟩ := hd
    obtain ⟨e, he, hec⟩ := h.cover c hc
    have hef := dominates_trans hec hcf
    have hem := (h.front e).1 he
    constructor
    · exact h.beta
    · intro e'
      rw [h.front]
      constructor
      · rintro ⟨h1, h2⟩
        refine ⟨List.mem_append_left _ h1, ?_⟩
        intro c' hc' hd'
        rcases List.mem_append.1 hc' with hc' | hc'
        · exact h2 c' hc' hd'
        · rw [List.mem_singleton] at hc'; subst hc'
          have := h2 e hem.1 (dominates_trans hef hd')
          subst this
          exact dominates_antisymm hd' hef
      · rintro ⟨h1, h2⟩
        have h2' : ∀ c ∈ cs, Dominates c e' → c = e' :=
          fun c hc => h2 c (List.mem_append_left _ hc)
        rcases List.mem_append.1 h1 with h1 | h1
        · exact ⟨h1, h2'⟩
        · rw [List.mem_singleton] at h1; subst h1
          have := h2' e hem.1 hef
          subst this
          exact ⟨hem.1, h2'⟩
    · intro c' hc'
      rcases List.mem_append.1 hc' with hc' | hc'
      · exact h.cover c' hc'
      · rw [List.mem_singleton] at hc'; subst hc'; exact ⟨e, he, hef⟩
    · exact h.nodup

theorem reset_inv (a : R) (n : Nat) : Inv (reset 0 a n) ([] : List (R × R)) :=
  ⟨rfl, by simp [reset, ParetoMinimal], by simp, by simp [reset]⟩

theorem foldl_inv {s : State R} {cs : List (R × R)} (h : Inv s cs) (ds : List (R × R)) :
    Inv (ds.foldl (fun s f => (acceptPair s f).1) s) (cs ++ ds) := by
  induction ds generalizing s cs with
  | nil => simpa using h
  | cons d ds ih =>
    have := ih (acceptPair_inv h d)
    simpa using this

/-- Halving reaches any positive bound. -/
theorem runFirst_some [Archimedean R] (phi : R → Option (R × R)) {amin : R} (hmin : 0 < amin)
    (a : R) : ∃ fuel, (runFirst phi amin fuel a).isSome := by
  have key : ∀ n : Nat, ∀ a : R, a * (1/2)^n ≤ amin → (runFirst phi amin (n+1) a).isSome := by
    intro n
    induction n with
    | zero =>
      intro a ha
      simp only [runFirst]
      cases h : phi a with
      | some p => simp
      | none =>
        have : a * (1/2) ≤ amin := by
          simp at ha
          by_cases h0 : 0 ≤ a
          · linarith
          · push Not at h0; linarith
        simp only [this, if_true, Option.isSome_some]
    | succ n ih =>
      intro a ha
      rw [runFirst]
      cases h : phi a with
      | some p => simp
      | none =>
        dsimp only
        split
        · simp
        · have e : a * (1/2) * (1/2)^n = a * (1/2)^(n+1) := by ring
          exact ih _ (by rw [e]; exact ha)
  by_cases ha : a ≤ 0
  · exact ⟨1, key 0 a (by simp; linarith)⟩
  · push Not at ha
    obtain ⟨n, hn⟩ := exists_pow_lt_of_lt_one (div_pos hmin ha) (by norm_num : (1/2:R) < 1)
    refine ⟨n+1, key n a ?_⟩
    have := mul_lt_mul_of_pos_left hn ha
    rw [mul_div_cancel₀ _ (ne_of_gt ha)] at this
    exact this.le

theorem runFirst_spec (phi : R → Option (R × R)) (amin : R) (fuel : Nat) (a : R)
    (a' : R) (p : R × R) (h : runFirst phi amin fuel a = some (a', p)) (ha : amin ≤ a) (h0 : 0 ≤ a) :
    amin ≤ a' ∧ a' ≤ a ∧ (phi a' = some p ∨ (a' = amin ∧ p = (0, 0))) := by
  induction fuel generalizing a with
  | zero => simp [runFirst] at h
  | succ n ih =>
    rw [runFirst] at h
    cases hp : phi a with
    | some q =>
      rw [hp] at h
      simp only [Option.some.injEq, Prod.mk.injEq] at h
      obtain ⟨rfl, rfl⟩ := h
      exact ⟨ha, le_refl _, Or.inl hp⟩
    | none =>
      rw [hp] at h
      dsimp only at h
      split at h
      · simp only [Option.some.injEq, Prod.mk.injEq] at h
        obtain ⟨rfl, rfl⟩ := h
        exact ⟨le_refl _, ha, Or.inr ⟨rfl, rfl⟩⟩
      · rename_i hlt
        push Not at hlt
        obtain ⟨h1, h2, h3⟩ := ih _ h hlt.le (by linarith)
        exact ⟨h1, by linarith, h3⟩

end Aligator.Filter
