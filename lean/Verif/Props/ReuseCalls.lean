import Verif.Props.Reuse

/-!
# C69: the trial points of a search are the points its merit function is asked at

A search that throws leaves the trial point of its last call; the steps recorded by the model are those the search looks
at, and no other: two merit functions that agree there give the same search.
-/

namespace Aligator.Reuse

variable {X V W D G : Type}

theorem nmCalls_congr (o : Linesearch.Options) (m dphi0 : ℝ) (phi phi' : ℝ → Option ℝ) (n : ℕ) (a : ℝ)
    (r : List ℝ × Ret) (h : nmCalls o m phi dphi0 n a = some r) (he : ∀ b ∈ r.1, phi' b = phi b) :
    nmCalls o m phi' dphi0 n a = some r := by
  induction n generalizing a r with
  | zero => cases h
  | succ n ih =>
    unfold nmCalls at h ⊢
    by_cases hlt : o.alphaMin < a
    · rw [if_pos hlt] at h ⊢
      cases hp : phi a with
      | none =>
        simp only [hp] at h
        obtain ⟨q, hq, rfl⟩ := Option.map_eq_some_iff.1 h
        simp only [he a (by simp), hp]
        rw [ih _ _ hq fun b hb => he b (by simp [hb])]
        rfl
      | some v =>
        simp only [hp] at h
        by_cases ha : v ≤ m + o.armijoC1 * a * dphi0
        · rw [if_pos ha] at h
          injection h with h; subst h
          simp only [he a (by simp), hp, if_pos ha]
        · rw [if_neg ha] at h
          obtain ⟨q, hq, rfl⟩ := Option.map_eq_some_iff.1 h
          simp only [he a (by simp), hp, if_neg ha]
          rw [ih _ _ hq fun b hb => he b (by simp [hb])]
          rfl
    · rw [if_neg hlt] at h ⊢
      cases hp : phi (max a o.alphaMin) with
      | none =>
        simp only [hp] at h
        injection h with h; subst h
        simp only [he (max a o.alphaMin) (by simp), hp]
      | some v =>
        simp only [hp] at h
        injection h with h; subst h
        simp only [he (max a o.alphaMin) (by simp), hp]

theorem filterFirst_congr (phi phi' : ℝ → Option (ℝ × ℝ)) (am : ℝ) (n : ℕ) (a : ℝ) (r : List ℝ × ℝ × (ℝ × ℝ))
    (h : filterFirst phi am n a = some r) (he : ∀ b ∈ r.1, phi' b = phi b) : filterFirst phi' am n a = some r := by
  induction n generalizing a r with
  | zero => cases h
  | succ n ih =>
    unfold filterFirst at h ⊢
    cases hp : phi a with
    | some p =>
      simp only [hp] at h
      injection h with h; subst h
      simp only [he a (by simp), hp]
    | none =>
      simp only [hp] at h
      by_cases hm : a * (1 / 2) ≤ am
      · rw [if_pos hm] at h
        injection h with h; subst h
        simp only [he a (by simp), hp, if_pos hm]
      · rw [if_neg hm] at h
        obtain ⟨q, hq, rfl⟩ := Option.map_eq_some_iff.1 h
        simp only [he a (by simp), hp, if_neg hm]
        rw [ih _ _ hq fun b hb => he b (by simp [hb])]
        rfl

theorem filterLoop_congr (phi phi' : ℝ → Option (ℝ × ℝ)) (n : ℕ) (s : Filter.State ℝ) (a : ℝ) (p : ℝ × ℝ)
    (he : ∀ b ∈ (filterLoop phi n s a p).1, phi' b = phi b) : filterLoop phi' n s a p = filterLoop phi n s a p := by
  induction n generalizing a p with
  | zero => rfl
  | succ n ih =>
    unfold filterLoop at he ⊢
    by_cases hacc : (Filter.acceptPair s p).2 = true
    · rw [if_pos hacc, if_pos hacc]
    · rw [if_neg hacc] at he
      rw [if_neg hacc, if_neg hacc]
      by_cases hm : a * (1 / 2) ≤ s.alphaMin
      · rw [if_pos hm] at he
        rw [if_pos hm, if_pos hm]
        cases hp : phi s.alphaMin with
        | none => rw [hp] at he; rw [he _ (by simp), hp]
        | some q => rw [hp] at he; rw [he _ (by simp), hp]
      · rw [if_neg hm] at he
        rw [if_neg hm, if_neg hm]
        cases hp : phi (a * (1 / 2)) with
        | none => rw [hp] at he; rw [he _ (by simp), hp]
        | some q =>
          rw [hp] at he
          rw [he _ (by simp), hp]
          simp only
          rw [ih _ _ fun b hb => he b (List.mem_cons_of_mem _ hb)]

/-- **C69** A search of the nonmonotone kind or of the filter, however it ends, depends on the problem only through the
merit values at the steps it records; `forwardPass` was called at exactly these, in order. -/
theorem C69_calls_are_evaluations (qr : Linesearch.Solve2) (fuel : ℕ) (sa : Strategy) (e e' : Env X V W D G)
    (s : St X V W G) (d : D) (dphi0 : ℝ) (hs : sa = .filter ∨ ∃ o st, s.ls = .nonmonotone o st) (r : Search)
    (h : search qr fuel sa e s d dphi0 = some r) (he : ∀ a ∈ r.calls, e'.pair s d a = e.pair s d a) :
    search qr fuel sa e' s d dphi0 = some r := by
  have nm : ∀ o st, s.ls = .nonmonotone o st → sa ≠ .filter → search qr fuel sa e' s d dphi0 = some r := by
    intro o st hls hsa
    have hu : ∀ E : Env X V W D G, search qr fuel sa E s d dphi0 =
        match nmCalls o (st.update (17 / 20) s.merit).movAvg (fun a => (E.pair s d a).map Prod.fst) dphi0 fuel 1 with
        | none => none
        | some (c, q) => some ⟨c, q, .nonmonotone o (st.update (17 / 20) s.merit), s.filter⟩ := by
      intro E
      unfold search
      cases sa with
      | filter => exact absurd rfl hsa
      | _ => simp only [hls]; rfl
    rw [hu] at h ⊢
    cases hc : nmCalls o (st.update (17 / 20) s.merit).movAvg (fun a => (e.pair s d a).map Prod.fst) dphi0 fuel 1 with
    | none => rw [hc] at h; cases h
    | some c =>
      rw [hc] at h
      injection h with h
      subst h
      rw [nmCalls_congr o _ dphi0 _ (fun a => (e'.pair s d a).map Prod.fst) fuel 1 c hc fun b hb => by
        simp only [he b hb]]
  have fl : sa = .filter → search qr fuel sa e' s d dphi0 = some r := by
    rintro rfl
    unfold search at h ⊢
    simp only at h ⊢
    cases hc : filterFirst (e.pair s d) s.filter.alphaMin fuel 1 with
    | none => rw [hc] at h; cases h
    | some c =>
      obtain ⟨c, a, p⟩ := c
      rw [hc] at h
      simp only at h
      injection h with h
      subst h
      rw [filterFirst_congr _ (e'.pair s d) _ _ _ _ hc fun b hb => he b (List.mem_append_left _ hb)]
      simp only
      rw [filterLoop_congr (e.pair s d) (e'.pair s d) _ _ _ _ fun b hb => he b (List.mem_append_right _ hb)]
  rcases hs with hf | ⟨o, st, hls⟩
  · exact fl hf
  · by_cases hf : sa = .filter
    · exact fl hf
    · exact nm o st hls hf

/-- A search all of whose trial points throw, with smallest step 1/2: full step, smallest step, exception. -/
example (qr : Linesearch.Solve2) (e : Env X V W D G) (s : St X V W G) (d : D) (o : Linesearch.Options)
    (st : Linesearch.NMSt) (hls : s.ls = .nonmonotone o st) (ho : o.alphaMin = 1 / 2)
    (hp : ∀ x d a, e.point x d a = .error id) :
    ∃ l f, search qr 2 .nonmonotone e s d (-1) = some ⟨[1, 1 / 2], .throws, l, f⟩ := by
  have hn : ∀ a, e.pair s d a = none := fun a => by unfold Env.pair; rw [hp]
  unfold search
  simp only [hls, nmCalls, hn, Option.map_none, ho]
  norm_num

end Aligator.Reuse
