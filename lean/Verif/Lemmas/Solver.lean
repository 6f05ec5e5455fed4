import Verif.Props.ProxDDP

/-! # Invariants of iterates and multiplier estimates along a run -/

namespace Aligator.ProxDDP

variable {X V W : Type}

theorem foldl_trial (e : Env X V W) (l : List X) (hl : l ≠ []) (s : St X V W) :
    (l.foldl (forwardPass e) s).trial ∈ l := by
  induction l generalizing s with
  | nil => exact absurd rfl hl
  | cons t l ih =>
    rw [List.foldl_cons]
    by_cases h0 : l = []
    · subst h0
      have := (computeMultipliers_fields e t { s with trial := t }).2.1
      simp [forwardPass, this]
    · exact List.mem_cons_of_mem _ (ih h0 _)

/-- What one inner loop leaves, for properties of the iterates kept by the step acceptance. -/
theorem innerLoop_inv' {p : Params} {e : Env X V W} (he : e.Regular) (IX : X → Prop)
    (ho : ∀ s d l a, IX s.x → e.oracle s = .step d l a → ∀ t ∈ l, IX t) {s s' : St X V W} (hx : IX s.x)
    (h : innerLoop p e s = .done true s') :
    IX s'.x ∧ s'.crit = e.innerCrit s'.x s'.ws ∧ e.mult s'.mu s'.prevV s'.x = (s'.ws, some s'.prim) ∧ s'.mu = s.mu ∧
      s'.prevV = s.prevV := by
  have h0 := computeMultipliers_sync he (s.push false)
  have h1 := innerIter_sync p he _ _ _ h0 h
  have f := computeMultipliers_fields e s.x (s.push false)
  have key : ∀ (s1 : St X V W), ((initializeRegularization p (computeCriterion e s1)).push true).x = s1.x := by
    intro s1
    obtain ⟨r, hr⟩ := initReg_fields p (computeCriterion e s1)
    rw [hr]
    rfl
  have h2 := innerIter_induct p e (fun _ s1 => IX s1.x)
    (fun o => ∀ s', o = .done true s' → IX s'.x ∧ s'.crit = e.innerCrit s'.x s'.ws)
    (by intro s _ s' h; cases h)
    (by intro n s1 h1 _ s' h; cases h; exact ⟨h1, rfl⟩)
    (by intro n s _ s' h; cases h)
    (by
      intro n s1 h1 s' h
      obtain ⟨r, hr⟩ := initReg_fields p (computeCriterion e s1)
      rw [hr] at h
      cases h
      exact ⟨h1, rfl⟩)
    (by intro n s d l a _ _ s2 s' h; cases h)
    (by
      intro n s1 d l a h1 hoc
      dsimp only
      intro _
      have hl : l ≠ [] := by rintro rfl; exact he.nonempty _ _ _ hoc
      have hm := foldl_trial e l hl ((initializeRegularization p (computeCriterion e s1)).push true)
      obtain ⟨r, hr⟩ := incReg_fields p { l.foldl (forwardPass e)
        ((initializeRegularization p (computeCriterion e s1)).push true) with
        x := (l.foldl (forwardPass e)
        ((initializeRegularization p (computeCriterion e s1)).push true)).trial }
      rw [hr]
      exact ho _ d l a (by rw [key]; exact h1) hoc _ hm)
    (by
      intro n s1 d l a h1 hoc
      dsimp only
      have hl : l ≠ [] := by rintro rfl; exact he.nonempty _ _ _ hoc
      exact ho _ d l a (by rw [key]; exact h1) hoc _
        (foldl_trial e l hl ((initializeRegularization p (computeCriterion e s1)).push true)))
    _ _ (show IX (computeMultipliers e s.x (s.push false)).x by rw [f.1]; exact hx) s' h
  exact ⟨h2.1, h2.2, h1.1, h1.2.1.trans f.2.2.2.1, h1.2.2.trans f.2.2.1⟩

theorem onFailure_fields (p : Params) (s : St X V W) :
    (onFailure p s).x = s.x ∧ (onFailure p s).prevV = s.prevV ∧ p.muLb ≤ (onFailure p s).mu := by
  unfold onFailure
  dsimp only
  split <;> exact ⟨rfl, rfl, le_max_right _ _⟩

/-- Along a run: the iterates and the multiplier estimates keep their invariants, and at a reported convergence the recorded
quantities belong to the returned iterate. -/
theorem run_inv {p : Params} (hm : 0 < p.muLb) {e : Env X V W} (he : e.Regular) (IX : X → Prop) (IV : V → Prop)
    (ho : ∀ s d l a, IX s.x → e.oracle s = .step d l a → ∀ t ∈ l, IX t)
    (hn : ∀ mu v x, IV v → IX x → IV (e.nextV x (e.mult mu v x).1))
    {fuel : ℕ} {v0 : V} {s0 s : St X V W} (hx : IX s0.x) (hv : IV v0) (h : run p e fuel v0 s0 = .done true s) :
    IX s.x ∧ 0 < s.mu ∧ s.crit = e.innerCrit s.x s.ws ∧ ∃ v, IV v ∧ e.mult s.mu v s.x = (s.ws, some s.prim) := by
  have head : ∀ n s, Head p e fuel v0 s0 n s → IX s.x ∧ IV s.prevV ∧ 0 < s.mu := by
    intro n s hh
    induction hh with
    | start => exact ⟨hx, hv, hm.trans_le (le_max_right _ _)⟩
    | @success n s s1 s2 hh hi h1 hp h2 hc ih =>
      obtain ⟨a1, a2, a3, a4, a5⟩ := innerLoop_inv' he IX ho ih.1 h1
      obtain ⟨a, b, rfl⟩ := tighten_fields p fuel s1 s2 h2
      have h3 := hn s1.mu s1.prevV s1.x (a5 ▸ ih.2.1) a1
      rw [a3] at h3
      exact ⟨a1, h3, (a4 ▸ ih.2.2 : 0 < s1.mu)⟩
    | @failure n s s1 hh hi h1 hp ih =>
      obtain ⟨a1, a2, a3, a4, a5⟩ := innerLoop_inv' he IX ho ih.1 h1
      have f := onFailure_fields p s1
      refine ⟨?_, ?_, ?_⟩
      · show IX (onFailure p s1).x
        rw [f.1]; exact a1
      · show IV (onFailure p s1).prevV
        rw [f.2.1, a5]; exact ih.2.1
      · exact hm.trans_le f.2.2
  have := run_outcome p e fuel v0 s0
    (fun o => ∀ s, o = .done true s → IX s.x ∧ 0 < s.mu ∧ s.crit = e.innerCrit s.x s.ws ∧
      ∃ v, IV v ∧ e.mult s.mu v s.x = (s.ws, some s.prim))
    (by intro s _ s' h; cases h) (by intro n s _ _ s' h; cases h) (by intro n s s1 _ _ _ s' h; cases h)
    (by intro n s s1 _ _ _ s' h; cases h) (by intro n s s1 _ _ _ _ _ s' h; cases h)
    (by
      intro n s s1 s2 hh _ h1 _ h2 hd hp s' h
      injection h with _ h
      subst h
      obtain ⟨b1, b2, b3⟩ := head _ _ hh
      obtain ⟨a1, a2, a3, a4, a5⟩ := innerLoop_inv' he IX ho b1 h1
      obtain ⟨a, b, rfl⟩ := tighten_fields p fuel s1 s2 h2
      exact ⟨a1, (a4 ▸ b3 : 0 < s1.mu), a2, s1.prevV, a5 ▸ b2, a3⟩)
  exact this s h

end Aligator.ProxDDP
