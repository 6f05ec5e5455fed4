import Verif.Model.ProxDDP

/-! # Invariants of the ProxDDP loops -/

namespace Aligator.ProxDDP

variable {X V W : Type}

/-- final state of a loop -/
def Out.st : Out X V W → St X V W
  | .raised s => s
  | .stuck s => s
  | .done _ s => s

@[simp] theorem computeMultipliers_fields (e : Env X V W) (x : X) (s : St X V W) :
    (computeMultipliers e x s).x = s.x ∧ (computeMultipliers e x s).trial = s.trial ∧
    (computeMultipliers e x s).prevV = s.prevV ∧ (computeMultipliers e x s).mu = s.mu ∧
    (computeMultipliers e x s).innerTol = s.innerTol ∧ (computeMultipliers e x s).primTol = s.primTol ∧
    (computeMultipliers e x s).preg = s.preg ∧ (computeMultipliers e x s).pregLast = s.pregLast ∧
    (computeMultipliers e x s).dual = s.dual ∧ (computeMultipliers e x s).crit = s.crit ∧
    (computeMultipliers e x s).numIters = s.numIters ∧ (computeMultipliers e x s).alIter = s.alIter ∧
    (computeMultipliers e x s).log = s.log := by
  unfold computeMultipliers
  split <;> simp

/-- everything but the trial point, the workspace and `prim_infeas` is untouched by merit evaluations -/
theorem foldl_fields (e : Env X V W) (l : List X) (s : St X V W) :
    (l.foldl (forwardPass e) s).x = s.x ∧
    (l.foldl (forwardPass e) s).prevV = s.prevV ∧ (l.foldl (forwardPass e) s).mu = s.mu ∧
    (l.foldl (forwardPass e) s).innerTol = s.innerTol ∧ (l.foldl (forwardPass e) s).primTol = s.primTol ∧
    (l.foldl (forwardPass e) s).preg = s.preg ∧ (l.foldl (forwardPass e) s).pregLast = s.pregLast ∧
    (l.foldl (forwardPass e) s).dual = s.dual ∧ (l.foldl (forwardPass e) s).crit = s.crit ∧
    (l.foldl (forwardPass e) s).numIters = s.numIters ∧ (l.foldl (forwardPass e) s).alIter = s.alIter ∧
    (l.foldl (forwardPass e) s).log = s.log := by
  induction l generalizing s with
  | nil => simp
  | cons t l ih =>
    have h := ih (forwardPass e s t)
    have h2 := computeMultipliers_fields e t { s with trial := t }
    simp only [List.foldl_cons]
    simp only [forwardPass] at h ⊢
    grind

/-- the workspace and `prim_infeas` belong to the iterate -/
def Sync (e : Env X V W) (s : St X V W) : Prop :=
  e.mult s.mu s.prevV s.x = (s.ws, some s.prim)

/-- no NaN is ever produced, every step acceptance evaluates at least one trial point -/
structure Env.Regular (e : Env X V W) : Prop where
  noNaN : ∀ mu v x, (e.mult mu v x).2.isSome
  nonempty : ∀ s d a, e.oracle s ≠ .step d [] a

theorem computeMultipliers_sync {e : Env X V W} (h : e.Regular) (s : St X V W) :
    Sync e (computeMultipliers e s.x s) := by
  have hn := h.noNaN s.mu s.prevV s.x
  unfold Sync computeMultipliers
  rcases hm : e.mult s.mu s.prevV s.x with ⟨w, _ | pr⟩
  · rw [hm] at hn; cases hn
  · exact hm

theorem foldl_sync {e : Env X V W} (h : e.Regular) (l : List X) (hl : l ≠ []) (s : St X V W) :
    Sync e { l.foldl (forwardPass e) s with x := (l.foldl (forwardPass e) s).trial } := by
  induction l generalizing s with
  | nil => exact absurd rfl hl
  | cons t l ih =>
    by_cases h0 : l = []
    · subst h0
      have h1 := computeMultipliers_sync h { s with trial := t, x := t }
      have hn := h.noNaN s.mu s.prevV t
      unfold Sync at h1 ⊢
      simp only [List.foldl_cons, List.foldl_nil, forwardPass, computeMultipliers] at h1 ⊢
      rcases hm : e.mult s.mu s.prevV t with ⟨w, _ | pr⟩
      · rw [hm] at hn; cases hn
      · exact hm
    · exact ih h0 (forwardPass e s t)

theorem initReg_fields (p : Params) (s : St X V W) :
    ∃ r, initializeRegularization p s = { s with preg := r } := by
  unfold initializeRegularization
  split <;> exact ⟨_, rfl⟩

theorem incReg_fields (p : Params) (s : St X V W) :
    ∃ r, increaseRegularization p s = { s with preg := r } := by
  unfold increaseRegularization
  split <;> exact ⟨_, rfl⟩

/-- General induction principle for the inner loop: `I` holds at the loop head and is kept by one pass; `P`
holds wherever the loop may stop. -/
theorem innerIter_induct (p : Params) (e : Env X V W) (I : ℕ → St X V W → Prop) (P : Out X V W → Prop)
    (h0 : ∀ s, I 0 s → P (.done false s))
    (hret : ∀ n s, I (n + 1) s →
      ((computeCriterion e s).crit ≤ s.innerTol ∨
        ((computeCriterion e s).dual ≤ p.targetDual ∧ s.prim ≤ p.targetTol)) →
      P (.done true (computeCriterion e s)))
    (hraise : ∀ n s, I (n + 1) s →
      P (.raised ((initializeRegularization p (computeCriterion e s)).push true)))
    (hdphi : ∀ n s, I (n + 1) s →
      P (.done true ((initializeRegularization p (computeCriterion e s)).push true)))
    (hstop : ∀ n s d l a, I (n + 1) s →
      e.oracle ((initializeRegularization p (computeCriterion e s)).push true) = .step d l a →
      let s2 := l.foldl (forwardPass e) ((initializeRegularization p (computeCriterion e s)).push true)
      P (.done false { s2 with x := s2.trial }))
    (hinc : ∀ n s d l a, I (n + 1) s →
      e.oracle ((initializeRegularization p (computeCriterion e s)).push true) = .step d l a →
      let s2 := l.foldl (forwardPass e) ((initializeRegularization p (computeCriterion e s)).push true)
      let s3 := increaseRegularization p { s2 with x := s2.trial }
      s2.preg < p.regMax →
      I n { s3 with pregLast := s3.preg, numIters := s3.numIters + 1 })
    (hnext : ∀ n s d l a, I (n + 1) s →
      e.oracle ((initializeRegularization p (computeCriterion e s)).push true) = .step d l a →
      let s2 := l.foldl (forwardPass e) ((initializeRegularization p (computeCriterion e s)).push true)
      I n { s2 with x := s2.trial, pregLast := s2.preg, numIters := s2.numIters + 1 })
    (n : ℕ) (s : St X V W) (hI : I n s) : P (innerIter p e n s) := by
  induction n generalizing s with
  | zero => exact h0 s hI
  | succ n ih =>
    unfold innerIter
    dsimp only
    split
    · rename_i hc
      exact hret n s hI hc
    · split
      · exact hraise n s hI
      · rename_i d l a ho
        split
        · exact hdphi n s hI
        · split
          · split
            · exact hstop n s d l a hI ho
            · rename_i hr
              exact ih _ (hinc n s d l a hI ho (not_le.1 hr))
          · exact ih _ (hnext n s d l a hI ho)

/-- on a true return the stored dual infeasibility is the one of the returned iterate -/
theorem innerIter_dual (p : Params) (e : Env X V W) (n : ℕ) (s s' : St X V W)
    (h : innerIter p e n s = .done true s') : s'.dual = e.dualInf s'.x := by
  have := innerIter_induct p e (fun _ _ => True)
    (fun o => ∀ s', o = .done true s' → s'.dual = e.dualInf s'.x)
    (by intro s _ s' h; cases h)
    (by intro n s _ _ s' h; cases h; rfl)
    (by intro n s _ s' h; cases h)
    (by
      intro n s _ s' h
      obtain ⟨r, hr⟩ := initReg_fields p (computeCriterion e s)
      rw [hr] at h
      cases h; rfl)
    (by intro n s d l a _ _ s2 s' h; cases h)
    (by intros; trivial) (by intros; trivial) n s trivial
  exact this s' h

theorem innerIter_sync (p : Params) {e : Env X V W} (he : e.Regular) (n : ℕ) (s s' : St X V W)
    (hs : Sync e s) (h : innerIter p e n s = .done true s') :
    Sync e s' ∧ s'.mu = s.mu ∧ s'.prevV = s.prevV := by
  have key : ∀ (s1 : St X V W), Sync e s1 →
      Sync e ((initializeRegularization p (computeCriterion e s1)).push true) := by
    intro s1 h1
    obtain ⟨r, hr⟩ := initReg_fields p (computeCriterion e s1)
    rw [hr]
    exact h1
  have fm : ∀ (s1 : St X V W), ((initializeRegularization p (computeCriterion e s1)).push true).mu = s1.mu
      ∧ ((initializeRegularization p (computeCriterion e s1)).push true).prevV = s1.prevV := by
    intro s1
    obtain ⟨r, hr⟩ := initReg_fields p (computeCriterion e s1)
    rw [hr]
    exact ⟨rfl, rfl⟩
  have := innerIter_induct p e (fun _ s1 => Sync e s1 ∧ s1.mu = s.mu ∧ s1.prevV = s.prevV)
    (fun o => ∀ s', o = .done true s' → Sync e s' ∧ s'.mu = s.mu ∧ s'.prevV = s.prevV)
    (by intro s _ s' h; cases h)
    (by intro n s h1 _ s' h; cases h; exact h1)
    (by intro n s _ s' h; cases h)
    (by
      intro n s1 h1 s' h
      injection h with _ h
      rw [← h]
      exact ⟨key s1 h1.1, (fm s1).1.trans h1.2.1, (fm s1).2.trans h1.2.2⟩)
    (by intro n s d l a _ _ s2 s' h; cases h)
    (by
      intro n s1 d l a h1 ho
      dsimp only
      intro _
      have hl : l ≠ [] := by rintro rfl; exact he.nonempty _ _ _ ho
      have h2 := foldl_sync he l hl ((initializeRegularization p (computeCriterion e s1)).push true)
      have h3 := foldl_fields e l ((initializeRegularization p (computeCriterion e s1)).push true)
      obtain ⟨r, hr⟩ := incReg_fields p { l.foldl (forwardPass e)
        ((initializeRegularization p (computeCriterion e s1)).push true) with
        x := (l.foldl (forwardPass e)
        ((initializeRegularization p (computeCriterion e s1)).push true)).trial }
      rw [hr]
      refine ⟨h2, ?_, ?_⟩
      · exact h3.2.2.1.trans ((fm s1).1.trans h1.2.1)
      · exact h3.2.1.trans ((fm s1).2.trans h1.2.2))
    (by
      intro n s1 d l a h1 ho
      dsimp only
      have hl : l ≠ [] := by rintro rfl; exact he.nonempty _ _ _ ho
      have h2 := foldl_sync he l hl ((initializeRegularization p (computeCriterion e s1)).push true)
      have h3 := foldl_fields e l ((initializeRegularization p (computeCriterion e s1)).push true)
      refine ⟨h2, ?_, ?_⟩
      · exact h3.2.2.1.trans ((fm s1).1.trans h1.2.1)
      · exact h3.2.1.trans ((fm s1).2.trans h1.2.2))
    n s ⟨hs, rfl, rfl⟩
  exact this s' h

/-- the inner loop never returns `stuck` -/
theorem innerIter_not_stuck (p : Params) (e : Env X V W) (n : ℕ) (s s' : St X V W) :
    innerIter p e n s ≠ .stuck s' := by
  have := innerIter_induct p e (fun _ _ => True) (fun o => ∀ s', o ≠ .stuck s')
    (by intro s _ s' h; cases h) (by intro n s _ _ s' h; cases h)
    (by intro n s _ s' h; cases h) (by intro n s _ s' h; cases h)
    (by intro n s d l a _ _ s2 s' h; cases h)
    (by intros; trivial) (by intros; trivial) n s trivial
  exact this s'

/-- counters in the inner loop -/
theorem innerIter_counters (p : Params) (e : Env X V W) (n : ℕ) (s : St X V W) :
    (innerIter p e n s).st.numIters ≤ s.numIters + n ∧ (innerIter p e n s).st.alIter = s.alIter := by
  have key : ∀ (s1 : St X V W), ((initializeRegularization p (computeCriterion e s1)).push true).numIters
      = s1.numIters ∧ ((initializeRegularization p (computeCriterion e s1)).push true).alIter = s1.alIter := by
    intro s1
    obtain ⟨r, hr⟩ := initReg_fields p (computeCriterion e s1)
    rw [hr]
    exact ⟨rfl, rfl⟩
  refine innerIter_induct p e (fun m s1 => s1.numIters + m ≤ s.numIters + n ∧ s1.alIter = s.alIter)
    (fun o => o.st.numIters ≤ s.numIters + n ∧ o.st.alIter = s.alIter)
    ?_ ?_ ?_ ?_ ?_ ?_ ?_ n s ⟨le_rfl, rfl⟩
  · intro s1 h; exact ⟨h.1, h.2⟩
  · intro m s1 h _
    have : (computeCriterion e s1).numIters = s1.numIters := rfl
    have h2 : (computeCriterion e s1).alIter = s1.alIter := rfl
    simp only [Out.st]; omega
  · intro m s1 h; have := key s1; simp only [Out.st]; omega
  · intro m s1 h; have := key s1; simp only [Out.st]; omega
  · intro m s1 d l a h _
    dsimp only
    have := key s1
    have h3 := foldl_fields e l ((initializeRegularization p (computeCriterion e s1)).push true)
    simp only [Out.st]; omega
  · intro m s1 d l a h _
    dsimp only
    intro _
    have := key s1
    have h3 := foldl_fields e l ((initializeRegularization p (computeCriterion e s1)).push true)
    obtain ⟨r, hr⟩ := incReg_fields p { l.foldl (forwardPass e)
        ((initializeRegularization p (computeCriterion e s1)).push true) with
        x := (l.foldl (forwardPass e)
        ((initializeRegularization p (computeCriterion e s1)).push true)).trial }
    rw [hr]
    dsimp only
    omega
  · intro m s1 d l a h _
    dsimp only
    have := key s1
    have h3 := foldl_fields e l ((initializeRegularization p (computeCriterion e s1)).push true)
    omega

theorem tighten_fields (p : Params) (fuel : ℕ) (s s' : St X V W) (h : tighten p fuel s = some s') :
    ∃ a b, s' = { s with primTol := a, innerTol := b } := by
  induction fuel generalizing s with
  | zero => cases h
  | succ n ih =>
    unfold tighten at h
    dsimp only at h
    split at h
    · obtain ⟨a, b, rfl⟩ := ih _ h
      exact ⟨a, b, rfl⟩
    · cases h
      exact ⟨_, _, rfl⟩

theorem tighten_mono (p : Params) (f g : ℕ) (hfg : f ≤ g) (s s' : St X V W)
    (h : tighten p f s = some s') : tighten p g s = some s' := by
  induction f generalizing g s with
  | zero => cases h
  | succ n ih =>
    obtain ⟨g, rfl⟩ : ∃ g', g = g' + 1 := ⟨g - 1, by omega⟩
    unfold tighten at h ⊢
    dsimp only at h ⊢
    split at h
    · rename_i hc
      rw [if_pos hc]
      exact ih g (by omega) _ h
    · rename_i hc
      rw [if_neg hc]
      exact h

/-- the tightening loop terminates for a positive criterion -/
theorem tighten_terminates (p : Params) (hb : 0 < p.dualBeta) (s : St X V W) (hmu : 0 < s.mu)
    (hc : 0 < s.crit) : ∃ f s', tighten p f s = some s' := by
  set a := (min s.mu 0.99) ^ p.dualBeta with ha
  have hm : 0 < min s.mu 0.99 := lt_min hmu (by norm_num)
  have ha0 : 0 < a := Real.rpow_pos_of_pos hm _
  have ha1 : a < 1 := Real.rpow_lt_one hm.le (lt_of_le_of_lt (min_le_right _ _) (by norm_num)) hb
  have hlim : ∃ k, ¬ s.crit < s.innerTol * a ^ (k + 1) := by
    obtain ⟨k, hk⟩ := exists_pow_lt_of_lt_one (y := a) (show (0:ℝ) < s.crit / (|s.innerTol| + 1) by positivity) ha1
    refine ⟨k, ?_⟩
    rw [not_lt]
    have h1 : a ^ (k + 1) ≤ a ^ k := pow_le_pow_of_le_one ha0.le ha1.le (Nat.le_succ k)
    have h2 : a ^ (k + 1) * (|s.innerTol| + 1) ≤ s.crit := by
      rw [lt_div_iff₀ (by positivity)] at hk
      have : a ^ (k + 1) * (|s.innerTol| + 1) ≤ a ^ k * (|s.innerTol| + 1) := by gcongr
      linarith
    have h3 : s.innerTol * a ^ (k + 1) ≤ a ^ (k + 1) * (|s.innerTol| + 1) := by
      have := le_abs_self s.innerTol
      have h4 : 0 < a ^ (k + 1) := by positivity
      nlinarith
    linarith
  obtain ⟨k, hk⟩ := hlim
  induction k generalizing s with
  | zero =>
    refine ⟨1, updateTolsOnSuccess p s, ?_⟩
    unfold tighten
    dsimp only
    rw [if_neg]
    simpa [updateTolsOnSuccess, ← ha] using hk
  | succ k ih =>
    by_cases h : (updateTolsOnSuccess p s).crit < (updateTolsOnSuccess p s).innerTol
    · obtain ⟨f, s', hf⟩ := ih (updateTolsOnSuccess p s) hmu hc ha hm ha0 ha1 (by
        simp only [updateTolsOnSuccess, ← ha]
        rw [pow_succ, pow_succ] at hk
        rw [pow_succ]
        intro h2
        apply hk
        calc s.crit < _ := h2
          _ = _ := by ring)
      refine ⟨f + 1, s', ?_⟩
      unfold tighten
      dsimp only
      rw [if_pos h]
      exact hf
    · refine ⟨1, updateTolsOnSuccess p s, ?_⟩
      unfold tighten
      dsimp only
      rw [if_neg h]

/-- and never does when the criterion is not positive while the tolerance is -/
theorem tighten_diverges (p : Params) (s : St X V W) (hmu : 0 < s.mu) (ht : 0 < s.innerTol)
    (hc : s.crit ≤ 0) (f : ℕ) : tighten p f s = none := by
  induction f generalizing s with
  | zero => rfl
  | succ n ih =>
    have hm : 0 < min s.mu 0.99 := lt_min hmu (by norm_num)
    have h1 : 0 < (updateTolsOnSuccess p s).innerTol := mul_pos ht (Real.rpow_pos_of_pos hm _)
    unfold tighten
    dsimp only
    rw [if_pos (show (updateTolsOnSuccess p s).crit < _ from lt_of_le_of_lt hc h1)]
    exact ih (updateTolsOnSuccess p s) hmu h1 hc

end Aligator.ProxDDP
