import Verif.Lemmas.ProxDDP

/-!
# Properties of ProxDDP's `run` (C16–C19)

For every behaviour of the problem functions, linear solver and step acceptance (`Env`), every parameter
setting (`Params`), every state left by earlier runs, and every number `fuel` of passes granted to the
tolerance-tightening loop.
-/

namespace Aligator.ProxDDP

variable {X V W : Type}

/-- States at the head of the outer loop during a run, with the remaining number of outer iterations. -/
inductive Head (p : Params) (e : Env X V W) (fuel : ℕ) (v0 : V) (s0 : St X V W) : ℕ → St X V W → Prop
  | start : Head p e fuel v0 s0 p.maxAlIters (initRun p v0 s0)
  | success {n s s1 s2} (h : Head p e fuel v0 s0 (n + 1) s) (hi : s.numIters < p.maxIters)
      (h1 : innerLoop p e s = .done true s1) (hp : s1.prim ≤ s1.primTol)
      (h2 : tighten p fuel s1 = some s2) (hc : ¬ (s2.dual ≤ p.targetDual ∧ s2.prim ≤ p.targetTol)) :
      Head p e fuel v0 s0 n (clamp p { s2 with prevV := e.nextV s2.x s2.ws })
  | failure {n s s1} (h : Head p e fuel v0 s0 (n + 1) s) (hi : s.numIters < p.maxIters)
      (h1 : innerLoop p e s = .done true s1) (hp : ¬ s1.prim ≤ s1.primTol) :
      Head p e fuel v0 s0 n (clamp p (onFailure p s1))

/-- The rest of the run from any state at the loop head is the run's outcome. -/
theorem run_eq_outer {p : Params} {e : Env X V W} {fuel : ℕ} {v0 : V} {s0 : St X V W} {n : ℕ}
    {s : St X V W} (h : Head p e fuel v0 s0 n s) : run p e fuel v0 s0 = outer p e fuel n s := by
  induction h with
  | start => rfl
  | success h hi h1 hp h2 hc ih =>
    rw [ih, outer, if_pos hi, h1]
    dsimp only
    rw [if_pos hp, h2]
    dsimp only
    rw [if_neg hc]
  | failure h hi h1 hp ih =>
    rw [ih, outer, if_pos hi, h1]
    dsimp only
    rw [if_neg hp]

/-- Every outcome of a run arises at some state of the loop head. -/
theorem run_outcome (p : Params) (e : Env X V W) (fuel : ℕ) (v0 : V) (s0 : St X V W)
    (P : Out X V W → Prop)
    (h0 : ∀ s, Head p e fuel v0 s0 0 s → P (.done false s))
    (hcap : ∀ n s, Head p e fuel v0 s0 (n + 1) s → ¬ s.numIters < p.maxIters → P (.done false s))
    (hr : ∀ n s s1, Head p e fuel v0 s0 (n + 1) s → s.numIters < p.maxIters →
      innerLoop p e s = .raised s1 → P (.raised s1))
    (hf : ∀ n s s1, Head p e fuel v0 s0 (n + 1) s → s.numIters < p.maxIters →
      innerLoop p e s = .done false s1 → P (.done false { s1 with alIter := s1.alIter + 1 }))
    (hs : ∀ n s s1, Head p e fuel v0 s0 (n + 1) s → s.numIters < p.maxIters →
      innerLoop p e s = .done true s1 → s1.prim ≤ s1.primTol → tighten p fuel s1 = none →
      P (.stuck s1))
    (ht : ∀ n s s1 s2, Head p e fuel v0 s0 (n + 1) s → s.numIters < p.maxIters →
      innerLoop p e s = .done true s1 → s1.prim ≤ s1.primTol → tighten p fuel s1 = some s2 →
      s2.dual ≤ p.targetDual → s2.prim ≤ p.targetTol →
      P (.done true { s2 with prevV := e.nextV s2.x s2.ws })) :
    P (run p e fuel v0 s0) := by
  suffices h : ∀ n s, Head p e fuel v0 s0 n s → P (outer p e fuel n s) from h _ _ .start
  intro n
  induction n with
  | zero => intro s hs'; exact h0 s hs'
  | succ n ih =>
    intro s hh
    unfold outer
    split
    · rename_i hi
      split
      · rename_i s1 h1; exact hr n s s1 hh hi h1
      · rename_i s1 h1; exact absurd h1 (innerIter_not_stuck _ _ _ _ _)
      · rename_i s1 h1; exact hf n s s1 hh hi h1
      · rename_i s1 h1
        split
        · rename_i hp
          split
          · rename_i h2; exact hs n s s1 hh hi h1 hp h2
          · rename_i s2 h2
            dsimp only
            split
            · rename_i hc; exact ht n s s1 s2 hh hi h1 hp h2 hc.1 hc.2
            · rename_i hc; exact ih _ (.success hh hi h1 hp h2 hc)
        · rename_i hp; exact ih _ (.failure hh hi h1 hp)
    · rename_i hi; exact hcap n s hh hi

/-! ### C16 -/

/-- **C16** `run() = true` only if the recorded infeasibilities are within the requested tolerances, and the
dual one is that of the returned iterate. -/
theorem C16_true_only_at_tolerances (p : Params) (e : Env X V W) (fuel : ℕ) (v0 : V) (s0 s : St X V W)
    (h : run p e fuel v0 s0 = .done true s) :
    s.prim ≤ p.targetTol ∧ s.dual ≤ p.targetDual ∧ s.dual = e.dualInf s.x := by
  have := run_outcome p e fuel v0 s0
    (fun o => ∀ s, o = .done true s → s.prim ≤ p.targetTol ∧ s.dual ≤ p.targetDual ∧ s.dual = e.dualInf s.x)
    (by intro s _ s' h; cases h) (by intro n s _ _ s' h; cases h) (by intro n s s1 _ _ _ s' h; cases h)
    (by intro n s s1 _ _ _ s' h; cases h) (by intro n s s1 _ _ _ _ _ s' h; cases h)
    (by
      intro n s s1 s2 _ _ h1 _ h2 hd hp s' h
      injection h with _ h
      subst h
      refine ⟨hp, hd, ?_⟩
      have h3 := innerIter_dual p e _ _ _ h1
      obtain ⟨a, b, rfl⟩ := tighten_fields p fuel s1 s2 h2
      exact h3)
  exact this s h

/-- **C16 (partial)** Moreover the recorded primal infeasibility is that of the returned iterate, for the final
penalty and the multiplier estimate of the last inner loop, provided `computeMultipliers` never meets a NaN and
every step acceptance evaluates a trial point.  Missing: runs with NaN
(`C16_NaN_run_reports_convergence`). -/
theorem C16_primal_infeasibility_of_result_partial (p : Params) (e : Env X V W) (he : e.Regular)
    (fuel : ℕ) (v0 : V) (s0 s : St X V W) (h : run p e fuel v0 s0 = .done true s) :
    ∃ v, (e.mult s.mu v s.x).2 = some s.prim := by
  have := run_outcome p e fuel v0 s0
    (fun o => ∀ s, o = .done true s → ∃ v, (e.mult s.mu v s.x).2 = some s.prim)
    (by intro s _ s' h; cases h) (by intro n s _ _ s' h; cases h) (by intro n s s1 _ _ _ s' h; cases h)
    (by intro n s s1 _ _ _ s' h; cases h) (by intro n s s1 _ _ _ _ _ s' h; cases h)
    (by
      intro n s s1 s2 _ _ h1 _ h2 hd hp s' h
      injection h with _ h
      subst h
      have h0 := computeMultipliers_sync he (s.push false)
      have h3 := (innerIter_sync p he _ _ _ h0 h1).1
      obtain ⟨a, b, rfl⟩ := tighten_fields p fuel s1 s2 h2
      exact ⟨s1.prevV, by unfold Sync at h3; dsimp only; rw [h3]⟩)
  exact this s h

/-- **C16** Hence the true constraint violation of the returned iterate is within the tolerance, for any
measure of violation bounded by the reported infeasibility (C26 shows the reported infeasibility bounds the
distance to the constraint set). -/
theorem C16_violation_within_tolerance_partial (p : Params) (e : Env X V W) (he : e.Regular)
    (viol : X → ℝ) (hv : ∀ mu v x r, (e.mult mu v x).2 = some r → viol x ≤ r)
    (fuel : ℕ) (v0 : V) (s0 s : St X V W) (h : run p e fuel v0 s0 = .done true s) :
    viol s.x ≤ p.targetTol ∧ e.dualInf s.x ≤ p.targetDual := by
  obtain ⟨v, hm⟩ := C16_primal_infeasibility_of_result_partial p e he fuel v0 s0 s h
  obtain ⟨h1, h2, h3⟩ := C16_true_only_at_tolerances p e fuel v0 s0 s h
  exact ⟨(hv _ _ _ _ hm).trans h1, h3 ▸ h2⟩

theorem head_counters {p : Params} {e : Env X V W} {fuel : ℕ} {v0 : V} {s0 : St X V W} {n : ℕ}
    {s : St X V W} (h : Head p e fuel v0 s0 n s) :
    s.alIter + n = p.maxAlIters ∧ s.numIters ≤ p.maxIters := by
  have inner : ∀ s s1 : St X V W, s.numIters ≤ p.maxIters → innerLoop p e s = .done true s1 →
      s1.alIter = s.alIter ∧ s1.numIters ≤ p.maxIters := by
    intro s s1 hs h1
    have h2 := innerIter_counters p e (p.maxIters - (computeMultipliers e s.x (s.push false)).numIters)
      (computeMultipliers e s.x (s.push false))
    have h3 := computeMultipliers_fields e s.x (s.push false)
    unfold innerLoop at h1
    dsimp only at h1
    change innerIter p e (p.maxIters - (computeMultipliers e s.x (s.push false)).numIters)
      (computeMultipliers e s.x (s.push false)) = _ at h1
    rw [h1] at h2
    have e1 : (s.push false).numIters = s.numIters := rfl
    have e2 : (s.push false).alIter = s.alIter := rfl
    simp only [Out.st] at h2
    omega
  induction h with
  | start => simp [initRun, updateTolsOnFailure, setAlmPenalty]
  | @success n s s1 s2 h hi h1 hp h2 hc ih =>
    have := inner _ _ ih.2 h1
    obtain ⟨a, b, rfl⟩ := tighten_fields p fuel _ _ h2
    simp only [clamp]
    omega
  | @failure n s s1 h hi h1 hp ih =>
    have := inner _ _ ih.2 h1
    have e1 : (clamp p (onFailure p s1)).alIter = s1.alIter + 1 := by
      unfold onFailure clamp; dsimp only; split <;> rfl
    have e2 : (clamp p (onFailure p s1)).numIters = s1.numIters := by
      unfold onFailure clamp; dsimp only; split <;> rfl
    omega

theorem innerLoop_counters {p : Params} {e : Env X V W} {s : St X V W} (hs : s.numIters ≤ p.maxIters) :
    (innerLoop p e s).st.alIter = s.alIter ∧ (innerLoop p e s).st.numIters ≤ p.maxIters := by
  have h2 := innerIter_counters p e (p.maxIters - (computeMultipliers e s.x (s.push false)).numIters)
    (computeMultipliers e s.x (s.push false))
  have h3 := computeMultipliers_fields e s.x (s.push false)
  have e1 : (s.push false).numIters = s.numIters := rfl
  have e2 : (s.push false).alIter = s.alIter := rfl
  change (innerIter p e (p.maxIters - (computeMultipliers e s.x (s.push false)).numIters)
    (computeMultipliers e s.x (s.push false))).st.alIter = _ ∧ _
  change _ ∧ (innerIter p e (p.maxIters - (computeMultipliers e s.x (s.push false)).numIters)
    (computeMultipliers e s.x (s.push false))).st.numIters ≤ _
  omega

/-- **C16** The iteration counters never exceed their limits, however the run ends. -/
theorem C16_iteration_limits (p : Params) (e : Env X V W) (fuel : ℕ) (v0 : V) (s0 : St X V W) :
    (run p e fuel v0 s0).st.numIters ≤ p.maxIters ∧ (run p e fuel v0 s0).st.alIter ≤ p.maxAlIters := by
  refine run_outcome p e fuel v0 s0
    (fun o => o.st.numIters ≤ p.maxIters ∧ o.st.alIter ≤ p.maxAlIters) ?_ ?_ ?_ ?_ ?_ ?_
  · intro s h; have := head_counters h; simp only [Out.st]; omega
  · intro n s h _; have := head_counters h; simp only [Out.st]; omega
  · intro n s s1 h _ h1
    have h2 := head_counters h; have h3 := innerLoop_counters (p := p) (e := e) h2.2
    rw [h1] at h3; simp only [Out.st] at h3 ⊢; omega
  · intro n s s1 h _ h1
    have h2 := head_counters h; have h3 := innerLoop_counters (p := p) (e := e) h2.2
    rw [h1] at h3; simp only [Out.st] at h3 ⊢; omega
  · intro n s s1 h _ h1 _ _
    have h2 := head_counters h; have h3 := innerLoop_counters (p := p) (e := e) h2.2
    rw [h1] at h3; simp only [Out.st] at h3 ⊢; omega
  · intro n s s1 s2 h _ h1 _ ht _ _
    have h2 := head_counters h; have h3 := innerLoop_counters (p := p) (e := e) h2.2
    obtain ⟨a, b, rfl⟩ := tighten_fields p fuel _ _ ht
    rw [h1] at h3; simp only [Out.st] at h3 ⊢; omega

/-- An inner loop that ends with `false` has used up its iterations or the regularisation. -/
theorem innerIter_false (p : Params) (e : Env X V W) (n : ℕ) (s s' : St X V W) (h : innerIter p e n s = .done false s') :
    (s'.numIters = s.numIters + n ∨ p.regMax ≤ s'.preg) ∧ s'.alIter = s.alIter := by
  refine ⟨?_, ?_⟩
  swap
  · have := (innerIter_counters p e n s).2
    rw [h] at this
    exact this
  induction n generalizing s with
  | zero => cases h; exact .inl rfl
  | succ n ih =>
    have key : ((initializeRegularization p (computeCriterion e s)).push true).numIters = s.numIters := by
      obtain ⟨r, hr⟩ := initReg_fields p (computeCriterion e s)
      rw [hr]; rfl
    unfold innerIter at h
    dsimp only at h
    split at h
    · cases h
    · split at h
      · cases h
      · rename_i d l a ho
        have hn : (l.foldl (forwardPass e) ((initializeRegularization p (computeCriterion e s)).push true)).numIters
            = s.numIters := by
          rw [(foldl_fields e l _).2.2.2.2.2.2.2.2.2.1, key]
        split at h
        · cases h
        · split at h
          · split at h
            · rename_i hr
              cases h
              exact .inr hr
            · rcases ih _ h with h | h
              · refine .inl (h.trans ?_)
                show (increaseRegularization p _).numIters + 1 + n = _
                have : ∀ s2 : St X V W, (increaseRegularization p s2).numIters = s2.numIters := fun s2 => by
                  unfold increaseRegularization; split <;> rfl
                rw [this]
                show (l.foldl (forwardPass e) ((initializeRegularization p (computeCriterion e s)).push true)).numIters + 1 + n = _
                omega
              · exact .inr h
          · rcases ih _ h with h | h
            · refine .inl (h.trans ?_)
              show (l.foldl (forwardPass e) ((initializeRegularization p (computeCriterion e s)).push true)).numIters + 1 + n = _
              omega
            · exact .inr h

theorem innerLoop_false (p : Params) (e : Env X V W) (s s' : St X V W) (hs : s.numIters ≤ p.maxIters)
    (h : innerLoop p e s = .done false s') : (s'.numIters = p.maxIters ∨ p.regMax ≤ s'.preg) ∧ s'.alIter = s.alIter := by
  have h3 := computeMultipliers_fields e s.x (s.push false)
  have e1 : (s.push false).numIters = s.numIters := rfl
  have e2 : (s.push false).alIter = s.alIter := rfl
  obtain ⟨h1, h2⟩ := innerIter_false p e _ _ s' h
  refine ⟨h1.imp_left fun h => ?_, ?_⟩
  · rw [h]; omega
  · rw [h2]; omega

/-- **C16** A run does not give up early: when it reports that it has not converged, all iterations or all outer iterations
are used up, or a step at the least step length was met with the largest regularisation. -/
theorem C16_false_reasons (p : Params) (e : Env X V W) (fuel : ℕ) (v0 : V) (s0 s : St X V W)
    (h : run p e fuel v0 s0 = .done false s) :
    s.numIters = p.maxIters ∨ s.alIter = p.maxAlIters ∨ p.regMax ≤ s.preg := by
  refine run_outcome p e fuel v0 s0 (fun o => o = .done false s →
    s.numIters = p.maxIters ∨ s.alIter = p.maxAlIters ∨ p.regMax ≤ s.preg) ?_ ?_ ?_ ?_ ?_ ?_ h
  · intro s1 h1 e1; cases e1
    have := head_counters h1; exact .inr (.inl (by omega))
  · intro n s1 h1 h2 e1; cases e1
    have := head_counters h1; exact .inl (by omega)
  · intro n s1 s2 _ _ _ e1; cases e1
  · intro n s1 s2 h1 h2 h3 e1; cases e1
    have := innerLoop_false p e s1 s2 (head_counters h1).2 h3
    rcases this.1 with h | h
    · exact .inl h
    · exact .inr (.inr h)
  · intro n s1 s2 _ _ _ _ _ e1; cases e1
  · intro n s1 s2 s3 _ _ _ _ _ _ _ e1; cases e1

/-! ### C17 -/

/-- at the head of the outer loop the intermediate primal tolerance is at least the final one -/
theorem head_primTol {p : Params} {e : Env X V W} {fuel : ℕ} {v0 : V} {s0 : St X V W} {n : ℕ}
    {s : St X V W} (h : Head p e fuel v0 s0 n s) : p.targetTol ≤ s.primTol := by
  cases h with
  | start => exact le_max_right _ _
  | success => exact le_max_right _ _
  | failure => exact le_max_right _ _

theorem innerIter_primTol (p : Params) (e : Env X V W) (n : ℕ) (s : St X V W) :
    (innerIter p e n s).st.primTol = s.primTol ∧ (innerIter p e n s).st.mu = s.mu := by
  have key : ∀ (s1 : St X V W), ((initializeRegularization p (computeCriterion e s1)).push true).primTol
      = s1.primTol ∧ ((initializeRegularization p (computeCriterion e s1)).push true).mu = s1.mu := by
    intro s1
    obtain ⟨r, hr⟩ := initReg_fields p (computeCriterion e s1)
    rw [hr]
    exact ⟨rfl, rfl⟩
  refine innerIter_induct p e (fun m s1 => s1.primTol = s.primTol ∧ s1.mu = s.mu)
    (fun o => o.st.primTol = s.primTol ∧ o.st.mu = s.mu) ?_ ?_ ?_ ?_ ?_ ?_ ?_ n s ⟨rfl, rfl⟩
  · intro s1 h; exact h
  · intro m s1 h _; exact h
  · intro m s1 h; exact ⟨(key s1).1.trans h.1, (key s1).2.trans h.2⟩
  · intro m s1 h; exact ⟨(key s1).1.trans h.1, (key s1).2.trans h.2⟩
  · intro m s1 d l a h _
    dsimp only
    have h3 := foldl_fields e l ((initializeRegularization p (computeCriterion e s1)).push true)
    exact ⟨h3.2.2.2.2.1.trans ((key s1).1.trans h.1), h3.2.2.1.trans ((key s1).2.trans h.2)⟩
  · intro m s1 d l a h _
    dsimp only
    intro _
    have h3 := foldl_fields e l ((initializeRegularization p (computeCriterion e s1)).push true)
    obtain ⟨r, hr⟩ := incReg_fields p { l.foldl (forwardPass e)
        ((initializeRegularization p (computeCriterion e s1)).push true) with
        x := (l.foldl (forwardPass e)
        ((initializeRegularization p (computeCriterion e s1)).push true)).trial }
    rw [hr]
    exact ⟨h3.2.2.2.2.1.trans ((key s1).1.trans h.1), h3.2.2.1.trans ((key s1).2.trans h.2)⟩
  · intro m s1 d l a h _
    dsimp only
    have h3 := foldl_fields e l ((initializeRegularization p (computeCriterion e s1)).push true)
    exact ⟨h3.2.2.2.2.1.trans ((key s1).1.trans h.1), h3.2.2.1.trans ((key s1).2.trans h.2)⟩

theorem innerLoop_keeps {p : Params} {e : Env X V W} (s : St X V W) :
    (innerLoop p e s).st.primTol = s.primTol ∧ (innerLoop p e s).st.mu = s.mu := by
  have h := innerIter_primTol p e (p.maxIters - (computeMultipliers e s.x (s.push false)).numIters)
    (computeMultipliers e s.x (s.push false))
  have h3 := computeMultipliers_fields e s.x (s.push false)
  exact ⟨h.1.trans h3.2.2.2.2.2.1, h.2.trans h3.2.2.2.1⟩

/-- **C17** At any point of a run, if the inner loop returns an iterate that satisfies both final tolerances,
the run ends at once and reports convergence with that iterate, unless it hangs in the tolerance-tightening
loop (which needs a non-positive criterion, C19). -/
theorem C17_no_late_rejection (p : Params) (e : Env X V W) (fuel : ℕ) (v0 : V) (s0 : St X V W) (n : ℕ)
    (s s1 : St X V W) (h : Head p e fuel v0 s0 (n + 1) s) (hi : s.numIters < p.maxIters)
    (h1 : innerLoop p e s = .done true s1) (hd : s1.dual ≤ p.targetDual) (hp : s1.prim ≤ p.targetTol) :
    (∃ s', run p e fuel v0 s0 = .done true s' ∧ s'.x = s1.x ∧ s'.prim = s1.prim ∧ s'.dual = s1.dual) ∨
    (run p e fuel v0 s0 = .stuck s1 ∧ tighten p fuel s1 = none) := by
  have hk := innerLoop_keeps (p := p) (e := e) s
  rw [h1] at hk
  have hpt : s1.prim ≤ s1.primTol := by
    have := head_primTol h
    have h2 : s1.primTol = s.primTol := hk.1
    rw [h2]; linarith
  rw [run_eq_outer h, outer, if_pos hi, h1]
  dsimp only
  rw [if_pos hpt]
  rcases ht : tighten p fuel s1 with _ | s2
  · exact .inr ⟨rfl, rfl⟩
  · left
    obtain ⟨a, b, rfl⟩ := tighten_fields p fuel _ _ ht
    dsimp only
    rw [if_pos ⟨hd, hp⟩]
    exact ⟨_, rfl, rfl, rfl, rfl⟩

/-! ### C18 -/

/-- Sensible parameters. -/
structure Params.Valid (p : Params) : Prop where
  muLb : 0 < p.muLb
  muFactor0 : 0 ≤ p.muFactor
  muFactor1 : p.muFactor ≤ 1
  targetDual : 0 ≤ p.targetDual
  regMin : 0 < p.regMin
  regMinMax : p.regMin ≤ p.regMax
  regInitMax : p.regInit ≤ p.regMax
  regInc : 1 ≤ p.regInc
  regIncFirst : 1 ≤ p.regIncFirst
  regDec0 : 0 ≤ p.regDec
  regDec1 : p.regDec ≤ 1

/-- upper bound on the regularisation -/
noncomputable def Params.regBound (p : Params) : ℝ := p.regMax * max p.regInc p.regIncFirst

/-- the bounds claimed for one recorded event -/
def Ev.Good (p : Params) (ev : Ev) : Prop :=
  p.muLb ≤ ev.mu ∧ ev.mu ≤ max p.muInit p.muLb ∧ p.targetTol ≤ ev.primTol ∧
  0.01 * p.targetDual ≤ ev.innerTol ∧ (ev.lq = true → p.regMin ≤ ev.preg ∧ ev.preg ≤ p.regBound)

/-- invariant of the state at loop heads -/
structure Inv (p : Params) (s : St X V W) : Prop where
  mu0 : p.muLb ≤ s.mu
  mu1 : s.mu ≤ max p.muInit p.muLb
  prim : p.targetTol ≤ s.primTol
  inner : 0.01 * p.targetDual ≤ s.innerTol
  reg0 : s.pregLast ≤ p.regBound
  reg1 : 0 ≤ s.pregLast
  log : ∀ ev ∈ s.log, ev.Good p

theorem regMax_le_bound {p : Params} (hp : p.Valid) : p.regMax ≤ p.regBound := by
  have h1 := hp.regInc
  have h2 : p.regInc ≤ max p.regInc p.regIncFirst := le_max_left _ _
  have h3 := hp.regMin.trans_le hp.regMinMax
  unfold Params.regBound
  nlinarith

theorem inv_lq {p : Params} (hp : p.Valid) (e : Env X V W) (s : St X V W) (h : Inv p s) :
    Inv p ((initializeRegularization p (computeCriterion e s)).push true) ∧
    p.regMin ≤ ((initializeRegularization p (computeCriterion e s)).push true).preg ∧
    ((initializeRegularization p (computeCriterion e s)).push true).preg ≤ p.regBound := by
  have hb := regMax_le_bound hp
  have hpreg : ∀ r, initializeRegularization p (computeCriterion e s) = { computeCriterion e s with preg := r } →
      p.regMin ≤ r ∧ r ≤ p.regBound := by
    intro r hr
    have hr' : (initializeRegularization p (computeCriterion e s)).preg = r := by rw [hr]
    rw [← hr']
    unfold initializeRegularization
    split
    · exact ⟨le_max_right _ _, max_le (hp.regInitMax.trans hb) (hp.regMinMax.trans hb)⟩
    · refine ⟨le_max_left _ _, max_le (hp.regMinMax.trans hb) ?_⟩
      have h1 : s.pregLast * p.regDec ≤ s.pregLast := by nlinarith [h.reg1, hp.regDec1]
      exact h1.trans h.reg0
  obtain ⟨r, hr⟩ := initReg_fields p (computeCriterion e s)
  have h2 := hpreg r hr
  rw [hr]
  refine ⟨⟨h.mu0, h.mu1, h.prim, h.inner, h.reg0, h.reg1, ?_⟩, h2.1, h2.2⟩
  intro ev hev
  simp only [St.push, computeCriterion, List.mem_cons] at hev
  rcases hev with rfl | hev
  · exact ⟨h.mu0, h.mu1, h.prim, h.inner, fun _ => h2⟩
  · exact h.log ev hev

theorem Inv.fold {p : Params} (e : Env X V W) (l : List X) {s : St X V W} (h : Inv p s) (x : X) :
    Inv p { l.foldl (forwardPass e) s with x := x } := by
  have h3 := foldl_fields e l s
  obtain ⟨-, -, f1, f2, f3, -, f4, -, -, -, -, f5⟩ := h3
  exact ⟨f1 ▸ h.mu0, f1 ▸ h.mu1, f3 ▸ h.prim, f2 ▸ h.inner, f4 ▸ h.reg0, f4 ▸ h.reg1, f5 ▸ h.log⟩

theorem innerIter_inv {p : Params} (hp : p.Valid) (e : Env X V W) (n : ℕ) (s : St X V W) (hs : Inv p s) :
    Inv p (innerIter p e n s).st := by
  refine innerIter_induct p e (fun _ s1 => Inv p s1) (fun o => Inv p o.st) ?_ ?_ ?_ ?_ ?_ ?_ ?_ n s hs
  · intro s1 h; exact h
  · intro m s1 h _; exact ⟨h.mu0, h.mu1, h.prim, h.inner, h.reg0, h.reg1, h.log⟩
  · intro m s1 h; exact (inv_lq hp e s1 h).1
  · intro m s1 h; exact (inv_lq hp e s1 h).1
  · intro m s1 d l a h _; exact ((inv_lq hp e s1 h).1).fold e l _
  · intro m s1 d l a h _
    dsimp only
    intro hreg
    have h1 := inv_lq hp e s1 h
    set s2 := (initializeRegularization p (computeCriterion e s1)).push true with hs2
    have h2 := h1.1.fold e l (l.foldl (forwardPass e) s2).trial
    have h3 := foldl_fields e l s2
    have hpreg : 0 ≤ (l.foldl (forwardPass e) s2).preg := by
      rw [h3.2.2.2.2.2.1]; exact hp.regMin.le.trans h1.2.1
    unfold increaseRegularization
    split
    · refine ⟨h2.mu0, h2.mu1, h2.prim, h2.inner, ?_, ?_, h2.log⟩
      · show (l.foldl (forwardPass e) s2).preg * p.regIncFirst ≤ p.regBound
        have : p.regIncFirst ≤ max p.regInc p.regIncFirst := le_max_right _ _
        exact mul_le_mul hreg.le this (zero_le_one.trans hp.regIncFirst) (hpreg.trans hreg.le)
      · exact mul_nonneg hpreg (zero_le_one.trans hp.regIncFirst)
    · refine ⟨h2.mu0, h2.mu1, h2.prim, h2.inner, ?_, ?_, h2.log⟩
      · show (l.foldl (forwardPass e) s2).preg * p.regInc ≤ p.regBound
        have : p.regInc ≤ max p.regInc p.regIncFirst := le_max_left _ _
        exact mul_le_mul hreg.le this (zero_le_one.trans hp.regInc) (hpreg.trans hreg.le)
      · exact mul_nonneg hpreg (zero_le_one.trans hp.regInc)
  · intro m s1 d l a h _
    dsimp only
    have h1 := inv_lq hp e s1 h
    set s2 := (initializeRegularization p (computeCriterion e s1)).push true with hs2
    have h2 := h1.1.fold e l (l.foldl (forwardPass e) s2).trial
    have h3 := foldl_fields e l s2
    refine ⟨h2.mu0, h2.mu1, h2.prim, h2.inner, ?_, ?_, h2.log⟩
    · show (l.foldl (forwardPass e) s2).preg ≤ _
      rw [h3.2.2.2.2.2.1]; exact h1.2.2
    · show 0 ≤ (l.foldl (forwardPass e) s2).preg
      rw [h3.2.2.2.2.2.1]; exact hp.regMin.le.trans h1.2.1

theorem innerLoop_inv {p : Params} (hp : p.Valid) (e : Env X V W) (s : St X V W) (h : Inv p s) :
    Inv p (innerLoop p e s).st := by
  unfold innerLoop
  apply innerIter_inv hp
  have h3 := computeMultipliers_fields e s.x (s.push false)
  obtain ⟨-, -, -, f4, f5, f6, -, f8, -, -, -, -, f13⟩ := h3
  refine ⟨?_, ?_, ?_, ?_, ?_, ?_, ?_⟩
  · rw [f4]; exact h.mu0
  · rw [f4]; exact h.mu1
  · rw [f6]; exact h.prim
  · rw [f5]; exact h.inner
  · rw [f8]; exact h.reg0
  · rw [f8]; exact h.reg1
  · rw [f13]
    intro ev hev
    simp only [St.push, List.mem_cons] at hev
    rcases hev with rfl | hev
    · exact ⟨h.mu0, h.mu1, h.prim, h.inner, fun hh => by cases hh⟩
    · exact h.log ev hev

theorem onFailure_mu {p : Params} (hp : p.Valid) (s : St X V W) (h : Inv p s) :
    p.muLb ≤ (onFailure p s).mu ∧ (onFailure p s).mu ≤ max p.muInit p.muLb := by
  unfold onFailure
  dsimp only
  split
  · exact ⟨le_max_right _ _, le_rfl⟩
  · refine ⟨le_max_right _ _, max_le ?_ (le_max_right _ _)⟩
    have := h.mu0; have h2 := hp.muLb; have h3 := hp.muFactor1
    have : s.mu * p.muFactor ≤ s.mu := by nlinarith
    exact this.trans h.mu1

theorem head_inv {p : Params} (hp : p.Valid) {e : Env X V W} {fuel : ℕ} {v0 : V} {s0 : St X V W} {n : ℕ}
    {s : St X V W} (h : Head p e fuel v0 s0 n s) : Inv p s := by
  induction h with
  | start =>
    have hb := regMax_le_bound hp
    have h0 : (0:ℝ) ≤ p.regBound := (hp.regMin.le.trans hp.regMinMax).trans hb
    refine ⟨le_max_right _ _, le_rfl, le_max_right _ _, ?_, h0, le_rfl, ?_⟩
    · refine le_trans ?_ (le_max_right _ _)
      have := hp.targetDual
      linarith
    · intro ev hev; cases hev
  | @success n s s1 s2 h hi h1 hp' h2 hc ih =>
    have := innerLoop_inv hp e s ih
    rw [h1] at this
    have h3 : Inv p s1 := this
    obtain ⟨a, b, rfl⟩ := tighten_fields p fuel _ _ h2
    exact ⟨h3.mu0, h3.mu1, le_max_right _ _, le_max_right _ _, h3.reg0, h3.reg1, h3.log⟩
  | @failure n s s1 h hi h1 hp' ih =>
    have := innerLoop_inv hp e s ih
    rw [h1] at this
    have h3 : Inv p s1 := this
    have h4 := onFailure_mu hp s1 h3
    have e1 : (clamp p (onFailure p s1)).pregLast = s1.pregLast := by
      unfold onFailure clamp; dsimp only; split <;> rfl
    have e2 : (clamp p (onFailure p s1)).log = s1.log := by
      unfold onFailure clamp; dsimp only; split <;> rfl
    refine ⟨h4.1, h4.2, le_max_right _ _, le_max_right _ _, ?_, ?_, ?_⟩
    · rw [e1]; exact h3.reg0
    · rw [e1]; exact h3.reg1
    · rw [e2]; exact h3.log

/-- **C18** Whenever an inner loop starts and whenever the LQ subproblem is solved, in any run however it
ends: the penalty lies between its lower bound and the (clamped) initial value, the primal tolerance is at least
the target tolerance, the inner tolerance at least a hundredth of the target dual tolerance, and the
regularisation used in the LQ subproblem lies between `reg_min` and `reg_max` times the largest increase factor. -/
theorem C18_parameter_bounds (p : Params) (hp : p.Valid) (e : Env X V W) (fuel : ℕ) (v0 : V)
    (s0 : St X V W) (ev : Ev) (hev : ev ∈ (run p e fuel v0 s0).st.log) :
    p.muLb ≤ ev.mu ∧ ev.mu ≤ max p.muInit p.muLb ∧ p.targetTol ≤ ev.primTol ∧
    0.01 * p.targetDual ≤ ev.innerTol ∧
    (ev.lq = true → p.regMin ≤ ev.preg ∧ ev.preg ≤ p.regMax * max p.regInc p.regIncFirst) := by
  have : ∀ ev ∈ (run p e fuel v0 s0).st.log, ev.Good p := by
    refine run_outcome p e fuel v0 s0 (fun o => ∀ ev ∈ o.st.log, ev.Good p) ?_ ?_ ?_ ?_ ?_ ?_
    · intro s h; exact (head_inv hp h).log
    · intro n s h _; exact (head_inv hp h).log
    · intro n s s1 h _ h1
      have h2 := innerLoop_inv hp e s (head_inv hp h); rw [h1] at h2; exact h2.log
    · intro n s s1 h _ h1
      have h2 := innerLoop_inv hp e s (head_inv hp h); rw [h1] at h2; exact h2.log
    · intro n s s1 h _ h1 _ _
      have h2 := innerLoop_inv hp e s (head_inv hp h); rw [h1] at h2; exact h2.log
    · intro n s s1 s2 h _ h1 _ ht _ _
      have h2 := innerLoop_inv hp e s (head_inv hp h); rw [h1] at h2
      obtain ⟨a, b, rfl⟩ := tighten_fields p fuel _ _ ht
      exact h2.log
  exact this ev hev

/-! ### C19 -/

/-- **C19 (partial)** If the inner criterion is never exactly zero, every run ends (returns or throws): some
finite number of passes of the tolerance-tightening loops is enough.  All other loops of `run` are bounded by
`max_iters` and `max_al_iters`; the loops of the step acceptance strategies are treated in C22, C24, C25.
Missing: criterion zero, where the run hangs (`C19_zero_criterion_hangs`). -/
theorem C19_run_terminates_partial (p : Params) (hp : p.Valid) (hb : 0 < p.dualBeta) (e : Env X V W)
    (hc : ∀ x w, 0 < e.innerCrit x w) (v0 : V) (s0 : St X V W) :
    ∃ F, ∀ fuel ≥ F, ∀ s, run p e fuel v0 s0 ≠ .stuck s := by
  have crit : ∀ n s s1, innerIter p e n s = .done true s1 → 0 < s1.crit := by
    intro n s s1 h
    have := innerIter_induct p e (fun _ _ => True) (fun o => ∀ s1, o = .done true s1 → 0 < s1.crit)
      (by intro s _ s' h; cases h) (by intro n s _ _ s' h; cases h; exact hc _ _)
      (by intro n s _ s' h; cases h)
      (by
        intro n s _ s' h
        obtain ⟨r, hr⟩ := initReg_fields p (computeCriterion e s)
        rw [hr] at h
        cases h; exact hc _ _)
      (by intro n s d l a _ _ s2 s' h; cases h)
      (by intros; trivial) (by intros; trivial) n s trivial
    exact this s1 h
  suffices h : ∀ n (s : St X V W), Inv p s → ∃ F, ∀ fuel ≥ F, ∀ s', outer p e fuel n s ≠ .stuck s' from
    h _ _ (head_inv hp (Head.start (e := e) (fuel := 0)))
  intro n
  induction n with
  | zero => intro s _; exact ⟨0, fun fuel _ s' h => by cases h⟩
  | succ n ih =>
    intro s hs
    by_cases hi : s.numIters < p.maxIters
    swap
    · exact ⟨0, fun fuel _ s' h => by rw [outer, if_neg hi] at h; cases h⟩
    have hin := innerLoop_inv hp e s hs
    rcases h1 : innerLoop p e s with s1 | s1 | ⟨b, s1⟩
    · exact ⟨0, fun fuel _ s' h => by rw [outer, if_pos hi, h1] at h; cases h⟩
    · exact absurd h1 (innerIter_not_stuck _ _ _ _ _)
    rw [h1] at hin
    have hin : Inv p s1 := hin
    cases b with
    | false => exact ⟨0, fun fuel _ s' h => by rw [outer, if_pos hi, h1] at h; cases h⟩
    | true =>
      by_cases hpr : s1.prim ≤ s1.primTol
      · obtain ⟨f, s2, hf⟩ := tighten_terminates p hb s1 (hp.muLb.trans_le hin.mu0) (crit _ _ _ h1)
        obtain ⟨a, b, rfl⟩ := tighten_fields p f _ _ hf
        by_cases hcv : s1.dual ≤ p.targetDual ∧ s1.prim ≤ p.targetTol
        · refine ⟨f, fun fuel hfu s' h => ?_⟩
          rw [outer, if_pos hi, h1] at h
          dsimp only at h
          rw [if_pos hpr, tighten_mono p f fuel hfu _ _ hf] at h
          dsimp only at h
          rw [if_pos hcv] at h
          cases h
        · have hin2 : Inv p (clamp p { s1 with primTol := a, innerTol := b, prevV := e.nextV s1.x s1.ws }) :=
            ⟨hin.mu0, hin.mu1, le_max_right _ _, le_max_right _ _, hin.reg0, hin.reg1, hin.log⟩
          obtain ⟨F, hF⟩ := ih _ hin2
          refine ⟨max f F, fun fuel hfu s' h => ?_⟩
          rw [outer, if_pos hi, h1] at h
          dsimp only at h
          rw [if_pos hpr, tighten_mono p f fuel (le_of_max_le_left hfu) _ _ hf] at h
          dsimp only at h
          rw [if_neg hcv] at h
          exact hF fuel (le_of_max_le_right hfu) s' h
      · have h4 := onFailure_mu hp s1 hin
        have hin2 : Inv p (clamp p (onFailure p s1)) := by
          have e1 : (clamp p (onFailure p s1)).pregLast = s1.pregLast := by
            unfold onFailure clamp; dsimp only; split <;> rfl
          have e2 : (clamp p (onFailure p s1)).log = s1.log := by
            unfold onFailure clamp; dsimp only; split <;> rfl
          refine ⟨h4.1, h4.2, le_max_right _ _, le_max_right _ _, ?_, ?_, ?_⟩
          · rw [e1]; exact hin.reg0
          · rw [e1]; exact hin.reg1
          · rw [e2]; exact hin.log
        obtain ⟨F, hF⟩ := ih _ hin2
        refine ⟨F, fun fuel hfu s' h => ?_⟩
        rw [outer, if_pos hi, h1] at h
        dsimp only at h
        rw [if_neg hpr] at h
        exact hF fuel hfu s' h

/-- **C19 (negation)** If the starting point is feasible for the first outer iteration and its inner criterion is
exactly zero (a warm start at an exact solution), `run` never returns in exact arithmetic: the
tolerance-tightening loop multiplies a positive tolerance by a positive factor for ever. -/
theorem C19_zero_criterion_hangs (p : Params) (hp : p.Valid) (ht0 : 0 < p.innerTol0) (hit : 0 < p.maxIters)
    (hal : 0 < p.maxAlIters) (e : Env X V W) (v0 : V) (s0 : St X V W) (w : W)
    (hm : e.mult (max p.muInit p.muLb) v0 s0.x = (w, some 0)) (hc : e.innerCrit s0.x w = 0)
    (htol : 0 ≤ p.targetTol) (fuel : ℕ) :
    ∃ s, run p e fuel v0 s0 = .stuck s := by
  obtain ⟨m, hm'⟩ : ∃ m, p.maxAlIters = m + 1 := ⟨p.maxAlIters - 1, by omega⟩
  obtain ⟨k, hk⟩ : ∃ k, p.maxIters = k + 1 := ⟨p.maxIters - 1, by omega⟩
  set s := initRun p v0 s0 with hs
  have f1 : s.mu = max p.muInit p.muLb := rfl
  have f2 : s.prevV = v0 := rfl
  have f3 : s.x = s0.x := rfl
  have f4 : s.numIters = 0 := rfl
  have hmu : 0 < s.mu := hp.muLb.trans_le (le_max_right _ _)
  have f5 : 0 < s.innerTol := by
    refine lt_of_lt_of_le ?_ (le_max_left _ _)
    exact mul_pos ht0 (Real.rpow_pos_of_pos (lt_min hmu (by norm_num)) _)
  have f6 : p.targetTol ≤ s.primTol := le_max_right _ _
  have hcm : computeMultipliers e s.x (s.push false) = { s.push false with ws := w, prim := 0 } := by
    unfold computeMultipliers
    have : e.mult (s.push false).mu (s.push false).prevV s.x = (w, some 0) := hm
    rw [this]
  have hin : innerLoop p e s = .done true (computeCriterion e { s.push false with ws := w, prim := 0 }) := by
    unfold innerLoop
    dsimp only
    change innerIter p e (p.maxIters - (computeMultipliers e s.x (s.push false)).numIters)
      (computeMultipliers e s.x (s.push false)) = _
    rw [hcm]
    have : p.maxIters - ({ s.push false with ws := w, prim := (0:ℝ) } : St X V W).numIters = k + 1 := by
      rw [hk]; show k + 1 - s.numIters = k + 1; rw [f4]; rfl
    rw [this, innerIter]
    dsimp only
    rw [if_pos]
    left
    show e.innerCrit s0.x w ≤ s.innerTol
    rw [hc]; exact f5.le
  unfold run
  rw [hm', outer, if_pos (by rw [← hs, f4]; exact hit), ← hs, hin]
  dsimp only
  rw [if_pos (show (computeCriterion e { s.push false with ws := w, prim := 0 }).prim ≤
    (computeCriterion e { s.push false with ws := w, prim := 0 }).primTol from htol.trans f6)]
  rw [tighten_diverges p (computeCriterion e { s.push false with ws := w, prim := 0 }) hmu f5
    (show e.innerCrit s0.x w ≤ 0 from hc.le)]
  exact ⟨_, rfl⟩

/-! ### Witnesses -/

/-- The default parameters of the code (with `tol = 1e-6`). -/
noncomputable def defaultParams : Params where
  targetTol := 1e-6
  targetDual := 1e-6
  muInit := 0.01
  muLb := 1e-8
  muFactor := 0.01
  primAlpha := 0.1
  primBeta := 0.9
  dualAlpha := 1
  dualBeta := 1
  innerTol0 := 1
  primTol0 := 1
  regMin := 1e-10
  regMax := 1e9
  regInit := 1e-9
  regInc := 10
  regIncFirst := 100
  regDec := 1 / 3
  dphiThresh := 1e-13
  alphaMin := 1e-6
  closeEps := 2 ^ (-52 : ℤ)
  maxIters := 1000
  maxAlIters := 100

theorem defaultParams_valid : defaultParams.Valid := by
  constructor <;> norm_num [defaultParams]

/-- fresh solver state -/
def freshSt : St Unit Unit Unit :=
  { x := (), trial := (), prevV := (), ws := (), mu := 0, innerTol := 0, primTol := 0, preg := 0,
    pregLast := 0, prim := 0, dual := 0, crit := 0, numIters := 0, alIter := 0, log := [] }

/-- a problem whose constraint value is NaN at the only iterate; stationary (the NaN entries do not enter the
dual infeasibility; `lpNorm<Infinity>` and `std::max` drop NaN), inner criterion `1` -/
def nanEnv : Env Unit Unit Unit :=
  { mult := fun _ _ _ => ((), none), dualInf := fun _ => 0, innerCrit := fun _ _ => 1,
    nextV := fun _ _ => (), oracle := fun _ => .raises }

/-- **C16 (negation for NaN)** `innerLoop` ignores the failure of `computeMultipliers`, so a fresh solver
(`prim_infeas = 0`) run on a problem whose constraint is NaN at the initial guess reports convergence although
no infeasibility was ever computed. -/
theorem C16_NaN_run_reports_convergence (fuel : ℕ) (hf : 0 < fuel) :
    (∃ s, run defaultParams nanEnv fuel () freshSt = .done true s) ∧
    ∀ mu v x, (nanEnv.mult mu v x).2 = none := by
  refine ⟨?_, fun _ _ _ => rfl⟩
  set s := initRun defaultParams () freshSt with hs
  have f4 : s.numIters = 0 := rfl
  have f7 : s.prim = 0 := rfl
  have hmu : s.mu = 0.01 := by
    show max (0.01:ℝ) 1e-8 = 0.01
    norm_num
  have f5 : s.innerTol = 0.01 := by
    show max ((1:ℝ) * (min s.mu 0.99) ^ (1:ℝ)) 1e-6 = 0.01
    rw [hmu, Real.rpow_one]
    norm_num
  have f6 : (1e-6 : ℝ) ≤ s.primTol := le_max_right _ _
  have hin : innerLoop defaultParams nanEnv s = .done true (computeCriterion nanEnv (s.push false)) := by
    unfold innerLoop
    dsimp only
    change innerIter defaultParams nanEnv (1000 - s.numIters) (s.push false) = _
    rw [f4, innerIter]
    dsimp only
    rw [if_pos]
    right
    refine ⟨?_, ?_⟩
    · show (0:ℝ) ≤ 1e-6
      norm_num
    · show (0:ℝ) ≤ 1e-6
      norm_num
  obtain ⟨m, rfl⟩ : ∃ m, fuel = m + 1 := ⟨fuel - 1, by omega⟩
  unfold run
  rw [show defaultParams.maxAlIters = 99 + 1 from rfl, outer,
    if_pos (by rw [← hs, f4]; show 0 < 1000; omega), ← hs, hin]
  dsimp only
  have hp0 : (computeCriterion nanEnv (s.push false)).prim ≤ (computeCriterion nanEnv (s.push false)).primTol := by
    show (0:ℝ) ≤ s.primTol
    refine le_trans ?_ f6
    norm_num
  rw [if_pos hp0, tighten]
  rw [if_neg]
  · dsimp only
    rw [if_pos]
    · exact ⟨_, rfl⟩
    · constructor
      · show (0:ℝ) ≤ 1e-6
        norm_num
      · show (0:ℝ) ≤ 1e-6
        norm_num
  · show ¬ (1:ℝ) < s.innerTol * (min s.mu 0.99) ^ (1:ℝ)
    rw [f5, hmu, Real.rpow_one]
    norm_num

/-- a well-behaved problem: the iterate is a number, the primal infeasibility its distance to 1, the step jumps
to the solution -/
noncomputable def goodEnv : Env ℝ Unit Unit :=
  { mult := fun _ _ x => ((), some |x - 1|), dualInf := fun x => |x - 1|, innerCrit := fun x _ => |x - 1| + 1,
    nextV := fun _ _ => (), oracle := fun _ => .step 1 [5, 1] 1 }

theorem goodEnv_regular : goodEnv.Regular :=
  ⟨fun _ _ _ => rfl, fun _ _ _ h => by cases h⟩

/-- Non-vacuity (C16): the same with at most one iteration makes the step and reports that it has not converged. -/
example : ∃ s, run { defaultParams with maxIters := 1 } goodEnv 1 () { freshSt with x := (0:ℝ), trial := 0 } = .done false s ∧
    s.numIters = 1 := by
  set p : Params := { defaultParams with maxIters := 1 } with hp
  set s := initRun p () ({ freshSt with x := (0:ℝ), trial := 0 } : St ℝ Unit Unit) with hs
  have f4 : s.numIters = 0 := rfl
  have hx : s.x = 0 := rfl
  have hmu : s.mu = 0.01 := by
    show max (0.01:ℝ) 1e-8 = 0.01
    norm_num
  have f5 : s.innerTol = 0.01 := by
    show max ((1:ℝ) * (min s.mu 0.99) ^ (1:ℝ)) 1e-6 = 0.01
    rw [hmu, Real.rpow_one]
    norm_num
  have hin : ∃ s1, innerLoop p goodEnv s = .done false s1 ∧ s1.numIters = 1 := by
    unfold innerLoop
    dsimp only
    change ∃ s1, innerIter p goodEnv (1 - s.numIters) { s.push false with ws := (), prim := |s.x - 1| } = _ ∧ _
    rw [f4, innerIter]
    dsimp only
    rw [if_neg]
    · have ho : ∀ q, goodEnv.oracle q = .step 1 [5, 1] 1 := fun _ => rfl
      rw [ho]
      dsimp only
      rw [if_neg (by show ¬ |(1:ℝ)| ≤ 1e-13; norm_num), if_neg (by show ¬ (1:ℝ) ≤ 1e-6; norm_num)]
      rw [innerIter]
      refine ⟨_, rfl, ?_⟩
      obtain ⟨r, hr⟩ := initReg_fields p (computeCriterion goodEnv { s.push false with ws := (), prim := |s.x - 1| })
      rw [hr]
      rfl
    · rintro (h | h)
      · have h2 : |s.x - 1| + 1 ≤ s.innerTol := h
        rw [f5] at h2
        have := abs_nonneg (s.x - 1)
        norm_num at h2
        linarith
      · have h2 : |s.x - 1| ≤ 1e-6 := h.1
        rw [hx] at h2
        norm_num at h2
  obtain ⟨s1, h1, h2⟩ := hin
  unfold run
  rw [show p.maxAlIters = 99 + 1 from rfl, outer, if_pos (by rw [← hs, f4]; show 0 < 1; omega), ← hs, h1]
  exact ⟨_, rfl, h2⟩

/-- Non-vacuity (C16, C17, C18, C19): with the default parameters and a start at distance 1 from the solution the
run makes a step, then reports convergence. -/
example : ∃ s, run defaultParams goodEnv 1 () { freshSt with x := (0:ℝ), trial := 0 } = .done true s ∧
    s.x = 1 ∧ s.numIters = 1 := by
  set s := initRun defaultParams () ({ freshSt with x := (0:ℝ), trial := 0 } : St ℝ Unit Unit) with hs
  have f4 : s.numIters = 0 := rfl
  have hx : s.x = 0 := rfl
  have hmu : s.mu = 0.01 := by
    show max (0.01:ℝ) 1e-8 = 0.01
    norm_num
  have f5 : s.innerTol = 0.01 := by
    show max ((1:ℝ) * (min s.mu 0.99) ^ (1:ℝ)) 1e-6 = 0.01
    rw [hmu, Real.rpow_one]
    norm_num
  have f6 : (1e-6 : ℝ) ≤ s.primTol := le_max_right _ _
  have hin : ∃ s1, innerLoop defaultParams goodEnv s = .done true s1 ∧ s1.x = 1 ∧ s1.numIters = 1 ∧
      s1.prim = 0 ∧ s1.dual = 0 ∧ s1.crit = 1 ∧ s1.innerTol = 0.01 ∧ s1.primTol = s.primTol ∧
      s1.mu = 0.01 := by
    unfold innerLoop
    dsimp only
    change ∃ s1, innerIter defaultParams goodEnv (1000 - s.numIters)
      { s.push false with ws := (), prim := |s.x - 1| } = _ ∧ _
    rw [f4, innerIter]
    dsimp only
    rw [if_neg]
    · have ho : ∀ q, goodEnv.oracle q = .step 1 [5, 1] 1 := fun _ => rfl
      rw [ho]
      dsimp only
      rw [if_neg (by show ¬ |(1:ℝ)| ≤ 1e-13; norm_num), if_neg (by show ¬ (1:ℝ) ≤ 1e-6; norm_num)]
      rw [show 999 = 998 + 1 from rfl, innerIter]
      dsimp only
      obtain ⟨r, hr⟩ := initReg_fields defaultParams (computeCriterion goodEnv
        { s.push false with ws := (), prim := |s.x - 1| })
      rw [hr, if_pos]
      · refine ⟨_, rfl, rfl, rfl, ?_, ?_, ?_, f5, rfl, hmu⟩
        · show |(1:ℝ) - 1| = 0
          norm_num
        · show |(1:ℝ) - 1| = 0
          norm_num
        · show |(1:ℝ) - 1| + 1 = 1
          norm_num
      · right
        constructor
        · show |(1:ℝ) - 1| ≤ 1e-6
          norm_num
        · show |(1:ℝ) - 1| ≤ 1e-6
          norm_num
    · rintro (h | h)
      · have h2 : |s.x - 1| + 1 ≤ s.innerTol := h
        rw [f5] at h2
        have := abs_nonneg (s.x - 1)
        norm_num at h2
        linarith
      · have : |s.x - 1| ≤ 1e-6 := h.2
        rw [hx] at this
        norm_num at this
  obtain ⟨s1, h1, hx1, hn1, hp1, hd1, hc1, hi1, ht1, hm1⟩ := hin
  unfold run
  rw [show defaultParams.maxAlIters = 99 + 1 from rfl, outer,
    if_pos (by rw [← hs, f4]; show 0 < 1000; omega), ← hs, h1]
  dsimp only
  rw [if_pos (by rw [hp1, ht1]; refine le_trans ?_ f6; norm_num), tighten]
  rw [if_neg]
  · dsimp only
    rw [if_pos]
    · exact ⟨_, rfl, hx1, hn1⟩
    · constructor
      · show s1.dual ≤ 1e-6
        rw [hd1]; norm_num
      · show s1.prim ≤ 1e-6
        rw [hp1]; norm_num
  · show ¬ s1.crit < s1.innerTol * (min s1.mu 0.99) ^ (1:ℝ)
    rw [hc1, hi1, hm1, Real.rpow_one]
    norm_num

/-- Non-vacuity of C19's negation: an exact stationary point. -/
example (fuel : ℕ) : ∃ s, run defaultParams
    { nanEnv with mult := fun _ _ _ => ((), some 0), innerCrit := fun _ _ => 0 } fuel () freshSt = .stuck s :=
  C19_zero_criterion_hangs defaultParams defaultParams_valid (by norm_num [defaultParams])
    (by norm_num [defaultParams]) (by norm_num [defaultParams]) _ () freshSt () rfl rfl
    (by norm_num [defaultParams]) fuel

end Aligator.ProxDDP
