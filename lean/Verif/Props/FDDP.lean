import Verif.Model.FDDP
import Verif.Lemmas.Linesearch

/-!
# C20 FDDP: convergence flag, iteration and regularisation bounds
-/

namespace Aligator.FDDP

open Linesearch (Fl)

variable {X : Type}

/-- the final state, whatever the outcome -/
def Out.st : Out X → St X
  | .raised s => s
  | .done s => s

/-- Induction over the loop: an invariant of the states at the loop head, kept by each iteration that continues,
and a conclusion for each way to leave. -/
theorem loop_induct (p : Params) (e : Env X) (I : ℕ → St X → Prop) (Q : Out X → Prop)
    (hend : ∀ s, I 0 s → Q (.done s))
    (hraise : ∀ n s s', I (n + 1) s → s'.preg = s.preg → s'.iters = s.iters → s'.conv = s.conv →
      (s'.regs = s.regs ∨ s'.regs = s.preg :: s.regs) → Q (.raised s'))
    (hconv : ∀ n s prim dual, I (n + 1) s → maxNorm (e.gaps s.x) = .fin prim →
      maxNorm (e.grads s.x s.preg) = .fin dual → max prim dual < p.targetTol →
      Q (.done { s with prim := .fin prim, dual := .fin dual, regs := s.preg :: s.regs, conv := true }))
    (hgrad : ∀ n s prim dual phi0 t, I (n + 1) s → e.search s.x s.preg phi0 = some t → |t.d1| < p.thGrad →
      Q (.done { s with prim := .fin prim, dual := .fin dual, regs := s.preg :: s.regs, cost := .fin t.cost,
                        x := t.x, conv := true }))
    (hstop : ∀ n s prim dual (t : Step X) r, I (n + 1) s → (r = s.preg ∨ r = decreaseReg p s.preg) →
      increaseReg p r = p.regMax →
      Q (.done { s with prim := .fin prim, dual := .fin dual, regs := s.preg :: s.regs, cost := .fin t.cost,
                        x := t.x, preg := increaseReg p r, conv := false }))
    (hnext : ∀ n s prim dual (t : Step X) r r', I (n + 1) s → (r = s.preg ∨ r = decreaseReg p s.preg) →
      (r' = r ∨ r' = increaseReg p r) →
      I n { s with prim := .fin prim, dual := .fin dual, regs := s.preg :: s.regs, cost := .fin t.cost,
                   x := t.x, preg := r', iters := s.iters + 1 }) :
    ∀ n s, I n s → Q (loop p e n s) := by
  intro n
  induction n with
  | zero => intro s h; exact hend s h
  | succ n ih =>
    intro s h
    rw [loop]
    cases h1 : maxNorm (e.gaps s.x) with
    | nan => exact hraise n s _ h rfl rfl rfl (Or.inl rfl)
    | inf b => exact hraise n s _ h rfl rfl rfl (Or.inl rfl)
    | fin prim =>
      dsimp only
      cases h2 : maxNorm (e.grads s.x s.preg) with
      | nan => exact hraise n s _ h rfl rfl rfl (Or.inr rfl)
      | inf b => exact hraise n s _ h rfl rfl rfl (Or.inr rfl)
      | fin dual =>
        dsimp only
        split_ifs with h3
        · exact hconv n s prim dual h h1 h2 h3
        · cases h4 : s.cost with
          | nan => exact hraise n s _ h rfl rfl rfl (Or.inr rfl)
          | inf b => exact hraise n s _ h rfl rfl rfl (Or.inr rfl)
          | fin phi0 =>
            dsimp only
            cases h5 : e.search s.x s.preg phi0 with
            | none => exact hraise n s _ h rfl rfl rfl (Or.inr rfl)
            | some t =>
              dsimp only
              have hr : (if p.thStepDec < t.alpha then decreaseReg p s.preg else s.preg) = s.preg ∨
                  (if p.thStepDec < t.alpha then decreaseReg p s.preg else s.preg) = decreaseReg p s.preg := by
                split_ifs
                · exact Or.inr rfl
                · exact Or.inl rfl
              generalize (if p.thStepDec < t.alpha then decreaseReg p s.preg else s.preg) = r at hr
              split_ifs with h6 h7 h8
              · exact hgrad n s prim dual phi0 t h h5 h6
              · exact hstop n s prim dual t r h hr h8
              · exact ih _ (hnext n s prim dual t r _ h hr (Or.inr rfl))
              · exact ih _ (hnext n s prim dual t r _ h hr (Or.inl rfl))

/-- `true` is returned for one of two reasons: the stopping criterion holds at the returned iterate, with the reported
infeasibilities being those of the iterate, or the slope of the last line search was below the threshold.  Missing for
the full claim: the criterion in the second case, refuted below. -/
theorem C20_true_reasons_partial (p : Params) (e : Env X) (x : X) (cost prim dual : Fl) {s : St X}
    (h : run p e x cost prim dual = .done s) (hc : s.conv = true) :
    (∃ a b, s.prim = .fin a ∧ s.dual = .fin b ∧ maxNorm (e.gaps s.x) = .fin a ∧
        maxNorm (e.grads s.x s.preg) = .fin b ∧ max a b < p.targetTol) ∨
      ∃ y phi0 t, e.search y s.preg phi0 = some t ∧ |t.d1| < p.thGrad ∧ s.x = t.x ∧ s.cost = .fin t.cost := by
  have key := loop_induct p e (fun _ s => s.conv = false)
    (fun o => ∀ s, o = .done s → s.conv = true →
      (∃ a b, s.prim = .fin a ∧ s.dual = .fin b ∧ maxNorm (e.gaps s.x) = .fin a ∧
        maxNorm (e.grads s.x s.preg) = .fin b ∧ max a b < p.targetTol) ∨
      ∃ y phi0 t, e.search y s.preg phi0 = some t ∧ |t.d1| < p.thGrad ∧ s.x = t.x ∧ s.cost = .fin t.cost)
    (by rintro s hs _ ⟨⟩ hc; rw [hs] at hc; cases hc)
    (by rintro n s s' hs _ _ _ _ _ ⟨⟩)
    (by rintro n s a b hs h1 h2 h3 _ ⟨⟩ _; exact Or.inl ⟨a, b, rfl, rfl, h1, h2, h3⟩)
    (by rintro n s a b phi0 t hs h1 h2 _ ⟨⟩ _; exact Or.inr ⟨s.x, phi0, t, h1, h2, rfl, rfl⟩)
    (by rintro n s a b t r hs _ _ _ ⟨⟩ hc; cases hc)
    (by intro n s a b t r r' hs _ _; exact hs)
    p.maxIters ⟨x, p.regInit, cost, prim, dual, false, 0, []⟩ rfl
  exact key s h hc

/-- The iteration counter never exceeds `max_iters`, one backward pass per counted iteration plus at most one, and a
run that uses up its iterations returns `false`; also when an exception is raised. -/
theorem C20_iteration_bound (p : Params) (e : Env X) (x : X) (cost prim dual : Fl) :
    (run p e x cost prim dual).st.iters ≤ p.maxIters ∧
      (run p e x cost prim dual).st.regs.length ≤ (run p e x cost prim dual).st.iters + 1 ∧
      (run p e x cost prim dual).st.regs.length ≤ p.maxIters ∧
      ((run p e x cost prim dual).st.iters = p.maxIters → (run p e x cost prim dual).st.conv = false) := by
  refine loop_induct p e
    (fun n s => s.iters + n = p.maxIters ∧ s.regs.length = s.iters ∧ s.conv = false)
    (fun o => o.st.iters ≤ p.maxIters ∧ o.st.regs.length ≤ o.st.iters + 1 ∧ o.st.regs.length ≤ p.maxIters ∧
      (o.st.iters = p.maxIters → o.st.conv = false))
    ?_ ?_ ?_ ?_ ?_ ?_ p.maxIters ⟨x, p.regInit, cost, prim, dual, false, 0, []⟩ ⟨by simp, rfl, rfl⟩
  · rintro s ⟨h1, h2, h3⟩
    simp only [Out.st]; exact ⟨by omega, by omega, by omega, fun _ => h3⟩
  · rintro n s s' ⟨h1, h2, h3⟩ e1 e2 e3 e4
    simp only [Out.st]
    rw [e2, e3]
    rcases e4 with e4 | e4 <;> rw [e4]
    · exact ⟨by omega, by omega, by omega, fun _ => h3⟩
    · simp only [List.length_cons]; exact ⟨by omega, by omega, by omega, fun _ => h3⟩
  · rintro n s a b ⟨h1, h2, h3⟩ _ _ _
    simp only [Out.st, List.length_cons]; exact ⟨by omega, by omega, by omega, fun _ => by omega⟩
  · rintro n s a b phi0 t ⟨h1, h2, h3⟩ _ _
    simp only [Out.st, List.length_cons]; exact ⟨by omega, by omega, by omega, fun _ => by omega⟩
  · rintro n s a b t r ⟨h1, h2, h3⟩ _ _
    exact ⟨by simp only [Out.st]; omega, by simp only [Out.st, List.length_cons]; omega,
      by simp only [Out.st, List.length_cons]; omega, fun _ => rfl⟩
  · rintro n s a b t r r' ⟨h1, h2, h3⟩ _ _
    exact ⟨by dsimp only; omega, by simp only [List.length_cons]; omega, h3⟩

/-- The regularisation stays in `[reg_min, reg_max]`, at every backward pass and at the end, if it starts there. -/
theorem C20_regularisation_bounds_partial (p : Params) (e : Env X) (x : X) (cost prim dual : Fl)
    (h0 : 0 ≤ p.regMin) (hi : p.regMin ≤ p.regInit ∧ p.regInit ≤ p.regMax)
    (hd : p.regDec ≤ 1) (hinc : 1 ≤ p.regInc) :
    let s := (run p e x cost prim dual).st
    (p.regMin ≤ s.preg ∧ s.preg ≤ p.regMax) ∧ ∀ r ∈ s.regs, p.regMin ≤ r ∧ r ≤ p.regMax := by
  have hdec : ∀ r, p.regMin ≤ r ∧ r ≤ p.regMax → p.regMin ≤ decreaseReg p r ∧ decreaseReg p r ≤ p.regMax := by
    rintro r ⟨h1, h2⟩
    exact ⟨le_max_right _ _, max_le (by nlinarith) (by linarith)⟩
  have hincr : ∀ r, p.regMin ≤ r ∧ r ≤ p.regMax → p.regMin ≤ increaseReg p r ∧ increaseReg p r ≤ p.regMax := by
    rintro r ⟨h1, h2⟩
    exact ⟨le_min (by nlinarith) (by linarith), min_le_right _ _⟩
  have hcons : ∀ (r : ℝ) (l : List ℝ), (p.regMin ≤ r ∧ r ≤ p.regMax) → (∀ q ∈ l, p.regMin ≤ q ∧ q ≤ p.regMax) →
      ∀ q ∈ r :: l, p.regMin ≤ q ∧ q ≤ p.regMax := by
    intro r l h1 h2 q hq
    rcases List.mem_cons.mp hq with rfl | hq
    · exact h1
    · exact h2 q hq
  have hr : ∀ s r, (p.regMin ≤ s ∧ s ≤ p.regMax) → (r = s ∨ r = decreaseReg p s) → p.regMin ≤ r ∧ r ≤ p.regMax := by
    rintro s r hs (rfl | rfl)
    · exact hs
    · exact hdec s hs
  refine loop_induct p e
    (fun _ s => (p.regMin ≤ s.preg ∧ s.preg ≤ p.regMax) ∧ ∀ r ∈ s.regs, p.regMin ≤ r ∧ r ≤ p.regMax)
    (fun o => (p.regMin ≤ o.st.preg ∧ o.st.preg ≤ p.regMax) ∧ ∀ r ∈ o.st.regs, p.regMin ≤ r ∧ r ≤ p.regMax)
    ?_ ?_ ?_ ?_ ?_ ?_ p.maxIters ⟨x, p.regInit, cost, prim, dual, false, 0, []⟩ ⟨hi, by simp⟩
  · intro s hs; exact hs
  · rintro n s s' ⟨h1, h2⟩ e1 - - e4
    simp only [Out.st]
    rw [e1]
    rcases e4 with e4 | e4 <;> rw [e4]
    · exact ⟨h1, h2⟩
    · exact ⟨h1, hcons _ _ h1 h2⟩
  · rintro n s a b ⟨h1, h2⟩ _ _ _; exact ⟨h1, hcons _ _ h1 h2⟩
  · rintro n s a b phi0 t ⟨h1, h2⟩ _ _; exact ⟨h1, hcons _ _ h1 h2⟩
  · rintro n s a b t r ⟨h1, h2⟩ e1 _; exact ⟨hincr _ (hr _ _ h1 e1), hcons _ _ h1 h2⟩
  · rintro n s a b t r r' ⟨h1, h2⟩ e1 (rfl | rfl)
    · exact ⟨hr _ _ h1 e1, hcons _ _ h1 h2⟩
    · exact ⟨hincr _ (hr _ _ h1 e1), hcons _ _ h1 h2⟩

/-! ### Defaults and counterexamples -/

/-- defaults of solver-fddp.hpp:47-63, 93-96 -/
noncomputable def defaultParams : Params where
  targetTol := 1e-6
  regInit := 1e-9
  regMin := 1e-9
  regMax := 1e9
  regDec := 0.1
  regInc := 10
  thGrad := 1e-12
  thStepDec := 0.5
  thStepInc := 0.01
  maxIters := 200

/-- the defaults meet the hypotheses of the regularisation bound -/
example : 0 ≤ defaultParams.regMin ∧
    (defaultParams.regMin ≤ defaultParams.regInit ∧ defaultParams.regInit ≤ defaultParams.regMax) ∧
    defaultParams.regDec ≤ 1 ∧ 1 ≤ defaultParams.regInc := by
  simp only [defaultParams]; norm_num

theorem maxNorm_single {a : ℝ} (h : 0 ≤ a) : maxNorm [.fin a] = .fin a := by
  rcases h.lt_or_eq with h | h
  · simp [maxNorm, stdMax, h]
  · simp [maxNorm, stdMax, ← h]

/-- `true` with an infeasible iterate: gap and gradient one, zero slope in the line search. -/
theorem C20_converges_while_infeasible :
    ∃ (e : Env Unit) (s : St Unit), run defaultParams e () (.fin 0) (.fin 0) (.fin 0) = .done s ∧ s.conv = true ∧
      maxNorm (e.gaps s.x) = .fin 1 ∧ maxNorm (e.grads s.x s.preg) = .fin 1 ∧ defaultParams.targetTol < 1 := by
  refine ⟨⟨fun _ => [.fin 1], fun _ _ => [.fin 1], fun _ _ _ => some ⟨1, 0, (), 0⟩⟩,
    ⟨(), defaultParams.regInit, .fin 0, .fin 1, .fin 1, true, 0, [defaultParams.regInit]⟩, ?_, ?_,
    maxNorm_single zero_le_one, maxNorm_single zero_le_one, by simp only [defaultParams]; norm_num⟩
  · rw [run, show defaultParams.maxIters = 199 + 1 from rfl, loop]
    simp only [maxNorm_single zero_le_one]
    rw [if_neg (by simp only [defaultParams]; norm_num), if_pos (by simp only [defaultParams]; norm_num)]
  · rfl

/-- `true` at a NaN initial guess: `std::max` drops the NaN norms, both infeasibilities are reported as zero. -/
theorem C20_NaN_run_reports_convergence (x : X) (e : Env X) (hg : ∀ v ∈ e.gaps x, v = .nan)
    (hq : ∀ v ∈ e.grads x defaultParams.regInit, v = .nan) :
    ∃ s, run defaultParams e x .nan .nan .nan = .done s ∧ s.conv = true ∧ s.prim = .fin 0 ∧ s.dual = .fin 0 ∧
      s.x = x ∧ s.cost = .nan := by
  have hz : ∀ l : List Fl, (∀ v ∈ l, v = .nan) → maxNorm l = .fin 0 := by
    intro l
    unfold maxNorm
    induction l with
    | nil => intro _; rfl
    | cons v l ih =>
      intro hl
      rw [List.foldl_cons, hl v List.mem_cons_self]
      rw [show stdMax (.fin 0) .nan = .fin 0 by simp [stdMax]]
      exact ih fun w hw => hl w (List.mem_cons_of_mem _ hw)
  refine ⟨⟨x, defaultParams.regInit, .nan, .fin 0, .fin 0, true, 0, [defaultParams.regInit]⟩, ?_, ?_, ?_, ?_, ?_, ?_⟩
  · rw [run, show defaultParams.maxIters = 199 + 1 from rfl, loop]
    simp only [hz _ hg, hz _ hq]
    rw [if_pos (by simp only [defaultParams]; norm_num)]
  all_goals rfl

/-- A `reg_init` below `reg_min` is used as it is: no clamping on entry. -/
theorem C20_initial_regularisation_not_clamped :
    let p : Params := { defaultParams with regInit := 0 }
    ∃ (e : Env Unit) (s : St Unit), run p e () (.fin 0) (.fin 0) (.fin 0) = .done s ∧ 0 ∈ s.regs ∧ 0 < p.regMin := by
  intro p
  refine ⟨⟨fun _ => [.fin 0], fun _ _ => [.fin 0], fun _ _ _ => none⟩,
    ⟨(), p.regInit, .fin 0, .fin 0, .fin 0, true, 0, [p.regInit]⟩, ?_, ?_,
    by show (0:ℝ) < 1e-9; norm_num⟩
  · rw [run, show p.maxIters = 199 + 1 from rfl, loop]
    simp only [maxNorm_single (le_refl _)]
    rw [if_pos (by show max (0:ℝ) 0 < 1e-6; norm_num)]
  · show (0:ℝ) ∈ [p.regInit]
    exact List.mem_singleton.mpr rfl

/-- a run that converges by the criterion after one full step: gap `x`, step to zero -/
example : ∃ s, run defaultParams (X := ℝ) ⟨fun x => [.fin x], fun x _ => [.fin x], fun _ _ _ => some ⟨1, 0, 0, -1⟩⟩
    1 (.fin 1) (.fin 0) (.fin 0) = .done s ∧ s.conv = true ∧ s.iters = 1 ∧ s.x = 0 := by
  refine ⟨⟨0, decreaseReg defaultParams defaultParams.regInit, .fin 0, .fin 0, .fin 0, true, 1,
    [decreaseReg defaultParams defaultParams.regInit, defaultParams.regInit]⟩, ?_, ?_, ?_, ?_⟩
  · rw [run, show defaultParams.maxIters = 198 + 1 + 1 from rfl, loop]
    simp only [maxNorm_single zero_le_one]
    rw [if_neg (by simp only [defaultParams]; norm_num), if_neg (by simp only [defaultParams]; norm_num),
      if_neg (by show ¬ (1:ℝ) ≤ 0.01; norm_num), if_pos (by show (0.5:ℝ) < 1; norm_num), loop]
    simp only [maxNorm_single (le_refl (0:ℝ))]
    rw [if_pos (by simp only [defaultParams]; norm_num)]
  all_goals rfl

end Aligator.FDDP
