import Verif.Model.TolRounding
import Verif.Spec.TolRounding
import Verif.Props.ProxDDP

/-!
# Does the tolerance tightening end when products are rounded? (C19)
-/

namespace Aligator.ProxDDP

variable {X V W : Type}

theorem rnd_zero {F : Set ℝ} (hF : Spec.Grid F) {rnd : ℝ → ℝ} (hr : Spec.Nearest F rnd) {t : ℝ} (ht : 0 ≤ t) :
    0 ≤ rnd t ∧ rnd t ≤ 2 * t := by
  have h := (hr t ht).2 0 hF.zero
  rw [zero_sub, abs_neg, abs_of_nonneg ht, abs_le] at h
  constructor <;> linarith [h.1, h.2]

theorem rnd_least {F : Set ℝ} {m : ℝ} (hm : Spec.Least F m) {rnd : ℝ → ℝ} (hr : Spec.Nearest F rnd) {t : ℝ} (ht : m / 2 < t) :
    m ≤ rnd t := by
  obtain ⟨h1, h2, h3⟩ := hm
  have ht0 : 0 ≤ t := by linarith
  obtain ⟨hf, hn⟩ := hr t ht0
  refine h3 _ hf ?_
  have := hn m h1
  by_contra hc
  rw [not_lt] at hc
  rw [abs_of_nonpos (by linarith)] at this
  rcases le_total m t with h | h
  · rw [abs_of_nonpos (by linarith)] at this
    linarith
  · rw [abs_of_nonneg (by linarith)] at this
    linarith

theorem tightenR_fields (A : Arith) (p : Params) (fuel : ℕ) (s s' : St X V W) (h : tightenR A p fuel s = some s') :
    ∃ a b, s' = { s with primTol := a, innerTol := b } := by
  induction fuel generalizing s with
  | zero => cases h
  | succ n ih =>
    unfold tightenR at h
    dsimp only at h
    split at h
    · obtain ⟨a, b, rfl⟩ := ih _ h
      exact ⟨a, b, rfl⟩
    · cases h
      exact ⟨_, _, rfl⟩

theorem tightenR_mono (A : Arith) (p : Params) (f g : ℕ) (hfg : f ≤ g) (s s' : St X V W)
    (h : tightenR A p f s = some s') : tightenR A p g s = some s' := by
  induction f generalizing g s with
  | zero => cases h
  | succ n ih =>
    obtain ⟨g, rfl⟩ : ∃ g', g = g' + 1 := ⟨g - 1, by omega⟩
    unfold tightenR at h ⊢
    dsimp only at h ⊢
    split at h
    · rename_i hc
      rw [if_pos hc]
      exact ih g (by omega) _ h
    · rename_i hc
      rw [if_neg hc]
      exact h

/-- The loop ends if rounding makes every tolerance above the criterion smaller. -/
theorem tightenR_terminates {F : Set ℝ} (hF : Spec.Grid F) (A : Arith) (hA : Spec.Nearest F A.rnd) (p : Params) (s : St X V W)
    (ht : 0 ≤ s.innerTol) (hc : 0 ≤ s.crit) (hr0 : 0 ≤ A.pow (min s.mu 0.99) p.dualBeta)
    (hr : ∀ t ∈ F, s.crit < t → A.rnd (t * A.pow (min s.mu 0.99) p.dualBeta) < t) : ∃ f s', tightenR A p f s = some s' := by
  have key : ∀ n (s : St X V W), 0 ≤ s.crit → 0 ≤ A.pow (min s.mu 0.99) p.dualBeta →
      (∀ t ∈ F, s.crit < t → A.rnd (t * A.pow (min s.mu 0.99) p.dualBeta) < t) → s.innerTol ∈ F → s.crit < s.innerTol →
      (F ∩ Set.Icc 0 s.innerTol).ncard ≤ n → ∃ f s', tightenR A p f s = some s' := by
    intro n
    induction n with
    | zero =>
      intro s hc _ _ hin hlt hn
      rw [Nat.le_zero, Set.ncard_eq_zero (hF.fin _)] at hn
      exact absurd (show s.innerTol ∈ F ∩ Set.Icc 0 s.innerTol from ⟨hin, hc.trans hlt.le, le_rfl⟩) (by rw [hn]; simp)
    | succ n ih =>
      intro s hc hr0 hr hin hlt hn
      set s1 := updateTolsOnSuccessR A p s with hs1
      have ht0 : 0 ≤ s.innerTol * A.pow (min s.mu 0.99) p.dualBeta := mul_nonneg (hc.trans hlt.le) hr0
      have h1 : s1.innerTol < s.innerTol := hr _ hin hlt
      by_cases h : s1.crit < s1.innerTol
      · have hin1 : s1.innerTol ∈ F := (hA _ ht0).1
        have hsub : F ∩ Set.Icc 0 s1.innerTol ⊂ F ∩ Set.Icc 0 s.innerTol := by
          refine ⟨fun t ht => ⟨ht.1, ht.2.1, ht.2.2.trans h1.le⟩, fun hcon => ?_⟩
          have := (hcon (show s.innerTol ∈ F ∩ Set.Icc 0 s.innerTol from ⟨hin, hc.trans hlt.le, le_rfl⟩)).2.2
          linarith
        have := Set.ncard_lt_ncard hsub (hF.fin _)
        obtain ⟨f, s', hf⟩ := ih s1 hc hr0 hr hin1 h (by omega)
        refine ⟨f + 1, s', ?_⟩
        unfold tightenR
        dsimp only
        rw [← hs1, if_pos h]
        exact hf
      · refine ⟨1, s1, ?_⟩
        unfold tightenR
        dsimp only
        rw [← hs1, if_neg h]
  set s1 := updateTolsOnSuccessR A p s with hs1
  by_cases h : s1.crit < s1.innerTol
  · obtain ⟨f, s', hf⟩ := key _ s1 hc hr0 hr (hA _ (mul_nonneg ht hr0)).1 h le_rfl
    refine ⟨f + 1, s', ?_⟩
    unfold tightenR
    dsimp only
    rw [← hs1, if_pos h]
    exact hf
  · refine ⟨1, s1, ?_⟩
    unfold tightenR
    dsimp only
    rw [← hs1, if_neg h]

theorem tightenR_diverges {F : Set ℝ} {m : ℝ} (hm : Spec.Least F m) (A : Arith) (hA : Spec.Nearest F A.rnd) (p : Params)
    (s : St X V W) (ht : m ≤ s.innerTol) (hc : s.crit < m) (hr : 1 / 2 < A.pow (min s.mu 0.99) p.dualBeta) (f : ℕ) :
    tightenR A p f s = none := by
  induction f generalizing s with
  | zero => rfl
  | succ n ih =>
    have h1 : m ≤ (updateTolsOnSuccessR A p s).innerTol := by
      refine rnd_least hm hA ?_
      have := hm.2.1
      nlinarith
    unfold tightenR
    dsimp only
    rw [if_pos (show (updateTolsOnSuccessR A p s).crit < _ from hc.trans_le h1)]
    exact ih (updateTolsOnSuccessR A p s) h1 hc hr

/-- **C19** With rounding to nearest on any grid, a run whose factor of the tolerances stays below one half ends (returns or throws)
whatever the inner criterion, also zero: the tolerance underflows.  With the default `dual_beta = 1` this is every
`mu_init < 0.5`. -/
theorem C19_rounded_run_terminates {F : Set ℝ} (hF : Spec.Grid F) (A : Arith) (hA : Spec.Nearest F A.rnd) (p : Params)
    (hp : p.Valid) (hr : ∀ mu, 0 < mu → mu ≤ max p.muInit p.muLb → 0 ≤ A.pow (min mu 0.99) p.dualBeta ∧
      A.pow (min mu 0.99) p.dualBeta < 1 / 2) (e : Env X V W) (hc : ∀ x w, 0 ≤ e.innerCrit x w) (v0 : V) (s0 : St X V W) :
    ∃ K, ∀ fuel ≥ K, ∀ s, runR A p e fuel v0 s0 ≠ .stuck s := by
  have crit : ∀ n s s1, innerIter p e n s = .done true s1 → 0 ≤ s1.crit := by
    intro n s s1 h
    have := innerIter_induct p e (fun _ _ => True) (fun o => ∀ s1, o = .done true s1 → 0 ≤ s1.crit)
      (by intro s _ s' h; cases h) (by intro n s _ _ s' h; cases h; exact hc _ _)
      (by intro n s _ s' h; cases h)
      (by
        intro n s _ s' h
        obtain ⟨r, hr⟩ := initReg_fields p (computeCriterion e s)
        rw [hr] at h
        cases h; exact hc _ _)
      (by intro n s d l a _ _ s2 s' h; cases h)
      (by intros; trivial) (by intros; trivial) n s trivial
    exact this s1 h
  suffices h : ∀ n (s : St X V W), Inv p s → ∃ F, ∀ fuel ≥ F, ∀ s', outerR A p e fuel n s ≠ .stuck s' from
    h _ _ (head_inv hp (Head.start (e := e) (fuel := 0)))
  intro n
  induction n with
  | zero => intro s _; exact ⟨0, fun fuel _ s' h => by cases h⟩
  | succ n ih =>
    intro s hs
    by_cases hi : s.numIters < p.maxIters
    swap
    · exact ⟨0, fun fuel _ s' h => by rw [outerR, if_neg hi] at h; cases h⟩
    have hin := innerLoop_inv hp e s hs
    rcases h1 : innerLoop p e s with s1 | s1 | ⟨b, s1⟩
    · exact ⟨0, fun fuel _ s' h => by rw [outerR, if_pos hi, h1] at h; cases h⟩
    · exact absurd h1 (innerIter_not_stuck _ _ _ _ _)
    rw [h1] at hin
    have hin : Inv p s1 := hin
    cases b with
    | false => exact ⟨0, fun fuel _ s' h => by rw [outerR, if_pos hi, h1] at h; cases h⟩
    | true =>
      by_cases hpr : s1.prim ≤ s1.primTol
      · obtain ⟨hr0, hr1⟩ := hr s1.mu (hp.muLb.trans_le hin.mu0) hin.mu1
        have hcr := crit _ _ _ h1
        obtain ⟨f, s2, hf⟩ := tightenR_terminates hF A hA p s1 (le_trans (mul_nonneg (by norm_num) hp.targetDual) hin.inner)
          hcr hr0 (fun t _ htc => by
            have := (rnd_zero hF hA (mul_nonneg (hcr.trans htc.le) hr0)).2
            have ht : 0 < t := hcr.trans_lt htc
            nlinarith)
        obtain ⟨a, b, rfl⟩ := tightenR_fields A p f _ _ hf
        by_cases hcv : s1.dual ≤ p.targetDual ∧ s1.prim ≤ p.targetTol
        · refine ⟨f, fun fuel hfu s' h => ?_⟩
          rw [outerR, if_pos hi, h1] at h
          dsimp only at h
          rw [if_pos hpr, tightenR_mono A p f fuel hfu _ _ hf] at h
          dsimp only at h
          rw [if_pos hcv] at h
          cases h
        · have hin2 : Inv p (clamp p { s1 with primTol := a, innerTol := b, prevV := e.nextV s1.x s1.ws }) :=
            ⟨hin.mu0, hin.mu1, le_max_right _ _, le_max_right _ _, hin.reg0, hin.reg1, hin.log⟩
          obtain ⟨F, hF⟩ := ih _ hin2
          refine ⟨max f F, fun fuel hfu s' h => ?_⟩
          rw [outerR, if_pos hi, h1] at h
          dsimp only at h
          rw [if_pos hpr, tightenR_mono A p f fuel (le_of_max_le_left hfu) _ _ hf] at h
          dsimp only at h
          rw [if_neg hcv] at h
          exact hF fuel (le_of_max_le_right hfu) s' h
      · have h4 := onFailure_mu hp s1 hin
        have hin2 : Inv p (clamp p (onFailure p s1)) := by
          have e1 : (clamp p (onFailure p s1)).pregLast = s1.pregLast := by
            unfold onFailure clamp; dsimp only; split <;> rfl
          have e2 : (clamp p (onFailure p s1)).log = s1.log := by
            unfold onFailure clamp; dsimp only; split <;> rfl
          refine ⟨h4.1, h4.2, le_max_right _ _, le_max_right _ _, ?_, ?_, ?_⟩
          · rw [e1]; exact hin.reg0
          · rw [e1]; exact hin.reg1
          · rw [e2]; exact hin.log
        obtain ⟨F, hF⟩ := ih _ hin2
        refine ⟨F, fun fuel hfu s' h => ?_⟩
        rw [outerR, if_pos hi, h1] at h
        dsimp only at h
        rw [if_neg hpr] at h
        exact hF fuel hfu s' h

/-- **C19** (negation)  With a factor above one half the tolerance never leaves the least positive number: if the starting point is
feasible for the first outer iteration and its inner criterion is below that number (zero, say), `run` never returns.  With the
default `dual_beta = 1` this is every `mu_init > 0.5`. -/
theorem C19_rounded_run_hangs {F : Set ℝ} {m : ℝ} (hm : Spec.Least F m) (A : Arith) (hA : Spec.Nearest F A.rnd) (p : Params)
    (hit : 0 < p.maxIters) (hal : 0 < p.maxAlIters)
    (hr : 1 / 2 < A.pow (min (max p.muInit p.muLb) 0.99) p.dualBeta)
    (htol : m ≤ max (p.innerTol0 * (min (max p.muInit p.muLb) 0.99) ^ p.dualAlpha) p.targetDual)
    (e : Env X V W) (v0 : V) (s0 : St X V W) (w : W) (pr : ℝ) (hmul : e.mult (max p.muInit p.muLb) v0 s0.x = (w, some pr))
    (hpr : pr ≤ p.targetTol) (hc : e.innerCrit s0.x w < m) (fuel : ℕ) :
    ∃ s, runR A p e fuel v0 s0 = .stuck s := by
  obtain ⟨n, hn⟩ : ∃ n, p.maxAlIters = n + 1 := ⟨p.maxAlIters - 1, by omega⟩
  obtain ⟨k, hk⟩ : ∃ k, p.maxIters = k + 1 := ⟨p.maxIters - 1, by omega⟩
  set s := initRun p v0 s0 with hs
  have f4 : s.numIters = 0 := rfl
  have f5 : m ≤ s.innerTol := htol
  have f6 : p.targetTol ≤ s.primTol := le_max_right _ _
  have hcm : computeMultipliers e s.x (s.push false) = { s.push false with ws := w, prim := pr } := by
    unfold computeMultipliers
    have : e.mult (s.push false).mu (s.push false).prevV s.x = (w, some pr) := hmul
    rw [this]
  have hin : innerLoop p e s = .done true (computeCriterion e { s.push false with ws := w, prim := pr }) := by
    unfold innerLoop
    dsimp only
    change innerIter p e (p.maxIters - (computeMultipliers e s.x (s.push false)).numIters)
      (computeMultipliers e s.x (s.push false)) = _
    rw [hcm]
    have : p.maxIters - ({ s.push false with ws := w, prim := pr } : St X V W).numIters = k + 1 := by
      rw [hk]; show k + 1 - s.numIters = k + 1; rw [f4]; rfl
    rw [this, innerIter]
    dsimp only
    rw [if_pos]
    left
    show e.innerCrit s0.x w ≤ s.innerTol
    exact hc.le.trans f5
  unfold runR
  rw [hn, outerR, if_pos (by rw [← hs, f4]; exact hit), ← hs, hin]
  dsimp only
  rw [if_pos (show (computeCriterion e { s.push false with ws := w, prim := pr }).prim ≤
    (computeCriterion e { s.push false with ws := w, prim := pr }).primTol from hpr.trans f6)]
  rw [tightenR_diverges hm A hA p (computeCriterion e { s.push false with ws := w, prim := pr }) f5
    (show e.innerCrit s0.x w < m from hc) hr]
  exact ⟨_, rfl⟩

/-! ### The binary64 grid -/

/-- **C19**: without rounding the run is the exact one, in both tolerances and in everything else. -/
theorem C19_rounded_run_exact (A : Arith) (hr : ∀ t, A.rnd t = t) (hpow : ∀ x y, A.pow x y = x ^ y) (p : Params)
    (e : Env X V W) (fuel : ℕ) (v0 : V) (s0 : St X V W) : runR A p e fuel v0 s0 = run p e fuel v0 s0 := by
  have h1 (s : St X V W) : updateTolsOnSuccessR A p s = updateTolsOnSuccess p s := by
    unfold updateTolsOnSuccessR updateTolsOnSuccess
    rw [hr, hr, hpow, hpow]
  have h2 (n : ℕ) (s : St X V W) : tightenR A p n s = tighten p n s := by
    induction n generalizing s with
    | zero => rfl
    | succ n ih => simp only [tightenR, tighten, h1, ih]
  have h3 (n : ℕ) (s : St X V W) : outerR A p e fuel n s = outer p e fuel n s := by
    induction n generalizing s with
    | zero => rfl
    | succ n ih =>
      simp only [outerR, outer, h2, ih]
      rfl
  exact h3 _ _

example (p : Params) (e : Env X V W) (v0 : V) (s0 : St X V W) :=
  C19_rounded_run_exact ⟨id, fun x y => x ^ y⟩ (fun _ => rfl) (fun _ _ => rfl) p e 100 v0 s0

theorem binary64_grid : Spec.Grid Spec.Binary64 := by
  refine ⟨⟨0, 0, by norm_num, by simp⟩, fun b => ?_⟩
  obtain ⟨E, hE⟩ := pow_unbounded_of_one_lt (b * 2 ^ 1074) (one_lt_two (α := ℝ))
  refine Set.Finite.subset (Set.Finite.image (fun q : ℕ × ℕ => ((q.1 : ℝ) * 2 ^ q.2 / 2 ^ 1074))
    ((Set.finite_lt_nat (2 ^ 53)).prod (Set.finite_lt_nat (E + 1)))) ?_
  rintro x ⟨⟨m, e, hm, rfl⟩, h0, hb⟩
  by_cases hm0 : m = 0
  · exact ⟨(0, 0), ⟨by simp, by simp⟩, by simp [hm0]⟩
  · refine ⟨(m, e), ⟨hm, ?_⟩, rfl⟩
    show e < E + 1
    by_contra hcon
    have h1 : (2 : ℝ) ^ E ≤ 2 ^ e := pow_le_pow_right₀ (by norm_num) (by omega)
    have h2 : (1 : ℝ) ≤ m := by exact_mod_cast Nat.one_le_iff_ne_zero.2 hm0
    rw [div_le_iff₀ (by positivity)] at hb
    have h3 : (2 : ℝ) ^ e ≤ m * 2 ^ e := le_mul_of_one_le_left (by positivity) h2
    linarith

theorem binary64_least : Spec.Least Spec.Binary64 (1 / 2 ^ 1074) := by
  refine ⟨⟨1, 0, by norm_num, by simp⟩, by positivity, ?_⟩
  rintro f ⟨m, e, -, rfl⟩ h0
  have hm0 : m ≠ 0 := by rintro rfl; simp at h0
  have h2 : (1 : ℝ) ≤ m := by exact_mod_cast Nat.one_le_iff_ne_zero.2 hm0
  have h3 : (1 : ℝ) ≤ 2 ^ e := one_le_pow₀ (by norm_num)
  gcongr
  nlinarith

/-- every grid has a rounding to nearest -/
theorem nearest_exists {F : Set ℝ} (hF : Spec.Grid F) : ∃ rnd, Spec.Nearest F rnd := by
  have : ∀ t : ℝ, ∃ r, 0 ≤ t → r ∈ F ∧ ∀ f ∈ F, |r - t| ≤ |f - t| := by
    intro t
    by_cases ht : 0 ≤ t
    · obtain ⟨r, hr, hmin⟩ := Set.exists_min_image (F ∩ Set.Icc 0 (2 * t)) (fun f => |f - t|) (hF.fin _)
        ⟨0, hF.zero, le_rfl, by linarith⟩
      refine ⟨r, fun _ => ⟨hr.1, fun f hf => ?_⟩⟩
      by_cases h : f ∈ Set.Icc 0 (2 * t)
      · exact hmin f ⟨hf, h⟩
      · refine (hmin 0 ⟨hF.zero, le_rfl, by linarith⟩).trans ?_
        rw [zero_sub, abs_neg, abs_of_nonneg ht]
        rw [Set.mem_Icc, not_and_or, not_le, not_le] at h
        rcases h with h | h
        · rw [abs_of_neg (by linarith)]; linarith
        · rw [abs_of_pos (by linarith)]; linarith
    · exact ⟨0, fun h => absurd h ht⟩
  choose r hr using this
  exact ⟨r, hr⟩

/-- in binary64 with the default parameters every run ends -/
example (rnd : ℝ → ℝ) (hr : Spec.Nearest Spec.Binary64 rnd) (e : Env X V W) (hc : ∀ x w, 0 ≤ e.innerCrit x w) (v0 : V)
    (s0 : St X V W) := C19_rounded_run_terminates binary64_grid ⟨rnd, fun x y => x ^ y⟩ hr defaultParams defaultParams_valid
  (fun mu h0 h1 => by
    have h1 : mu ≤ 0.01 := h1.trans (by norm_num [defaultParams])
    have e : (min mu 0.99 : ℝ) = mu := min_eq_left (h1.trans (by norm_num))
    show 0 ≤ (min mu 0.99 : ℝ) ^ (1 : ℝ) ∧ (min mu 0.99 : ℝ) ^ (1 : ℝ) < 1 / 2
    rw [e, Real.rpow_one]
    exact ⟨h0.le, h1.trans_lt (by norm_num)⟩) e hc v0 s0

/-- in binary64 with `mu_init = 1` a run started at an exact solution never returns -/
example (rnd : ℝ → ℝ) (hr : Spec.Nearest Spec.Binary64 rnd) (e : Env X V W) (v0 : V) (s0 : St X V W) (w : W)
    (hm : e.mult 1 v0 s0.x = (w, some 0)) (hc : e.innerCrit s0.x w = 0) (fuel : ℕ) :
    ∃ s, runR ⟨rnd, fun x y => x ^ y⟩ { defaultParams with muInit := 1 } e fuel v0 s0 = .stuck s := by
  have e1 : max ({ defaultParams with muInit := 1 } : Params).muInit ({ defaultParams with muInit := 1 } : Params).muLb = 1 := by
    norm_num [defaultParams]
  have e2 : (min 1 0.99 : ℝ) = 0.99 := by norm_num
  refine C19_rounded_run_hangs binary64_least ⟨rnd, fun x y => x ^ y⟩ hr _ (by norm_num [defaultParams])
    (by norm_num [defaultParams]) ?_ ?_ e v0 s0 w 0 (by rw [e1]; exact hm) (by norm_num [defaultParams]) ?_ fuel
  · rw [e1]
    show (1 / 2 : ℝ) < (min 1 0.99 : ℝ) ^ (1 : ℝ)
    rw [e2, Real.rpow_one]; norm_num
  · refine le_trans ?_ (le_max_right _ _)
    show (1 / 2 ^ 1074 : ℝ) ≤ 1e-6
    have : (2 : ℝ) ^ 20 ≤ 2 ^ 1074 := pow_le_pow_right₀ (by norm_num) (by norm_num)
    calc (1 / 2 ^ 1074 : ℝ) ≤ 1 / 2 ^ 20 := one_div_le_one_div_of_le (by norm_num) this
      _ ≤ 1e-6 := by norm_num
  · rw [hc]; exact binary64_least.2.1

end Aligator.ProxDDP
