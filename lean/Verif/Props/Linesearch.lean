import Verif.Lemmas.Linesearch
import Verif.Spec.Linesearch
import Mathlib.Analysis.Calculus.Deriv.Pow
import Mathlib.Analysis.Calculus.Deriv.Mul
import Mathlib.Analysis.Calculus.Deriv.Add
import Mathlib.Analysis.SpecificLimits.Basic

/-!
# C19 (line searches), C21, C22, C23, C24
-/

namespace Aligator.Linesearch

open Spec

/-! ## C22 Armijo -/

/-- The step is never below `alpha_min`, whatever the merit function does. -/
theorem C22_step_at_least_alphaMin (o : Options) (solve : Solve2) (fuel : ℕ) (phi : ℝ → Option Fl)
    (phi0 dphi0 : ℝ) (hm : o.alphaMin ≤ 1) {a : ℝ} {v : Fl} {calls : List ℝ}
    (h : armijoRun o solve fuel phi phi0 dphi0 = some (a, v, calls)) : o.alphaMin ≤ a := by
  unfold armijoRun at h
  cases hf : armijoFirst o phi fuel ⟨1, .default, .default, []⟩ with
  | none => rw [hf] at h; simp at h
  | some s =>
    rw [hf] at h
    dsimp only at h
    split_ifs at h with h1
    · simp only [Option.some.injEq, Prod.mk.injEq] at h
      obtain ⟨-, -, -, e⟩ := armijoFirst_spec o phi _ _ _ hf
      rw [← h.1]
      rcases e with ⟨v, -, -, -, e | e⟩ | ⟨e, -⟩
      · rw [e]; exact hm
      · exact e.le
      · exact e.ge
    · simp only [Option.some.injEq, Prod.mk.injEq] at h
      rw [← h.1]; exact le_max_right _ _

/-- Every interpolated trial step that is a number lies within the contraction bounds: any samples, any data,
any 2×2 solver, both interpolants. -/
theorem C22_interpolated_step_within_bounds (solve : Solve2) (phi0 dphi0 : ℝ) (c0 : Sample)
    (c1 : Option Sample) {lo hi : ℝ} (h : lo ≤ hi)
    (hn : minimizeInterpolant solve phi0 dphi0 c0 c1 lo hi ≠ .nan) :
    ∃ x, minimizeInterpolant solve phi0 dphi0 c0 c1 lo hi = .fin x ∧ lo ≤ x ∧ x ≤ hi :=
  (minimizeInterpolant_cases solve phi0 dphi0 c0 c1 h).resolve_left hn

/-- Number of evaluations and termination: with `k` halvings enough to reach `alpha_min`, at most
`k + max_num_steps` calls. -/
theorem C22_C19_armijo_terminates (o : Options) (solve : Solve2) (phi : ℝ → Option Fl) (phi0 dphi0 : ℝ)
    (hm : 0 < o.alphaMin) : ∃ k, ∀ fuel, k ≤ fuel → ∃ a v calls,
      armijoRun o solve fuel phi phi0 dphi0 = some (a, v, calls) ∧ calls.length ≤ fuel + o.maxNumSteps := by
  obtain ⟨k, hk⟩ := exists_pow_lt_of_lt_one hm (show (0.5:ℝ) < 1 by norm_num)
  refine ⟨k + 1, fun fuel hfuel => ?_⟩
  have hle : (1:ℝ) * 0.5 ^ fuel ≤ o.alphaMin := by
    rw [one_mul]
    exact le_trans (pow_le_pow_of_le_one (by norm_num) (by norm_num) (by omega)) hk.le
  have hne := armijoFirst_terminates o phi fuel ⟨1, .default, .default, []⟩ hle (by omega)
  unfold armijoRun
  cases hf : armijoFirst o phi fuel ⟨1, .default, .default, []⟩ with
  | none => exact absurd hf hne
  | some s =>
    obtain ⟨-, e2, -, -⟩ := armijoFirst_spec o phi _ _ _ hf
    simp only [List.length_nil, zero_add] at e2
    dsimp only
    split_ifs with h1
    · exact ⟨_, _, _, rfl, by omega⟩
    · refine ⟨_, _, _, rfl, ?_⟩
      have := (armijoLoop_exit o solve phi phi0 dphi0 o.maxNumSteps s).1
      omega

/-- Where the returned value comes from, for every merit function: one of the evaluated steps, or every evaluation
threw and the value is the constant zero. -/
theorem C22_value_is_some_trial_partial (o : Options) (solve : Solve2) (fuel : ℕ) (phi : ℝ → Option Fl)
    (phi0 dphi0 : ℝ) {a : ℝ} {v : Fl} {calls : List ℝ}
    (h : armijoRun o solve fuel phi phi0 dphi0 = some (a, v, calls)) :
    (∃ s ∈ calls, phi s = some v) ∨ (v = .fin 0 ∧ ∀ s ∈ calls, phi s = none) := by
  unfold armijoRun at h
  cases hf : armijoFirst o phi fuel ⟨1, .default, .default, []⟩ with
  | none => rw [hf] at h; simp at h
  | some s =>
    rw [hf] at h
    dsimp only at h
    let I : ASt → Prop := fun s => (∃ c ∈ s.calls, phi c = some s.latest.phi) ∨
      (s.latest.phi = .fin 0 ∧ ∀ c ∈ s.calls, phi c = none)
    have hI : I s := by
      obtain ⟨-, -, -, e⟩ := armijoFirst_spec o phi _ _ _ hf
      rcases e with ⟨v, e1, e2, e3, -⟩ | ⟨-, e2, e3⟩
      · left
        refine ⟨s.alpha, List.mem_of_head? e3, ?_⟩
        rw [e2]; exact e1
      · right
        exact ⟨by rw [e2]; rfl, e3 (by simp)⟩
    have hL := armijoLoop_inv o solve phi phi0 dphi0 I
      (by
        intro s hs hp
        rcases hs with ⟨c, hc, e⟩ | ⟨e, hc⟩
        · exact Or.inl ⟨c, List.mem_cons_of_mem _ hc, e⟩
        · refine Or.inr ⟨e, fun c hm => ?_⟩
          rcases List.mem_cons.mp hm with rfl | hm
          · exact hp
          · exact hc c hm)
      (by
        intro s v _ hp
        exact Or.inl ⟨_, List.mem_cons_self, hp⟩) o.maxNumSteps s hI
    split_ifs at h with h1
    · simp only [Option.some.injEq, Prod.mk.injEq] at h
      obtain ⟨-, rfl, rfl⟩ := h; exact hI
    · simp only [Option.some.injEq, Prod.mk.injEq] at h
      obtain ⟨-, rfl, rfl⟩ := h; exact hL

/-- Merit functions that never throw (NaN and infinities allowed), every interpolation: the value belongs to the
last trial `s`, the step is `max s alpha_min`, and one of the four exit reasons holds at `s`.  Missing for the
full claim: `s` itself can be below `alpha_min` after a NaN interpolation, and throwing merit functions; both are
refuted below. -/
theorem C22_last_trial_partial (o : Options) (solve : Solve2) (fuel : ℕ) (phi : ℝ → Fl)
    (phi0 dphi0 : ℝ) (hm : o.alphaMin ≤ 1) {a : ℝ} {v : Fl} {calls : List ℝ}
    (h : armijoRun o solve fuel (fun x => some (phi x)) phi0 dphi0 = some (a, v, calls)) :
    ∃ s, calls.head? = some s ∧ v = phi s ∧ a = max s o.alphaMin ∧ calls.length ≤ o.maxNumSteps + 1 ∧
      (Fl.le (Fl.sub v (.fin phi0)) (.fin (o.armijoC1 * s * dphi0)) ∨ s ≤ o.alphaMin ∨
        calls.length = o.maxNumSteps + 1 ∨ |dphi0| < o.dphiThresh) := by
  unfold armijoRun at h
  cases fuel with
  | zero => simp [armijoFirst] at h
  | succ n =>
    simp only [armijoFirst] at h
    split_ifs at h with h1
    · simp only [Option.some.injEq, Prod.mk.injEq] at h
      obtain ⟨rfl, rfl, rfl⟩ := h
      exact ⟨1, rfl, rfl, (max_eq_left hm).symm, by simp, Or.inr (Or.inr (Or.inr h1))⟩
    · simp only [Option.some.injEq, Prod.mk.injEq] at h
      obtain ⟨rfl, rfl, rfl⟩ := h
      have hI := armijoLoop_inv o solve (fun x => some (phi x)) phi0 dphi0
        (fun s => s.calls.head? = some s.alpha ∧ s.latest.phi = phi s.alpha)
        (by intro s _ hp; simp at hp)
        (by intro s v _ hp; simp only [Option.some.injEq] at hp; exact ⟨rfl, hp.symm⟩)
        o.maxNumSteps ⟨1, ⟨1, phi 1, true⟩, .default, [1]⟩ ⟨rfl, rfl⟩
      obtain ⟨b, e⟩ := armijoLoop_exit o solve (fun x => some (phi x)) phi0 dphi0
        o.maxNumSteps ⟨1, ⟨1, phi 1, true⟩, .default, [1]⟩
      refine ⟨_, hI.1, hI.2, rfl, ?_, ?_⟩
      · simpa [add_comm] using b
      · rcases e with e | e | e
        · exact Or.inl e
        · exact Or.inr (Or.inl e)
        · exact Or.inr (Or.inr (Or.inl (by simpa [add_comm] using e)))

/-- The full claim for finite merit functions and bisection or quadratic interpolation. -/
theorem C22_finite_merit_partial (o : Options) (solve : Solve2) (fuel : ℕ) (φ : ℝ → ℝ) (phi0 dphi0 : ℝ)
    (hm0 : 0 < o.alphaMin) (hm : o.alphaMin ≤ 1) (ht : 0 < o.dphiThresh)
    (hc : o.contractionMin ≤ o.contractionMax) (hc1 : o.contractionMax ≤ 1) (hi : o.interp ≠ .cubic)
    {a : ℝ} {v : Fl} {calls : List ℝ}
    (h : armijoRun o solve fuel (fun x => some (.fin (φ x))) phi0 dphi0 = some (a, v, calls)) :
    v = .fin (φ a) ∧ o.alphaMin ≤ a ∧ a ≤ 1 ∧ (∀ s ∈ calls, o.alphaMin ≤ s ∧ s ≤ 1) ∧
      (SufficientDecrease φ phi0 dphi0 o.armijoC1 a ∨ a = o.alphaMin ∨
        calls.length = o.maxNumSteps + 1 ∨ |dphi0| < o.dphiThresh) := by
  obtain ⟨s, e1, e2, e3, -, e5⟩ :=
    C22_last_trial_partial o solve fuel (fun x => .fin (φ x)) phi0 dphi0 hm h
  have hall : ∀ s ∈ calls, o.alphaMin ≤ s ∧ s ≤ 1 := by
    unfold armijoRun at h
    cases fuel with
    | zero => simp [armijoFirst] at h
    | succ n =>
      simp only [armijoFirst] at h
      split_ifs at h with h1
      · simp only [Option.some.injEq, Prod.mk.injEq] at h
        obtain ⟨-, -, rfl⟩ := h
        intro s hs
        simp only [List.mem_singleton] at hs
        subst hs; exact ⟨hm, le_refl _⟩
      · simp only [Option.some.injEq, Prod.mk.injEq] at h
        obtain ⟨-, -, rfl⟩ := h
        have hd : dphi0 ≠ 0 := by
          rintro rfl; exact h1 (by simpa using ht)
        have hI := armijoLoop_inv o solve (fun x => some (.fin (φ x))) phi0 dphi0
          (fun s => s.latest = ⟨s.alpha, .fin (φ s.alpha), true⟩ ∧ o.alphaMin ≤ s.alpha ∧ s.alpha ≤ 1 ∧
            ∀ c ∈ s.calls, o.alphaMin ≤ c ∧ c ≤ 1)
          (by intro s _ hp; simp at hp)
          (by
            intro s v hs hp
            simp only [Option.some.injEq] at hp
            obtain ⟨f1, f2, f3, f4⟩ := hs
            have hpos : 0 < s.alpha := lt_of_lt_of_le hm0 f2
            have hn : o.alphaMin ≤ nextAlpha o solve phi0 dphi0 s ∧ nextAlpha o solve phi0 dphi0 s ≤ 1 := by
              rcases hint : o.interp with _ | _ | _
              · rcases nextAlpha_cases o solve phi0 dphi0 s
                  (mul_le_mul_of_nonneg_right hc hpos.le) with ⟨-, g⟩ | ⟨g, -⟩ | ⟨g, -⟩
                · rw [g]; exact ⟨le_max_right _ _, max_le (by nlinarith) hm⟩
                · exact absurd hint g
                · exact absurd hint g
              · have hq := C22_interpolated_step_within_bounds solve phi0 dphi0 s.latest none
                  (mul_le_mul_of_nonneg_right hc hpos.le)
                  (by rw [f1]; exact quad_not_nan solve hpos.ne' hd true)
                obtain ⟨x, g1, g2, g3⟩ := hq
                have : nextAlpha o solve phi0 dphi0 s = max x o.alphaMin := by
                  unfold nextAlpha; simp only [hint, g1]
                rw [this]
                refine ⟨le_max_right _ _, max_le (le_trans g3 ?_) hm⟩
                nlinarith
              · exact absurd hint hi
            refine ⟨by rw [← hp], hn.1, hn.2, ?_⟩
            intro c hcm
            rcases List.mem_cons.mp hcm with rfl | hcm
            · exact hn
            · exact f4 c hcm)
          o.maxNumSteps ⟨1, ⟨1, .fin (φ 1), true⟩, .default, [1]⟩
          ⟨rfl, hm, le_refl _, by intro c hc; simp only [List.mem_singleton] at hc; subst hc; exact ⟨hm, le_refl _⟩⟩
        exact hI.2.2.2
  have hs := hall s (List.mem_of_head? e1)
  have has : a = s := by rw [e3]; exact max_eq_left hs.1
  subst has
  refine ⟨e2, hs.1, hs.2, hall, ?_⟩
  rcases e5 with e | e | e | e
  · left
    rw [e2, Fl.sub_fin, Fl.le_fin] at e
    unfold SufficientDecrease; linarith
  · exact Or.inr (Or.inl (le_antisymm e hs.1))
  · exact Or.inr (Or.inr (Or.inl e))
  · exact Or.inr (Or.inr (Or.inr e))

/-- the code's default options with a chosen interpolation -/
noncomputable def defaultOptions (i : Interp) : Options where
  armijoC1 := 1e-4
  dphiThresh := 1e-13
  alphaMin := 1e-6
  maxNumSteps := 20
  interp := i
  contractionMin := 0.5
  contractionMax := 0.8

/-- A run of the hypotheses above: `φ(x) = (x - 1/2)²`, accepted at the second trial, one step after the full
step failed. -/
example : ∃ calls, armijoRun (defaultOptions .bisection) (fun _ _ _ _ _ _ => (.nan, .nan)) 1
    (fun x => some (.fin ((x - 1 / 2) ^ 2))) (1 / 4) (-1) = some (1 / 2, .fin 0, calls) ∧ calls = [1 / 2, 1] := by
  unfold armijoRun
  simp only [armijoFirst]
  rw [if_neg (by simp only [defaultOptions]; norm_num)]
  show ∃ calls, some (max (armijoLoop _ _ _ _ _ (18 + 1 + 1) _).alpha _, _, _) = _ ∧ _
  have hn : nextAlpha (defaultOptions .bisection) (fun _ _ _ _ _ _ => (.nan, .nan)) (1 / 4) (-1)
      ⟨1, ⟨1, .fin ((1 - 1 / 2) ^ 2), true⟩, .default, [1]⟩ = 1 / 2 := by
    simp only [nextAlpha, defaultOptions]; norm_num
  have h1 : armijoLoop (defaultOptions .bisection) (fun _ _ _ _ _ _ => (.nan, .nan))
      (fun x => some (.fin ((x - 1 / 2) ^ 2))) (1 / 4) (-1) 20
      ⟨1, ⟨1, .fin ((1 - 1 / 2) ^ 2), true⟩, .default, [1]⟩ =
      ⟨1 / 2, ⟨1 / 2, .fin 0, true⟩, ⟨1, .fin ((1 - 1 / 2) ^ 2), true⟩, [1 / 2, 1]⟩ := by
    rw [show (20:ℕ) = 18 + 1 + 1 from rfl, armijoLoop,
      if_neg (by rw [Fl.sub_fin, Fl.le_fin]; simp only [defaultOptions]; norm_num)]
    simp only [hn]
    rw [if_neg (by simp only [defaultOptions]; norm_num), armijoLoop,
      if_pos (by rw [Fl.sub_fin, Fl.le_fin]; simp only [defaultOptions]; norm_num)]
    norm_num
  refine ⟨[1 / 2, 1], ?_, rfl⟩
  show some (max (armijoLoop (defaultOptions .bisection) _ _ _ _ 20 _).alpha _,
    (armijoLoop (defaultOptions .bisection) _ _ _ _ 20 _).latest.phi,
    (armijoLoop (defaultOptions .bisection) _ _ _ _ 20 _).calls) = _
  rw [h1]
  simp only [defaultOptions]; norm_num

/-! ### The full claim of C22 fails in four ways -/

/-- A merit function that always throws: the search returns `alpha_min` with merit value `0`, which is no value of
the function (and is accepted as a decrease from `phi0 = 1`). -/
theorem C22_throwing_merit_returns_zero (i : Interp) (solve : Solve2) :
    ∃ fuel calls, armijoRun (defaultOptions i) solve fuel (fun _ => none) 1 (-1) = some (1e-6, .fin 0, calls) := by
  have hne := armijoFirst_terminates (defaultOptions i) (fun _ => none) 20 ⟨1, .default, .default, []⟩
    (by simp only [defaultOptions]; norm_num) (by norm_num)
  cases hf : armijoFirst (defaultOptions i) (fun _ => none) 20 ⟨1, .default, .default, []⟩ with
  | none => exact absurd hf hne
  | some s =>
    obtain ⟨-, -, -, e⟩ := armijoFirst_spec _ _ _ _ _ hf
    rcases e with ⟨v, e, -⟩ | ⟨e1, e2, -⟩
    · simp at e
    · refine ⟨20, s.calls, ?_⟩
      unfold armijoRun
      rw [hf]
      dsimp only
      rw [if_neg (by simp only [defaultOptions]; norm_num)]
      have hl : armijoLoop (defaultOptions i) solve (fun _ => none) 1 (-1) (defaultOptions i).maxNumSteps s = s := by
        rw [show (defaultOptions i).maxNumSteps = 19 + 1 from rfl, armijoLoop, if_pos]
        rw [e1, e2, show Sample.default.phi = .fin 0 from rfl, Fl.sub_fin, Fl.le_fin]
        simp only [defaultOptions]; norm_num
      rw [hl, e1, e2, max_self]
      rfl

open Classical in
/-- NaN at the full step, finite elsewhere; both interpolations: the search evaluates step zero and reports that
value for `alpha_min`. -/
theorem C22_NaN_at_full_step_returns_wrong_value (i : Interp) (hi : i ≠ .bisection) (solve : Solve2) :
    let phi : ℝ → Option Fl := fun x => some (if x = 1 then .nan else .fin (1 - x))
    armijoRun (defaultOptions i) solve 1 phi 1 (-1) = some (1e-6, .fin 1, [0, 1]) ∧
      phi 1e-6 ≠ some (.fin 1) := by
  intro phi
  have h1 : phi 1 = some .nan := by simp [phi]
  have h0 : phi 0 = some (.fin 1) := by simp [phi]
  constructor
  · have hq : minimizeInterpolant solve 1 (-1) ⟨1, .nan, true⟩ none ((defaultOptions i).contractionMin * 1)
        ((defaultOptions i).contractionMax * 1) = .nan := by
      simp [minimizeInterpolant, safeguard, interpolant, quadInterp]
    have hn : nextAlpha (defaultOptions i) solve 1 (-1) ⟨1, ⟨1, .nan, true⟩, .default, [1]⟩ = 0 := by
      unfold nextAlpha
      rcases i with _ | _ | _
      · exact absurd rfl hi
      · show (match minimizeInterpolant solve 1 (-1) ⟨1, .nan, true⟩ none _ _ with
          | .nan => _ | .fin x => _ | .inf _ => _) = _
        rw [hq]; simp [Sample.default]
      · show (match minimizeInterpolant solve 1 (-1) ⟨1, .nan, true⟩ none _ _ with
          | .nan => _ | .fin x => _ | .inf _ => _) = _
        rw [hq]; simp [Sample.default]
    have hl : armijoLoop (defaultOptions i) solve phi 1 (-1) 20 ⟨1, ⟨1, .nan, true⟩, .default, [1]⟩ =
        ⟨0, ⟨0, .fin 1, true⟩, ⟨1, .nan, true⟩, [0, 1]⟩ := by
      rw [show (20:ℕ) = 19 + 1 from rfl, armijoLoop, if_neg (by simp)]
      simp only [hn, h0]
      rw [if_pos (by simp only [defaultOptions]; norm_num)]
    unfold armijoRun
    simp only [armijoFirst, h1]
    rw [if_neg (by simp only [defaultOptions]; norm_num)]
    show some (max (armijoLoop (defaultOptions i) solve phi 1 (-1) 20 _).alpha _,
      (armijoLoop (defaultOptions i) solve phi 1 (-1) 20 _).latest.phi,
      (armijoLoop (defaultOptions i) solve phi 1 (-1) 20 _).calls) = _
    rw [hl]
    simp only [defaultOptions]; norm_num
  · simp only [phi]
    rw [if_neg (by norm_num)]
    intro h
    simp only [Option.some.injEq, Fl.fin.injEq] at h
    norm_num at h

open Classical in
/-- The search can accept a step at which the merit function threw: after the exception the test compares the old
value with the bound of the new step. -/
theorem C22_accepts_a_step_that_threw (solve : Solve2) :
    let phi : ℝ → Option Fl := fun x => if x = 1 then some (.fin (-0.75e-4)) else none
    armijoRun (defaultOptions .bisection) solve 1 phi 0 (-1) = some (0.5, .fin (-0.75e-4), [0.5, 1]) ∧
      phi 0.5 = none := by
  intro phi
  have h1 : phi 1 = some (.fin (-0.75e-4)) := by simp [phi]
  have h5 : phi 0.5 = none := by simp only [phi]; rw [if_neg (by norm_num)]
  refine ⟨?_, h5⟩
  have hn : nextAlpha (defaultOptions .bisection) solve 0 (-1)
      ⟨1, ⟨1, .fin (-0.75e-4), true⟩, .default, [1]⟩ = 0.5 := by
    simp only [nextAlpha, defaultOptions]; norm_num
  have hl : armijoLoop (defaultOptions .bisection) solve phi 0 (-1) 20
      ⟨1, ⟨1, .fin (-0.75e-4), true⟩, .default, [1]⟩ =
      ⟨0.5, ⟨1, .fin (-0.75e-4), true⟩, ⟨1, .fin (-0.75e-4), true⟩, [0.5, 1]⟩ := by
    rw [show (20:ℕ) = 18 + 1 + 1 from rfl, armijoLoop,
      if_neg (by rw [Fl.sub_fin, Fl.le_fin]; simp only [defaultOptions]; norm_num)]
    simp only [hn, h5]
    rw [armijoLoop, if_pos (by rw [Fl.sub_fin, Fl.le_fin]; simp only [defaultOptions]; norm_num)]
  unfold armijoRun
  simp only [armijoFirst, h1]
  rw [if_neg (by simp only [defaultOptions]; norm_num)]
  show some (max (armijoLoop (defaultOptions .bisection) solve phi 0 (-1) 20 _).alpha _,
    (armijoLoop (defaultOptions .bisection) solve phi 0 (-1) 20 _).latest.phi,
    (armijoLoop (defaultOptions .bisection) solve phi 0 (-1) 20 _).calls) = _
  rw [hl]
  simp only [defaultOptions]; norm_num

open Classical in
/-- Finite merit function, cubic interpolation with an exact 2×2 solver: the cubic coefficient vanishes, the step is
`0/0`, the fallback evaluates a step below `alpha_min` and its value is reported for `alpha_min`. -/
theorem C22_cubic_fallback_returns_wrong_value {solve : Solve2} (hs : solve.Exact) :
    let o : Options := { defaultOptions .cubic with armijoC1 := 0.4, alphaMin := 0.55 }
    let φ : ℝ → ℝ := fun x => if x = 1 then -1 / 6 else if x = 3 / 5 then 125 / 54 - 3 / 5 else
      if x = 1 / 2 then 7 else 0
    armijoRun o solve 1 (fun x => some (.fin (φ x))) 0 (-1) = some (0.55, .fin 7, [1 / 2, 3 / 5, 1]) ∧
      φ 0.55 = 0 := by
  intro o φ
  have f1 : φ 1 = -1 / 6 := by simp [φ]
  have f6 : φ (3 / 5) = 125 / 54 - 3 / 5 := by simp only [φ]; rw [if_neg (by norm_num), if_pos trivial]
  have f5 : φ (1 / 2) = 7 := by
    simp only [φ]; rw [if_neg (by norm_num), if_neg (by norm_num), if_pos trivial]
  constructor
  swap
  · simp only [φ]; rw [if_neg (by norm_num), if_neg (by norm_num), if_neg (by norm_num)]
  have n1 : nextAlpha o solve 0 (-1) ⟨1, ⟨1, .fin (-1 / 6), true⟩, .default, [1]⟩ = 3 / 5 := by
    have hq : minimizeInterpolant solve 0 (-1) ⟨1, .fin (-1 / 6), true⟩ none (0.5 * 1) (0.8 * 1) = .fin (3 / 5) := by
      rw [minimizeInterpolant, interpolant, quadInterp_fin one_ne_zero]
      dsimp only
      rw [Fl.div_fin (by norm_num)]
      unfold safeguard
      rw [if_neg (by simp only [Fl.lt_fin]; norm_num)]
      norm_num
    show (match minimizeInterpolant solve 0 (-1) ⟨1, .fin (-1 / 6), true⟩ none (0.5 * 1) (0.8 * 1) with
      | .nan => _ | .fin x => max x (0.55:ℝ) | .inf _ => _) = _
    rw [hq]; norm_num
  have n2 : nextAlpha o solve 0 (-1) ⟨3 / 5, ⟨3 / 5, .fin (125 / 54 - 3 / 5), true⟩, ⟨1, .fin (-1 / 6), true⟩,
      [3 / 5, 1]⟩ = 1 / 2 := by
    have hq : minimizeInterpolant solve 0 (-1) ⟨3 / 5, .fin (125 / 54 - 3 / 5), true⟩
        (some ⟨1, .fin (-1 / 6), true⟩) (0.5 * (3 / 5)) (0.8 * (3 / 5)) = .nan := by
      obtain ⟨u, v, e, e1, e2⟩ := hs (3 / 5 * (3 / 5) * (3 / 5)) (3 / 5 * (3 / 5)) (1 * 1 * 1) (1 * 1)
        (-1 / 6 - 0 - -1 * 1) (125 / 54 - 3 / 5 - 0 - -1 * (3 / 5)) (by norm_num)
      have hu : u = 0 := by norm_num at e1 e2; linarith
      have hv : v = 125 / 54 := by rw [hu] at e2; norm_num at e2; linarith
      rw [minimizeInterpolant, interpolant]
      have hc : (cubicInterp solve 0 (-1) ⟨3 / 5, .fin (125 / 54 - 3 / 5), true⟩ ⟨1, .fin (-1 / 6), true⟩).2 = .nan := by
        simp only [cubicInterp, Fl.sub_fin]
        rw [e]
        simp only [Fl.mul_fin, Fl.neg_fin, Fl.sub_fin]
        rw [hu, hv, Fl.sqrt_fin (by norm_num),
          show (125 / 54 * (125 / 54) - 3 * 0 * -1 : ℝ) = 125 / 54 * (125 / 54) by ring,
          Real.sqrt_mul_self (by norm_num), Fl.add_fin]
        simp [Fl.div]
      rw [hc]
      unfold safeguard
      rw [if_neg (by simp)]
    show (match minimizeInterpolant solve 0 (-1) ⟨3 / 5, .fin (125 / 54 - 3 / 5), true⟩
        (some ⟨1, .fin (-1 / 6), true⟩) (0.5 * (3 / 5)) (0.8 * (3 / 5)) with
      | .nan => (0.5:ℝ) * 1 | .fin x => _ | .inf _ => _) = _
    rw [hq]; norm_num
  have hl : armijoLoop o solve (fun x => some (.fin (φ x))) 0 (-1) 20 ⟨1, ⟨1, .fin (-1 / 6), true⟩, .default, [1]⟩ =
      ⟨1 / 2, ⟨1 / 2, .fin 7, true⟩, ⟨3 / 5, .fin (125 / 54 - 3 / 5), true⟩, [1 / 2, 3 / 5, 1]⟩ := by
    rw [show (20:ℕ) = 18 + 1 + 1 from rfl, armijoLoop,
      if_neg (by rw [Fl.sub_fin, Fl.le_fin]; show ¬ (-1 / 6 - 0 : ℝ) ≤ 0.4 * 1 * -1; norm_num)]
    simp only [n1, f6]
    rw [if_neg (by show ¬ (3 / 5 : ℝ) ≤ 0.55; norm_num), armijoLoop,
      if_neg (by rw [Fl.sub_fin, Fl.le_fin]; show ¬ (125 / 54 - 3 / 5 - 0 : ℝ) ≤ 0.4 * (3 / 5) * -1; norm_num)]
    simp only [n2, f5]
    rw [if_pos (by show (1 / 2 : ℝ) ≤ 0.55; norm_num)]
  unfold armijoRun
  simp only [armijoFirst, f1]
  rw [if_neg (by show ¬ |(-1:ℝ)| < 1e-13; norm_num)]
  show some (max (armijoLoop o solve _ 0 (-1) 20 _).alpha (0.55:ℝ),
    (armijoLoop o solve _ 0 (-1) 20 _).latest.phi, (armijoLoop o solve _ 0 (-1) 20 _).calls) = _
  rw [hl]
  norm_num

/-! ## C23 interpolants -/

theorem cubic_hasDerivAt (a b c d : ℝ) : HasDerivAt (fun x : ℝ => a * x ^ 3 + b * x ^ 2 + c * x + d) c 0 := by
  have h : HasDerivAt (fun x : ℝ => a * x ^ 3 + b * x ^ 2 + c * x + d)
      (a * ((3:ℕ) * (0:ℝ) ^ (3 - 1)) + b * ((2:ℕ) * (0:ℝ) ^ (2 - 1)) + c * 1) 0 :=
    HasDerivAt.add_const d (HasDerivAt.fun_add (HasDerivAt.fun_add
      (HasDerivAt.const_mul a (hasDerivAt_pow 3 (0:ℝ))) (HasDerivAt.const_mul b (hasDerivAt_pow 2 (0:ℝ))))
      (HasDerivAt.const_mul c (hasDerivAt_id (0:ℝ))))
  have e : a * ((3:ℕ) * (0:ℝ) ^ (3 - 1)) + b * ((2:ℕ) * (0:ℝ) ^ (2 - 1)) + c * 1 = c := by simp
  rw [e] at h
  exact h

theorem quad_hasDerivAt (a b c : ℝ) : HasDerivAt (fun x : ℝ => a * x ^ 2 + b * x + c) b 0 := by
  have h := cubic_hasDerivAt 0 a b c
  simpa using h

/-- The quadratic interpolant is the unique quadratic with the value and slope at zero and the sampled value. -/
theorem C23_quadratic_is_the_interpolant {phi0 dphi0 a f : ℝ} (ha : a ≠ 0) (b : Bool) :
    ∃ q : ℝ → ℝ, (∀ x, polyEval (quadInterp phi0 dphi0 ⟨a, .fin f, b⟩).1 x = .fin (q x)) ∧
      IsQuadratic q ∧ StartsAt q phi0 dphi0 ∧ q a = f ∧
      ∀ q', IsQuadratic q' → StartsAt q' phi0 dphi0 → q' a = f → q' = q := by
  refine ⟨fun x => (f - phi0 - a * dphi0) / (a * a) * x ^ 2 + dphi0 * x + phi0, ?_, ⟨_, _, _, fun _ => rfl⟩,
    ⟨by simp, ?_⟩, ?_, ?_⟩
  · intro x; rw [quadInterp_fin ha]; exact polyEval_quad _ _ _ _
  · exact quad_hasDerivAt _ _ _
  · field_simp; ring
  · rintro q' ⟨A, B, C, hq⟩ ⟨h0, hd⟩ hv
    have hC : C = phi0 := by rw [← h0, hq]; ring
    have hB : B = dphi0 := by
      have h : HasDerivAt q' B 0 := by
        rw [show q' = fun x => A * x ^ 2 + B * x + C from funext hq]
        exact quad_hasDerivAt _ _ _
      exact h.unique hd
    have hA : A = (f - phi0 - a * dphi0) / (a * a) := by
      rw [hq, hB, hC] at hv
      field_simp
      linarith
    funext x
    rw [hq x, hA, hB, hC]

/-- For a descent direction the safeguarded quadratic step is the minimiser of that interpolant over the
contraction interval, for every sample. -/
theorem C23_quadratic_step_minimises (solve : Solve2) {phi0 dphi0 a f lo hi : ℝ} (ha : a ≠ 0) (b : Bool)
    (hd : dphi0 < 0) (hlo : 0 < lo) (h : lo ≤ hi) {q : ℝ → ℝ}
    (hq : ∀ x, polyEval (quadInterp phi0 dphi0 ⟨a, .fin f, b⟩).1 x = .fin (q x)) :
    ∃ x, minimizeInterpolant solve phi0 dphi0 ⟨a, .fin f, b⟩ none lo hi = .fin x ∧ MinOn q lo hi x := by
  have hq' : ∀ x, q x = (f - phi0 - a * dphi0) / (a * a) * x ^ 2 + dphi0 * x + phi0 := by
    intro x
    have := hq x
    rw [quadInterp_fin ha, polyEval_quad] at this
    exact (Fl.fin.inj this).symm
  rw [minimizeInterpolant, interpolant, quadInterp_fin ha]
  dsimp only
  clear hq
  generalize (f - phi0 - a * dphi0) / (a * a) = A at *
  unfold safeguard
  simp only [polyEval_quad, Fl.lt_fin, ← hq']
  rcases lt_trichotomy A 0 with hA | hA | hA
  · rw [Fl.div_fin (by linarith)]
    simp only [Fl.lt_fin]
    have hneg : -dphi0 / (2 * A) < 0 := div_neg_of_pos_of_neg (by linarith) (by linarith)
    rw [if_pos (Or.inr (by linarith))]
    -- concave: the minimum is at an end
    have hconc : ∀ y, lo ≤ y → y ≤ hi → q lo ≤ q y ∨ q hi ≤ q y := by
      intro y h1 h2
      by_contra hc
      push Not at hc
      obtain ⟨c1, c2⟩ := hc
      rw [hq', hq'] at c1 c2
      have e1 : (y - lo) * (A * (y + lo) + dphi0) < 0 := by nlinarith
      have : A * (y + lo) + dphi0 < 0 := by nlinarith
      have : 0 < (hi - y) * (A * (hi + y) + dphi0) := by nlinarith
      have : A * (hi + y) + dphi0 < 0 := by nlinarith
      nlinarith
    split_ifs with hp
    · exact ⟨lo, rfl, le_refl _, h, fun y h1 h2 => by rcases hconc y h1 h2 with g | g <;> linarith⟩
    · exact ⟨hi, rfl, h, le_refl _, fun y h1 h2 => by rcases hconc y h1 h2 with g | g <;> linarith⟩
  · subst hA
    have hdiv : Fl.div (.fin (-dphi0)) (.fin (2 * 0)) = .inf false := by
      simp [Fl.div, hd.ne, Fl.sgn, hd.le]
    rw [hdiv, if_pos (Or.inl (by simp [Fl.lt]))]
    have hdec : ∀ y, y ≤ hi → q hi ≤ q y := by intro y hy; rw [hq', hq']; nlinarith
    split_ifs with hp
    · exact absurd hp (not_lt.mpr (hdec lo h))
    · exact ⟨hi, rfl, h, le_refl _, fun y _ h2 => hdec y h2⟩
  · rw [Fl.div_fin (by linarith)]
    simp only [Fl.lt_fin]
    obtain ⟨m, hm⟩ : ∃ m, m = -dphi0 / (2 * A) := ⟨_, rfl⟩
    rw [← hm]
    have hmd : dphi0 = -(2 * A * m) := by rw [hm]; field_simp
    have hsq : ∀ y, q y = A * (y - m) ^ 2 + (phi0 - A * m ^ 2) := by intro y; rw [hq', hmd]; ring
    split_ifs with h1 hp
    · refine ⟨lo, rfl, le_refl _, h, fun y g1 g2 => ?_⟩
      rw [hsq, hsq] at hp
      rcases h1 with h1 | h1
      · exfalso; nlinarith [mul_nonneg hA.le (mul_nonneg (sub_nonneg.mpr h) (show (0:ℝ) ≤ 2 * m - lo - hi by linarith))]
      · rw [hsq, hsq]
        nlinarith [mul_nonneg hA.le (mul_nonneg (sub_nonneg.mpr g1) (show (0:ℝ) ≤ y + lo - 2 * m by linarith))]
    · refine ⟨hi, rfl, h, le_refl _, fun y g1 g2 => ?_⟩
      rw [hsq, hsq] at hp
      rw [hsq, hsq]
      rcases h1 with h1 | h1
      · nlinarith [mul_nonneg hA.le (mul_nonneg (sub_nonneg.mpr g2) (show (0:ℝ) ≤ 2 * m - hi - y by linarith))]
      · nlinarith [mul_nonneg hA.le (mul_nonneg (sub_nonneg.mpr g1) (show (0:ℝ) ≤ y + lo - 2 * m by linarith))]
    · push Not at h1
      refine ⟨m, rfl, h1.2, h1.1, fun y _ _ => ?_⟩
      rw [hsq, hsq]
      nlinarith [mul_nonneg hA.le (sq_nonneg (y - m))]

/-- What the cubic branch computes: a cubic with the right value and slope at zero, which takes the two sampled
values iff `f0 - dphi0 a0 = f1 - dphi0 a1`, because the right-hand side is in the wrong order. -/
theorem C23_cubic_interpolates_iff_partial {solve : Solve2} (hs : solve.Exact) {phi0 dphi0 a0 a1 f0 f1 : ℝ}
    (h0 : a0 ≠ 0) (h1 : a1 ≠ 0) (h01 : a0 ≠ a1) (b b' : Bool) :
    ∃ q : ℝ → ℝ, (∀ x, polyEval (cubicInterp solve phi0 dphi0 ⟨a0, .fin f0, b⟩ ⟨a1, .fin f1, b'⟩).1 x = .fin (q x)) ∧
      IsCubic q ∧ StartsAt q phi0 dphi0 ∧
      ((q a0 = f0 ∧ q a1 = f1) ↔ f0 - dphi0 * a0 = f1 - dphi0 * a1) := by
  have hdet : a0 * a0 * a0 * (a1 * a1) - a0 * a0 * (a1 * a1 * a1) ≠ 0 := by
    have : a0 * a0 * a0 * (a1 * a1) - a0 * a0 * (a1 * a1 * a1) = (a0 * a1) ^ 2 * (a0 - a1) := by ring
    rw [this]
    exact mul_ne_zero (pow_ne_zero _ (mul_ne_zero h0 h1)) (sub_ne_zero.mpr h01)
  obtain ⟨u, v, e, e1, e2⟩ := hs _ _ _ _ (f1 - phi0 - dphi0 * a1) (f0 - phi0 - dphi0 * a0) hdet
  refine ⟨fun x => u * x ^ 3 + v * x ^ 2 + dphi0 * x + phi0, ?_, ⟨_, _, _, _, fun _ => rfl⟩, ⟨by simp, ?_⟩, ?_⟩
  · intro x
    simp only [cubicInterp, Fl.sub_fin]
    rw [e]
    exact polyEval_cubic _ _ _ _ _
  · exact cubic_hasDerivAt _ _ _ _
  · constructor
    · rintro ⟨g0, -⟩
      have : u * a0 ^ 3 + v * a0 ^ 2 = f1 - phi0 - dphi0 * a1 := by rw [← e1]; ring
      dsimp only at g0
      linarith
    · intro g
      have k1 : u * a0 ^ 3 + v * a0 ^ 2 = f1 - phi0 - dphi0 * a1 := by rw [← e1]; ring
      have k2 : u * a1 ^ 3 + v * a1 ^ 2 = f0 - phi0 - dphi0 * a0 := by rw [← e2]; ring
      constructor
      · dsimp only; linarith
      · dsimp only; linarith

/-- Samples of `x³ - x` at 1/2 and 1: the code's cubic does not pass through them, although a cubic exists. -/
theorem C23_cubic_misses_samples {solve : Solve2} (hs : solve.Exact) :
    ∃ q : ℝ → ℝ, (∀ x, polyEval (cubicInterp solve 0 (-1) ⟨1 / 2, .fin ((1 / 2) ^ 3 - 1 / 2), true⟩
        ⟨1, .fin 0, true⟩).1 x = .fin (q x)) ∧ ¬ (q (1 / 2) = (1 / 2) ^ 3 - 1 / 2 ∧ q 1 = 0) := by
  obtain ⟨q, h1, -, -, h2⟩ := C23_cubic_interpolates_iff_partial hs (phi0 := 0) (dphi0 := -1) (a0 := 1 / 2) (a1 := 1)
    (f0 := (1 / 2) ^ 3 - 1 / 2) (f1 := 0) (by norm_num) (by norm_num) (by norm_num) true true
  exact ⟨q, h1, fun h => by have := h2.mp h; norm_num at this⟩

/-- The unsafeguarded cubic step is a local minimiser of the code's own cubic: zero slope, nonnegative
curvature. -/
theorem C23_cubic_step_is_stationary {solve : Solve2} {phi0 dphi0 : ℝ} {c0 c1 : Sample} {u v : ℝ}
    (he : (cubicInterp solve phi0 dphi0 c0 c1).1 = [.fin u, .fin v, .fin dphi0, .fin phi0])
    (hu : u ≠ 0) (hdisc : 0 ≤ v * v - 3 * u * dphi0) :
    ∃ x, (cubicInterp solve phi0 dphi0 c0 c1).2 = .fin x ∧ 3 * u * x ^ 2 + 2 * v * x + dphi0 = 0 ∧
      0 ≤ 6 * u * x + 2 * v := by
  simp only [cubicInterp] at he ⊢
  simp only [List.cons.injEq, and_true] at he
  obtain ⟨e1, e2⟩ := he
  rw [e1, e2]
  simp only [Fl.mul_fin, Fl.sub_fin, Fl.neg_fin]
  rw [Fl.sqrt_fin hdisc, Fl.add_fin, Fl.div_fin (mul_ne_zero (by norm_num) hu)]
  have hsq := Real.mul_self_sqrt hdisc
  have hnn := Real.sqrt_nonneg (v * v - 3 * u * dphi0)
  generalize Real.sqrt (v * v - 3 * u * dphi0) = r at *
  refine ⟨_, rfl, ?_, ?_⟩
  · field_simp
    nlinarith
  · have : 6 * u * ((-v + r) / (3 * u)) + 2 * v = 2 * r := by field_simp; ring
    rw [this]; linarith

/-- `evaluate` computes the polynomial, any degree. -/
theorem C23_evaluate_is_the_polynomial (l : List ℝ) (x : ℝ) : polyEval (l.map .fin) x = .fin (poly l x) := by
  have h : ∀ (l : List ℝ) (r : ℝ), (l.map Fl.fin).foldl (fun r c => Fl.add (Fl.mul r (.fin x)) c) (.fin r) =
      .fin (r * x ^ l.length + poly l x) := by
    intro l
    induction l with
    | nil => intro r; simp [poly]
    | cons c l ih =>
      intro r
      simp only [List.map_cons, List.foldl_cons, Fl.mul_fin, Fl.add_fin, ih, poly, List.length_cons]
      congr 1; ring
  have := h l 0
  simpa [polyEval] using this

theorem polyDeriv_cons (c : ℝ) {l : List ℝ} (h : l ≠ []) :
    (List.range ((c :: l).length - 1)).map
      (fun i => (c :: l).getD i 0 * ((((c :: l).length - 1 : ℕ) : ℝ) - i)) =
    (c * l.length) :: (List.range (l.length - 1)).map (fun i => l.getD i 0 * (((l.length - 1 : ℕ) : ℝ) - i)) := by
  obtain ⟨n, hn⟩ : ∃ n, l.length = n + 1 := ⟨l.length - 1, by have := List.length_pos_iff.mpr h; omega⟩
  simp only [List.length_cons, hn, Nat.add_sub_cancel]
  rw [List.range_succ_eq_map, List.map_cons, List.map_map]
  congr 1
  · simp
  · refine List.map_congr_left fun i _ => ?_
    simp only [Function.comp, List.getD_cons_succ]
    push_cast
    ring

/-- `derivative` returns the coefficients of the derivative, any degree. -/
theorem C23_derivative_is_the_derivative {l : List ℝ} (h : l ≠ []) (x : ℝ) :
    HasDerivAt (poly l) (poly (polyDeriv l) x) x := by
  have key : ∀ l : List ℝ, l ≠ [] → HasDerivAt (poly l)
      (poly ((List.range (l.length - 1)).map (fun i => l.getD i 0 * (((l.length - 1 : ℕ) : ℝ) - i))) x) x := by
    intro l
    induction l with
    | nil => intro h; exact absurd rfl h
    | cons c l ih =>
      intro _
      rcases eq_or_ne l [] with rfl | hl
      · have : poly [c] = fun _ => c := by funext y; simp [poly]
        rw [this]
        simpa [poly] using hasDerivAt_const x c
      · rw [polyDeriv_cons c hl]
        have h1 : HasDerivAt (fun y : ℝ => c * y ^ l.length) (c * (l.length * x ^ (l.length - 1))) x :=
          HasDerivAt.const_mul c (hasDerivAt_pow l.length x)
        have h2 := HasDerivAt.fun_add h1 (ih hl)
        have e : poly (c :: l) = fun y => c * y ^ l.length + poly l y := by funext y; rfl
        rw [e]
        simp only [poly, List.length_map, List.length_range]
        rw [mul_assoc]
        exact h2
  unfold polyDeriv
  split_ifs with h0
  · have := key l h
    rw [h0] at this
    simpa [poly] using this
  · exact key l h

/-- `x² + 3x + 5` -/
example : polyDeriv [1, 3, 5] = [2, 3] := by
  simp [polyDeriv, List.range_succ]; norm_num

/-! ## C24 nonmonotone search -/

/-- Calls made to a search object. -/
inductive NMOp
  | run (phi0 : ℝ)
  | reset

/-- state after a sequence of calls, newest first -/
noncomputable def nmState (eta : ℝ) : List NMOp → NMSt
  | [] => .reset
  | .reset :: _ => .reset
  | .run p :: l => (nmState eta l).update eta p

/-- merit values since the last reset, newest first -/
def sinceReset : List NMOp → List ℝ
  | [] => []
  | .reset :: _ => []
  | .run p :: l => p :: sinceReset l

theorem wsum_ones_nonneg {eta : ℝ} (h : 0 ≤ eta) (l : List ℝ) : 0 ≤ wsum eta (l.map fun _ => 1) := by
  induction l with
  | nil => exact le_refl _
  | cons x l ih => simp only [List.map_cons, wsum]; positivity

/-- The reference value is the geometrically weighted mean of the values since the last reset. -/
theorem C24_reference_is_weighted_mean {eta : ℝ} (h : 0 ≤ eta) (ops : List NMOp) :
    (nmState eta ops).movAvg = wmean eta (sinceReset ops) ∧
      (nmState eta ops).avgWeight = wsum eta ((sinceReset ops).map fun _ => 1) := by
  induction ops with
  | nil => simp [nmState, NMSt.reset, wmean, sinceReset, wsum]
  | cons op l ih =>
    cases op with
    | reset => simp [nmState, NMSt.reset, wmean, sinceReset, wsum]
    | run p =>
      obtain ⟨h1, h2⟩ := ih
      have hw := wsum_ones_nonneg h (sinceReset l)
      simp only [nmState, NMSt.update, sinceReset, wmean, List.map_cons, wsum, h1, h2]
      refine ⟨?_, by ring⟩
      rw [add_comm (eta * wsum eta _) 1]
      congr 1
      cases hl : sinceReset l with
      | nil => simp [wsum]
      | cons y m =>
        have hpos : 0 < wsum eta ((y :: m).map fun _ => 1) := by
          simp only [List.map_cons, wsum]
          have := wsum_ones_nonneg h m
          positivity
        field_simp
        ring

/-- It lies between the smallest and the largest of these values. -/
theorem C24_reference_between_min_and_max {eta : ℝ} (h : 0 ≤ eta) (ops : List NMOp) {lo hi : ℝ}
    (hne : sinceReset ops ≠ []) (hb : ∀ x ∈ sinceReset ops, lo ≤ x ∧ x ≤ hi) :
    lo ≤ (nmState eta ops).movAvg ∧ (nmState eta ops).movAvg ≤ hi := by
  rw [(C24_reference_is_weighted_mean h ops).1]
  have key : ∀ l : List ℝ, (∀ x ∈ l, lo ≤ x ∧ x ≤ hi) →
      lo * wsum eta (l.map fun _ => 1) ≤ wsum eta l ∧ wsum eta l ≤ hi * wsum eta (l.map fun _ => 1) := by
    intro l
    induction l with
    | nil => intro _; simp [wsum]
    | cons x l ih =>
      intro hx
      obtain ⟨i1, i2⟩ := ih fun y hy => hx y (List.mem_cons_of_mem _ hy)
      obtain ⟨j1, j2⟩ := hx x List.mem_cons_self
      simp only [List.map_cons, wsum]
      have k1 := mul_le_mul_of_nonneg_left i1 h
      have k2 := mul_le_mul_of_nonneg_left i2 h
      constructor <;> nlinarith
  obtain ⟨k1, k2⟩ := key _ hb
  have hpos : 0 < wsum eta ((sinceReset ops).map fun _ => 1) := by
    cases hl : sinceReset ops with
    | nil => exact absurd hl hne
    | cons y m =>
      simp only [List.map_cons, wsum]
      have := wsum_ones_nonneg h m
      positivity
  unfold wmean
  exact ⟨(le_div_iff₀ hpos).mpr k1, (div_le_iff₀ hpos).mpr k2⟩

theorem nmLoop_ret (o : Options) (beta movAvg dphi0 : ℝ) (f : ℝ → Option Fl) : ∀ n a r,
    nmLoop o beta movAvg f dphi0 n a = r → match r with
      | .outOfFuel => True
      | .throws b => f b = none ∧ b = o.alphaMin
      | .ret b v => f b = some v ∧ o.alphaMin ≤ b ∧
          (Fl.le v (.fin (movAvg + o.armijoC1 * b * dphi0)) ∨ b = o.alphaMin) := by
  intro n
  induction n with
  | zero => intro a r h; rw [nmLoop] at h; subst h; trivial
  | succ n ih =>
    intro a r h
    rw [nmLoop] at h
    split_ifs at h with h1
    · cases hf : f a with
      | none => rw [hf] at h; exact ih _ _ h
      | some v =>
        rw [hf] at h
        dsimp only at h
        split_ifs at h with h2
        · subst h; exact ⟨hf, h1.le, Or.inl h2⟩
        · exact ih _ _ h
    · rw [max_eq_right (not_lt.mp h1)] at h
      cases hf : f o.alphaMin with
      | none => rw [hf] at h; subst h; exact ⟨hf, rfl⟩
      | some v => rw [hf] at h; subst h; exact ⟨hf, le_refl _, Or.inr rfl⟩

/-- Result of one search, for every merit function and every history: a consistent pair, at least `alpha_min`,
which satisfies the relaxed decrease condition or is `alpha_min`; an exception only leaves the search from the
evaluation at `alpha_min`. -/
theorem C24_result (o : Options) (eta beta : ℝ) (fuel : ℕ) (ops : List NMOp) (f : ℝ → Option Fl) (phi0 dphi0 a : ℝ) :
    match (nmRun o eta beta fuel (nmState eta ops) f phi0 dphi0 a).2 with
      | .outOfFuel => True
      | .throws b => f b = none ∧ b = o.alphaMin
      | .ret b v => f b = some v ∧ o.alphaMin ≤ b ∧
          (Fl.le v (.fin ((nmState eta (.run phi0 :: ops)).movAvg + o.armijoC1 * b * dphi0)) ∨ b = o.alphaMin) :=
  nmLoop_ret o beta _ dphi0 f fuel a _ rfl

/-- The search object's state after the call is that of the extended history. -/
theorem C24_state_after_run (o : Options) (eta beta : ℝ) (fuel : ℕ) (ops : List NMOp) (f : ℝ → Option Fl)
    (phi0 dphi0 a : ℝ) :
    (nmRun o eta beta fuel (nmState eta ops) f phi0 dphi0 a).1 = nmState eta (.run phi0 :: ops) := rfl

theorem nmLoop_terminates (o : Options) {beta : ℝ} (movAvg dphi0 : ℝ) (f : ℝ → Option Fl) : ∀ n a,
    a * beta ^ n ≤ o.alphaMin → nmLoop o beta movAvg f dphi0 (n + 1) a ≠ .outOfFuel := by
  intro n
  induction n with
  | zero =>
    intro a h
    rw [nmLoop, if_neg (by simpa using h)]
    split <;> simp
  | succ n ih =>
    intro a h
    have hrec := ih (a * beta) (by rw [mul_assoc, ← pow_succ']; exact h)
    rw [nmLoop]
    split_ifs with h1
    · cases f a with
      | none => exact hrec
      | some v =>
        dsimp only
        split_ifs
        · simp
        · exact hrec
    · split <;> simp

/-- The nonmonotone search stops for every merit function. -/
theorem C24_C19_nonmonotone_terminates (o : Options) (eta : ℝ) {beta : ℝ} (s : NMSt) (f : ℝ → Option Fl)
    (phi0 dphi0 : ℝ) {a : ℝ} (ha : 0 < a) (hm : 0 < o.alphaMin) (hb0 : 0 ≤ beta) (hb : beta < 1) :
    ∃ k, ∀ fuel, k ≤ fuel → (nmRun o eta beta fuel s f phi0 dphi0 a).2 ≠ .outOfFuel := by
  obtain ⟨k, hk⟩ := exists_pow_lt_of_lt_one (div_pos hm ha) hb
  refine ⟨k + 1, fun fuel hf => ?_⟩
  obtain ⟨m, rfl⟩ : ∃ m, fuel = m + 1 := ⟨fuel - 1, by omega⟩
  refine nmLoop_terminates o _ dphi0 f m a ?_
  have h1 : beta ^ m ≤ beta ^ k := pow_le_pow_of_le_one hb0 hb.le (by omega)
  have h2 := (lt_div_iff₀ ha).mp hk
  nlinarith

/-- A concrete history: two values, weight 1/2. -/
example : (nmState (1 / 2) [.run 1, .run 4, .reset, .run 100]).movAvg = 2 := by
  simp [nmState, NMSt.update, NMSt.reset]; norm_num

/-! ## C21 FDDP search -/

/-- Where the result of the FDDP search comes from: accepted with a consistent pair, or stopped below
`alpha_min + eps`, in which case the value is that of an earlier trial or `phi0`.  Missing for the full claim: the
pair is inconsistent in the second case, see below. -/
theorem C21_accepted_pair_is_consistent_partial (o : Options) (eps thGrad tA tN phi0 : ℝ) (phi : ℝ → Option Fl)
    (model : ℝ → ℝ × ℝ) (fuel : ℕ) {a : ℝ} {v : Fl} {ok : Bool} (hb0 : 0 ≤ o.contractionMin)
    (hb : o.contractionMin ≤ 1) (hm : o.alphaMin ≤ 1)
    (h : goldstein o eps thGrad tA tN phi0 phi model fuel = some (a, v, ok)) :
    (ok = true → phi a = some v ∧ o.alphaMin + eps ≤ a ∧ a ≤ 1 ∧
      (((model a).1 < phi0 ∧ (|(model a).2| < thGrad ∨
          Fl.le (Fl.sub v (.fin phi0)) (.fin (tA * ((model a).1 - phi0))))) ∨
        (phi0 ≤ (model a).1 ∧ Fl.le (Fl.sub v (.fin phi0)) (.fin (tN * ((model a).1 - phi0)))))) ∧
    (ok = false → a < o.alphaMin + eps ∧ (v = .fin phi0 ∨ ∃ s, phi s = some v)) := by
  suffices H : ∀ n x w, x ≤ 1 → (w = .fin phi0 ∨ ∃ s, phi s = some w) →
      goldsteinLoop o eps thGrad tA tN phi0 phi model n x w = some (a, v, ok) → _ from
    H fuel 1 (.fin phi0) (le_refl _) (Or.inl rfl) h
  intro n
  induction n with
  | zero => intro x w _ _ h; simp [goldsteinLoop] at h
  | succ n ih =>
    intro x w hx hw h
    rw [goldsteinLoop] at h
    split_ifs at h with h1
    · simp only [Option.some.injEq, Prod.mk.injEq] at h
      obtain ⟨rfl, rfl, rfl⟩ := h
      exact ⟨by simp, fun _ => ⟨h1, hw⟩⟩
    · have hxb : x * o.contractionMin ≤ 1 := by nlinarith
      cases hp : phi x with
      | none => rw [hp] at h; exact ih _ _ hxb hw h
      | some u =>
        rw [hp] at h
        dsimp only at h
        split_ifs at h with h2
        · simp only [Option.some.injEq, Prod.mk.injEq] at h
          obtain ⟨rfl, rfl, rfl⟩ := h
          refine ⟨fun _ => ⟨hp, not_lt.mp h1, hx, ?_⟩, by simp⟩
          rcases h2 with ⟨g1, g2⟩ | ⟨g1, g2⟩
          · exact Or.inl ⟨by linarith, g2⟩
          · exact Or.inr ⟨by linarith, g2⟩
        · exact ih _ _ (max_le hxb hm) (Or.inr ⟨x, hp⟩) h

/-- The FDDP search stops for every merit function and model. -/
theorem C21_terminates (o : Options) {eps : ℝ} (thGrad tA tN phi0 : ℝ) (phi : ℝ → Option Fl)
    (model : ℝ → ℝ × ℝ) (heps : 0 < eps) (hm : 0 ≤ o.alphaMin) (hb0 : 0 ≤ o.contractionMin)
    (hb : o.contractionMin < 1) :
    ∃ k, goldstein o eps thGrad tA tN phi0 phi model k ≠ none := by
  obtain ⟨k, hk⟩ := exists_pow_lt_of_lt_one (show 0 < o.alphaMin + eps by linarith) hb
  refine ⟨k + 1, ?_⟩
  suffices H : ∀ n x w, x * o.contractionMin ^ n < o.alphaMin + eps →
      goldsteinLoop o eps thGrad tA tN phi0 phi model (n + 1) x w ≠ none from H k 1 _ (by rw [one_mul]; exact hk)
  intro n
  induction n with
  | zero => intro x w h; rw [goldsteinLoop, if_pos (by simpa using h)]; simp
  | succ n ih =>
    intro x w h
    have h' : x * o.contractionMin * o.contractionMin ^ n < o.alphaMin + eps := by
      rw [mul_assoc, ← pow_succ']; exact h
    rw [goldsteinLoop]
    split_ifs with h1
    · simp
    · cases phi x with
      | none => exact ih _ _ h'
      | some u =>
        dsimp only
        split_ifs with h2
        · simp
        · refine ih _ _ ?_
          rcases max_choice (x * o.contractionMin) o.alphaMin with e | e
          · rw [e]; exact h'
          · rw [e]
            have : o.contractionMin ^ n ≤ 1 := pow_le_one₀ hb0 hb.le
            nlinarith

/-- FDDP's options: `alpha_min = 2⁻⁹`, solver-fddp.hxx:26. -/
noncomputable def fddpOptions : Options := { defaultOptions .cubic with alphaMin := 2⁻¹ ^ 9 }

theorem goldstein_exhaust (phi : ℝ → Option Fl) (model : ℝ → ℝ × ℝ) (phi0 : ℝ)
    (hrej : ∀ k ≤ 8, ∃ u, phi (2⁻¹ ^ k) = some u ∧
      ¬ (((model (2⁻¹ ^ k)).1 - phi0 < 0 ∧ (|(model (2⁻¹ ^ k)).2| < 1e-12 ∨
          Fl.le (Fl.sub u (.fin phi0)) (.fin (0.1 * ((model (2⁻¹ ^ k)).1 - phi0))))) ∨
        (¬ (model (2⁻¹ ^ k)).1 - phi0 < 0 ∧
          Fl.le (Fl.sub u (.fin phi0)) (.fin (2 * ((model (2⁻¹ ^ k)).1 - phi0)))))) :
    ∃ u, phi (2⁻¹ ^ 8) = some u ∧
      goldstein fddpOptions (2⁻¹ ^ 52) 1e-12 0.1 2 phi0 phi model 10 = some (2⁻¹ ^ 9, u, false) := by
  have step : ∀ k ≤ 8, ∀ n w, ∃ u, phi (2⁻¹ ^ k) = some u ∧
      goldsteinLoop fddpOptions (2⁻¹ ^ 52) 1e-12 0.1 2 phi0 phi model (n + 1) (2⁻¹ ^ k) w =
      goldsteinLoop fddpOptions (2⁻¹ ^ 52) 1e-12 0.1 2 phi0 phi model n (2⁻¹ ^ (k + 1)) u := by
    intro k hk n w
    obtain ⟨u, hu, hr⟩ := hrej k hk
    refine ⟨u, hu, ?_⟩
    have hlt : ¬ ((2⁻¹ : ℝ) ^ k < fddpOptions.alphaMin + 2⁻¹ ^ 52) := by
      have h8 : (2⁻¹ : ℝ) ^ 8 ≤ 2⁻¹ ^ k := pow_le_pow_of_le_one (by norm_num) (by norm_num) hk
      have : fddpOptions.alphaMin = (2⁻¹ : ℝ) ^ 9 := rfl
      rw [this]
      have : (2⁻¹ : ℝ) ^ 9 + 2⁻¹ ^ 52 ≤ 2⁻¹ ^ 8 := by norm_num
      linarith
    rw [goldsteinLoop, if_neg hlt, hu]
    dsimp only
    rw [if_neg hr]
    congr 1
    have hc : fddpOptions.contractionMin = 0.5 := rfl
    have ha : fddpOptions.alphaMin = (2⁻¹ : ℝ) ^ 9 := rfl
    rw [hc, ha, pow_succ (2⁻¹ : ℝ) k, show (0.5 : ℝ) = 2⁻¹ by norm_num]
    refine max_eq_left ?_
    rw [← pow_succ (2⁻¹ : ℝ) k]
    exact pow_le_pow_of_le_one (show (0:ℝ) ≤ 2⁻¹ by norm_num) (show (2⁻¹:ℝ) ≤ 1 by norm_num) (by omega)
  have run : ∀ m ≤ 8, ∀ n w, ∃ u, phi (2⁻¹ ^ m) = some u ∧
      goldsteinLoop fddpOptions (2⁻¹ ^ 52) 1e-12 0.1 2 phi0 phi model (n + m + 1) 1 w =
      goldsteinLoop fddpOptions (2⁻¹ ^ 52) 1e-12 0.1 2 phi0 phi model n (2⁻¹ ^ (m + 1)) u := by
    intro m
    induction m with
    | zero => intro _ n w; simpa using step 0 (by omega) n w
    | succ m ih =>
      intro hm n w
      obtain ⟨u, -, e⟩ := ih (by omega) (n + 1) w
      obtain ⟨u', hu', e'⟩ := step (m + 1) hm n u
      exact ⟨u', hu', by rw [show n + (m + 1) + 1 = n + 1 + m + 1 by omega, e, e']⟩
  obtain ⟨u, hu, e⟩ := run 8 (le_refl _) 1 (.fin phi0)
  refine ⟨u, hu, ?_⟩
  unfold goldstein
  rw [show (10:ℕ) = 1 + 8 + 1 from rfl, e, goldsteinLoop, if_pos]
  show (2⁻¹ : ℝ) ^ (8 + 1) < 2⁻¹ ^ 9 + 2⁻¹ ^ 52
  norm_num

/-- When every trial is rejected the search returns `alpha_min` with the value of the previous trial: with
`φ(x) = x` and model decrease one, the pair is `(2⁻⁹, φ(2⁻⁸))`. -/
theorem C21_exhausted_search_returns_unevaluated_step :
    let phi : ℝ → Option Fl := fun x => some (.fin x)
    goldstein fddpOptions (2⁻¹ ^ 52) 1e-12 0.1 2 0 phi (fun _ => (-1, -1)) 10 = some (2⁻¹ ^ 9, .fin (2⁻¹ ^ 8), false) ∧
      phi (2⁻¹ ^ 9) ≠ some (.fin (2⁻¹ ^ 8)) := by
  intro phi
  constructor
  · obtain ⟨u, hu, e⟩ := goldstein_exhaust phi (fun _ => (-1, -1)) 0 (by
      intro k _
      refine ⟨_, rfl, ?_⟩
      rw [Fl.sub_fin, Fl.le_fin, Fl.le_fin]
      have : (0:ℝ) < 2⁻¹ ^ k := by positivity
      rintro (⟨-, h | h⟩ | ⟨h, -⟩)
      · norm_num at h
      · dsimp only at h; linarith
      · norm_num at h)
    rw [e]
    simp only [phi, Option.some.injEq] at hu
    rw [hu]
  · intro h
    simp only [phi, Option.some.injEq, Fl.fin.injEq] at h
    norm_num at h

/-- A merit function that always throws: the step falls below `alpha_min` when the contraction factor does not
divide it; the value is `phi0`. -/
theorem C21_throwing_merit_goes_below_alphaMin (model : ℝ → ℝ × ℝ) :
    let o : Options := { fddpOptions with contractionMin := 1 / 1000 }
    goldstein o (2⁻¹ ^ 52) 1e-12 0.1 2 7 (fun _ => none) model 2 = some (1 / 1000, .fin 7, false) ∧
      (1 / 1000 : ℝ) < o.alphaMin := by
  intro o
  have ha : o.alphaMin = (2⁻¹ : ℝ) ^ 9 := rfl
  have hc : o.contractionMin = 1 / 1000 := rfl
  constructor
  · unfold goldstein
    rw [goldsteinLoop, if_neg (by rw [ha]; norm_num)]
    dsimp only
    rw [goldsteinLoop, if_pos (by rw [ha, hc]; norm_num), hc, one_mul]
  · rw [ha]; norm_num

/-- a full step that is accepted -/
example : goldstein fddpOptions (2⁻¹ ^ 52) 1e-12 0.1 2 1 (fun x => some (.fin (1 - x))) (fun x => (1 - x, -1)) 1 =
    some (1, .fin 0, true) := by
  unfold goldstein
  rw [goldsteinLoop, if_neg (by show ¬ (1:ℝ) < 2⁻¹ ^ 9 + 2⁻¹ ^ 52; norm_num)]
  dsimp only
  rw [if_pos (Or.inl ⟨by norm_num, Or.inr (by rw [Fl.sub_fin, Fl.le_fin]; norm_num)⟩)]
  norm_num

end Aligator.Linesearch
