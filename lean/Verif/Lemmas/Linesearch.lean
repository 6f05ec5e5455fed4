import Verif.Model.Linesearch
import Mathlib.Tactic

/-! # Lemmas on the line-search model -/

namespace Aligator.Linesearch

namespace Fl

@[simp] theorem sub_fin (x y : ℝ) : sub (fin x) (fin y) = fin (x - y) := by simp [sub, neg, add, sub_eq_add_neg]
@[simp] theorem add_fin (x y : ℝ) : add (fin x) (fin y) = fin (x + y) := rfl
@[simp] theorem mul_fin (x y : ℝ) : mul (fin x) (fin y) = fin (x * y) := rfl
@[simp] theorem neg_fin (x : ℝ) : neg (fin x) = fin (-x) := rfl
@[simp] theorem le_fin (x y : ℝ) : le (fin x) (fin y) ↔ x ≤ y := Iff.rfl
@[simp] theorem lt_fin (x y : ℝ) : lt (fin x) (fin y) ↔ x < y := Iff.rfl
theorem div_fin {x y : ℝ} (h : y ≠ 0) : div (fin x) (fin y) = fin (x / y) := by simp [div, h]
theorem sqrt_fin {x : ℝ} (h : 0 ≤ x) : sqrt (fin x) = fin (Real.sqrt x) := by simp [sqrt, not_lt.mpr h]
@[simp] theorem nan_sub (x : Fl) : sub nan x = nan := by cases x <;> rfl
@[simp] theorem not_nan_le (x : Fl) : ¬ le nan x := by cases x <;> simp [le]
@[simp] theorem nan_div (x : Fl) : div nan x = nan := by cases x <;> rfl
@[simp] theorem div_nan (x : Fl) : div x nan = nan := by cases x <;> rfl
@[simp] theorem mul_nan (x : Fl) : mul x nan = nan := by cases x <;> rfl
@[simp] theorem not_lt_nan (x : Fl) : ¬ lt x nan := by rcases x with _ | b | x <;> simp [lt]
@[simp] theorem not_nan_lt (x : Fl) : ¬ lt nan x := by cases x <;> simp [lt]

end Fl

theorem polyEval_quad (a b c x : ℝ) : polyEval [.fin a, .fin b, .fin c] x = .fin (a * x ^ 2 + b * x + c) := by
  simp only [polyEval, List.foldl, Fl.mul_fin, Fl.add_fin]
  congr 1; ring

theorem polyEval_cubic (a b c d x : ℝ) :
    polyEval [.fin a, .fin b, .fin c, .fin d] x = .fin (a * x ^ 3 + b * x ^ 2 + c * x + d) := by
  simp only [polyEval, List.foldl, Fl.mul_fin, Fl.add_fin]
  congr 1; ring

/-- a safeguarded step is NaN or inside the bounds -/
theorem minimizeInterpolant_cases (solve : Solve2) (phi0 dphi0 : ℝ) (c0 : Sample) (c1 : Option Sample)
    {lo hi : ℝ} (h : lo ≤ hi) :
    minimizeInterpolant solve phi0 dphi0 c0 c1 lo hi = .nan ∨
      ∃ x, minimizeInterpolant solve phi0 dphi0 c0 c1 lo hi = .fin x ∧ lo ≤ x ∧ x ≤ hi := by
  unfold minimizeInterpolant
  generalize (interpolant solve phi0 dphi0 c0 c1).1 = coeffs
  generalize (interpolant solve phi0 dphi0 c0 c1).2 = anext
  unfold safeguard
  split_ifs with h1 h2
  · exact Or.inr ⟨lo, rfl, le_refl _, h⟩
  · exact Or.inr ⟨hi, rfl, h, le_refl _⟩
  · rcases anext with _ | b | x
    · exact Or.inl rfl
    · exfalso; apply h1; cases b
      · left; simp [Fl.lt]
      · right; simp [Fl.lt]
    · refine Or.inr ⟨x, rfl, ?_, ?_⟩
      · by_contra hc; exact h1 (Or.inr (by simpa using hc))
      · by_contra hc; exact h1 (Or.inl (by simpa using hc))

theorem quadInterp_fin {phi0 dphi0 a f : ℝ} (ha : a ≠ 0) (b : Bool) :
    quadInterp phi0 dphi0 ⟨a, .fin f, b⟩ =
      ([.fin ((f - phi0 - a * dphi0) / (a * a)), .fin dphi0, .fin phi0],
       Fl.div (.fin (-dphi0)) (.fin (2 * ((f - phi0 - a * dphi0) / (a * a))))) := by
  simp [quadInterp, Fl.div_fin (mul_ne_zero ha ha)]

theorem safeguard_nan {coeffs : List Fl} {anext : Fl} {lo hi : ℝ} (h : safeguard coeffs anext lo hi = .nan) :
    anext = .nan := by
  unfold safeguard at h
  split_ifs at h
  exact h

/-- the quadratic step is not NaN on finite data -/
theorem quad_not_nan (solve : Solve2) {phi0 dphi0 : ℝ} {a f lo hi : ℝ} (ha : a ≠ 0) (hd : dphi0 ≠ 0) (b : Bool) :
    minimizeInterpolant solve phi0 dphi0 ⟨a, .fin f, b⟩ none lo hi ≠ .nan := by
  intro h
  have h := safeguard_nan h
  rw [interpolant, quadInterp_fin ha] at h
  dsimp only at h
  by_cases hz : 2 * ((f - phi0 - a * dphi0) / (a * a)) = 0
  · rw [hz] at h; simp [Fl.div, hd] at h
  · rw [Fl.div_fin hz] at h; exact Fl.noConfusion h

/-- The three shapes of the next trial step. -/
theorem nextAlpha_cases (o : Options) (solve : Solve2) (phi0 dphi0 : ℝ) (s : ASt)
    (hc : o.contractionMin * s.alpha ≤ o.contractionMax * s.alpha) :
    (o.interp = .bisection ∧ nextAlpha o solve phi0 dphi0 s = max (s.alpha * 0.5) o.alphaMin) ∨
    (o.interp ≠ .bisection ∧ ∃ x, nextAlpha o solve phi0 dphi0 s = max x o.alphaMin ∧
      o.contractionMin * s.alpha ≤ x ∧ x ≤ o.contractionMax * s.alpha) ∨
    (o.interp ≠ .bisection ∧ nextAlpha o solve phi0 dphi0 s = o.contractionMin * s.previous.alpha) := by
  unfold nextAlpha
  rcases hi : o.interp with _ | _ | _
  · left; exact ⟨rfl, rfl⟩
  · right
    rcases minimizeInterpolant_cases solve phi0 dphi0 s.latest none hc with h | ⟨x, h, h1, h2⟩
    · right; refine ⟨by simp, ?_⟩; simp only [h]
    · left; refine ⟨by simp, x, ?_, h1, h2⟩; simp only [h]
  · right
    rcases minimizeInterpolant_cases solve phi0 dphi0 s.latest
      (if s.previous.valid then some s.previous else none) hc with h | ⟨x, h, h1, h2⟩
    · right; refine ⟨by simp, ?_⟩; simp only [h]
    · left; refine ⟨by simp, x, ?_, h1, h2⟩; simp only [h]

/-- induction principle for the main loop: an invariant kept by both kinds of trial -/
theorem armijoLoop_inv (o : Options) (solve : Solve2) (phi : ℝ → Option Fl) (phi0 dphi0 : ℝ) (I : ASt → Prop)
    (hthrow : ∀ s, I s → phi (nextAlpha o solve phi0 dphi0 s) = none →
      I { s with alpha := nextAlpha o solve phi0 dphi0 s, previous := s.latest,
                 calls := nextAlpha o solve phi0 dphi0 s :: s.calls })
    (hval : ∀ s v, I s → phi (nextAlpha o solve phi0 dphi0 s) = some v →
      I { s with alpha := nextAlpha o solve phi0 dphi0 s, previous := s.latest,
                 latest := ⟨nextAlpha o solve phi0 dphi0 s, v, true⟩,
                 calls := nextAlpha o solve phi0 dphi0 s :: s.calls }) :
    ∀ n s, I s → I (armijoLoop o solve phi phi0 dphi0 n s) := by
  intro n
  induction n with
  | zero => intro s h; exact h
  | succ n ih =>
    intro s h
    rw [armijoLoop]
    split_ifs with h1
    · exact h
    · dsimp only
      cases hp : phi (nextAlpha o solve phi0 dphi0 s) with
      | none => exact ih _ (hthrow s h hp)
      | some v =>
        dsimp only
        split_ifs with h2
        · exact hval s v h hp
        · exact ih _ (hval s v h hp)

/-- why the main loop stopped -/
theorem armijoLoop_exit (o : Options) (solve : Solve2) (phi : ℝ → Option Fl) (phi0 dphi0 : ℝ) :
    ∀ n s, let t := armijoLoop o solve phi phi0 dphi0 n s
      t.calls.length ≤ s.calls.length + n ∧
      (Fl.le (Fl.sub t.latest.phi (.fin phi0)) (.fin (o.armijoC1 * t.alpha * dphi0)) ∨
        t.alpha ≤ o.alphaMin ∨ t.calls.length = s.calls.length + n) := by
  intro n
  induction n with
  | zero => intro s; exact ⟨le_refl _, Or.inr (Or.inr rfl)⟩
  | succ n ih =>
    intro s
    rw [armijoLoop]
    split_ifs with h1
    · exact ⟨Nat.le_add_right _ _, Or.inl h1⟩
    · dsimp only
      cases hp : phi (nextAlpha o solve phi0 dphi0 s) with
      | none =>
        have := ih { s with alpha := nextAlpha o solve phi0 dphi0 s, previous := s.latest,
                            calls := nextAlpha o solve phi0 dphi0 s :: s.calls }
        simp only [List.length_cons] at this
        refine ⟨by have := this.1; dsimp only; omega, ?_⟩
        rcases this.2 with h | h | h
        · exact Or.inl h
        · exact Or.inr (Or.inl h)
        · exact Or.inr (Or.inr (by dsimp only; omega))
      | some v =>
        dsimp only
        split_ifs with h2
        · exact ⟨by simp only [List.length_cons]; omega, Or.inr (Or.inl h2)⟩
        · have := ih { s with alpha := nextAlpha o solve phi0 dphi0 s, previous := s.latest,
                              latest := ⟨nextAlpha o solve phi0 dphi0 s, v, true⟩,
                              calls := nextAlpha o solve phi0 dphi0 s :: s.calls }
          simp only [List.length_cons] at this
          refine ⟨by have := this.1; omega, ?_⟩
          rcases this.2 with h | h | h
          · exact Or.inl h
          · exact Or.inr (Or.inl h)
          · exact Or.inr (Or.inr (by omega))

/-- The first phase: halvings of the entry step, a value or the lower bound. -/
theorem armijoFirst_spec (o : Options) (phi : ℝ → Option Fl) : ∀ n s t, armijoFirst o phi n s = some t →
    t.previous = s.previous ∧ t.calls.length ≤ s.calls.length + n ∧ s.calls.length < t.calls.length ∧
    ((∃ v, phi t.alpha = some v ∧ t.latest = ⟨t.alpha, v, true⟩ ∧ t.calls.head? = some t.alpha ∧
        (t.alpha = s.alpha ∨ o.alphaMin < t.alpha)) ∨
      (t.alpha = o.alphaMin ∧ t.latest = s.latest ∧
        ((∀ c ∈ s.calls, phi c = none) → ∀ c ∈ t.calls, phi c = none))) := by
  intro n
  induction n with
  | zero => intro s t h; simp [armijoFirst] at h
  | succ n ih =>
    intro s t h
    rw [armijoFirst] at h
    dsimp only at h
    cases hp : phi s.alpha with
    | some v =>
      rw [hp] at h
      simp only [Option.some.injEq] at h
      subst h
      exact ⟨rfl, by simp only [List.length_cons]; omega, by simp,
        Or.inl ⟨v, hp, rfl, rfl, Or.inl rfl⟩⟩
    | none =>
      rw [hp] at h
      dsimp only at h
      split_ifs at h with h1
      · simp only [Option.some.injEq] at h
        subst h
        refine ⟨rfl, by simp only [List.length_cons]; omega, by simp, Or.inr ⟨rfl, rfl, ?_⟩⟩
        intro hc c hm
        rcases List.mem_cons.mp hm with rfl | hm
        · exact hp
        · exact hc c hm
      · obtain ⟨e1, e2, e3, e4⟩ := ih _ _ h
        simp only [List.length_cons] at e2 e3
        refine ⟨e1, by omega, by omega, ?_⟩
        rcases e4 with ⟨v, f1, f2, f3, f4⟩ | ⟨f1, f2, f3⟩
        · refine Or.inl ⟨v, f1, f2, f3, Or.inr ?_⟩
          rcases f4 with f4 | f4
          · rw [f4]; exact not_le.mp h1
          · exact f4
        · refine Or.inr ⟨f1, f2, fun hc => f3 ?_⟩
          intro c hm
          rcases List.mem_cons.mp hm with rfl | hm
          · exact hp
          · exact hc c hm

/-- the first phase ends -/
theorem armijoFirst_terminates (o : Options) (phi : ℝ → Option Fl) : ∀ n s, s.alpha * 0.5 ^ n ≤ o.alphaMin →
    0 < n → armijoFirst o phi n s ≠ none := by
  intro n
  induction n with
  | zero => intro s _ h; omega
  | succ n ih =>
    intro s h _
    rw [armijoFirst]
    dsimp only
    cases hp : phi s.alpha with
    | some v => simp
    | none =>
      dsimp only
      split_ifs with h1
      · simp
      · have hn : 0 < n := by
          rcases Nat.eq_zero_or_pos n with rfl | hn
          · exfalso; apply h1; simpa using h
          · exact hn
        refine ih _ ?_ hn
        show s.alpha * 0.5 * 0.5 ^ n ≤ o.alphaMin
        rw [mul_assoc, ← pow_succ']
        exact h

end Aligator.Linesearch
