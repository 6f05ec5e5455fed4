import Verif.Model.Rollout
import Verif.Spec.Rollout
import Mathlib.Analysis.SpecificLimits.Basic
import Mathlib.Tactic.NormNum
import Mathlib.Tactic.Linarith
import Mathlib.Tactic.Positivity

/-!
# Newton-Raphson (C49) and rollouts (C48)
-/

namespace Aligator.Roll

variable {X V D U E : Type}

/-! ## Newton-Raphson -/

/-- What a finished line search leaves: either an accepted candidate, or the old point and norm. -/
theorem lineSearch_inv (e : Env X V D) (o : Options) (d : D) (fuel : ℕ) (alpha : ℝ) (s s' : St X V)
    (h : lineSearch e o d fuel alpha s = some s') :
    (∃ a, s'.x = e.integrate s.x a d ∧ s'.f0 = e.fn s'.x ∧ s'.err = e.norm (e.fn s'.x) ∧
      s'.err ≤ (1 - o.armijoC1) * s.err) ∨ (s'.x = s.x ∧ s'.err = s.err) := by
  induction fuel generalizing alpha s with
  | zero => simp [lineSearch] at h
  | succ fuel ih =>
    rw [lineSearch] at h
    split at h
    · simp only at h
      split at h
      · rename_i hacc
        simp only [Option.some.injEq] at h
        subst h
        exact .inl ⟨alpha, rfl, rfl, rfl, hacc⟩
      · exact ih _ { s with f0 := e.fn (e.integrate s.x alpha d) } h
    · simp only [Option.some.injEq] at h
      subst h
      exact .inr ⟨rfl, rfl⟩

/-- The invariant of the outer loop. -/
theorem newtonLoop_inv (e : Env X V D) (o : Options) (hc : 0 ≤ o.armijoC1) (hn : ∀ v, 0 ≤ e.norm v) (eps : ℝ)
    (fuel left iter : ℕ) (s : St X V) (hs : s.err = e.norm (e.fn s.x)) (b : Bool) (s' : St X V) (it : ℕ)
    (h : newtonLoop e o eps fuel left iter s = some (b, s', it)) :
    s'.err = e.norm (e.fn s'.x) ∧ s'.err ≤ s.err ∧ iter ≤ it ∧ it ≤ iter + left ∧ (b = true ↔ s'.err ≤ eps) ∧
      (b = false → it = iter + left) := by
  induction left generalizing iter s with
  | zero =>
    rw [newtonLoop] at h
    split at h
    · rename_i hle; simp at h; obtain ⟨rfl, rfl, rfl⟩ := h; exact ⟨hs, le_refl _, le_refl _, by omega, by simp [hle], by simp⟩
    · rename_i hle; simp at h; obtain ⟨rfl, rfl, rfl⟩ := h; exact ⟨hs, le_refl _, le_refl _, by omega, by simpa using hle, by simp⟩
  | succ left ih =>
    rw [newtonLoop] at h
    split at h
    · rename_i hle; simp at h; obtain ⟨rfl, rfl, rfl⟩ := h; exact ⟨hs, le_refl _, le_refl _, by omega, by simp [hle], by simp⟩
    · split at h
      · simp at h
      · rename_i s1 h1
        have hs1 : s1.err = e.norm (e.fn s1.x) ∧ s1.err ≤ s.err := by
          rcases lineSearch_inv e o _ fuel 1 s s1 h1 with ⟨a, -, -, h2, h3⟩ | ⟨h2, h3⟩
          · refine ⟨h2, h3.trans ?_⟩
            have : 0 ≤ s.err := hs ▸ hn _
            nlinarith
          · rw [h2, h3]; exact ⟨hs, le_refl _⟩
        obtain ⟨a, b, c, d, e, f⟩ := ih (iter + 1) s1 hs1.1 h
        exact ⟨a, b.trans hs1.2, by omega, by omega, e, fun hb => by have := f hb; omega⟩

/-- **C49.**  Whenever the procedure returns: the residual norm at the returned point is not larger than at the start;
it returns true exactly if that norm is at most `eps`; it performed at most `max_iters` iterations, and all of them if
it returns false.  Any function, Jacobian solver, manifold. -/
theorem C49_newton (e : Env X V D) (o : Options) (hc : 0 ≤ o.armijoC1) (hn : ∀ v, 0 ≤ e.norm v) (eps : ℝ)
    (maxIters fuel : ℕ) (xinit : X) (b : Bool) (s : St X V) (it : ℕ)
    (h : newton e o eps maxIters fuel xinit = some (b, s, it)) :
    e.norm (e.fn s.x) ≤ e.norm (e.fn xinit) ∧ (b = true ↔ e.norm (e.fn s.x) ≤ eps) ∧ it ≤ maxIters ∧
      (b = false → it = maxIters) := by
  obtain ⟨h1, h2, -, h4, h5, h6⟩ := newtonLoop_inv e o hc hn eps fuel maxIters 0 _ rfl b s it h
  rw [h1] at h2 h5
  exact ⟨h2, h5, by omega, fun hb => by have := h6 hb; omega⟩

/-- **C49, per iteration.**  One line search never increases the residual norm, and lowers it by the factor
`1 - armijo_c1` whenever it moves the point. -/
theorem C49_never_increases (e : Env X V D) (o : Options) (hc : 0 ≤ o.armijoC1) (hn : ∀ v, 0 ≤ e.norm v) (d : D)
    (fuel : ℕ) (s s' : St X V) (hs : s.err = e.norm (e.fn s.x)) (h : lineSearch e o d fuel 1 s = some s') :
    e.norm (e.fn s'.x) ≤ e.norm (e.fn s.x) ∧
      (s'.x ≠ s.x → e.norm (e.fn s'.x) ≤ (1 - o.armijoC1) * e.norm (e.fn s.x)) := by
  rcases lineSearch_inv e o d fuel 1 s s' h with ⟨a, -, -, h2, h3⟩ | ⟨h2, h3⟩
  · rw [h2, hs] at h3
    refine ⟨h3.trans ?_, fun _ => h3⟩
    have := hn (e.fn s.x)
    nlinarith
  · rw [h2]; exact ⟨le_refl _, fun h => absurd rfl h⟩

theorem lineSearch_terminates (e : Env X V D) (o : Options) (d : D) (n : ℕ) (alpha : ℝ) (s : St X V)
    (h : alpha * o.lsBeta ^ n ≤ o.alphaMin) (fuel : ℕ) (hf : n < fuel) :
    ∃ s', lineSearch e o d fuel alpha s = some s' := by
  induction n generalizing alpha s fuel with
  | zero =>
    obtain ⟨f, rfl⟩ : ∃ f, fuel = f + 1 := ⟨fuel - 1, by omega⟩
    rw [lineSearch, if_neg (by simpa using h)]
    exact ⟨s, rfl⟩
  | succ n ih =>
    obtain ⟨f, rfl⟩ : ∃ f, fuel = f + 1 := ⟨fuel - 1, by omega⟩
    rw [lineSearch]
    split
    · simp only
      split
      · exact ⟨_, rfl⟩
      · exact ih _ _ (by rwa [mul_assoc, ← pow_succ']) f (by omega)
    · exact ⟨s, rfl⟩

theorem newtonLoop_terminates (e : Env X V D) (o : Options) (eps : ℝ) (n : ℕ) (h : o.lsBeta ^ n ≤ o.alphaMin)
    (fuel : ℕ) (hf : n < fuel) (left iter : ℕ) (s : St X V) :
    ∃ r, newtonLoop e o eps fuel left iter s = some r := by
  induction left generalizing iter s with
  | zero => rw [newtonLoop]; split <;> exact ⟨_, rfl⟩
  | succ left ih =>
    rw [newtonLoop]
    split
    · exact ⟨_, rfl⟩
    · obtain ⟨s', hs'⟩ := lineSearch_terminates e o (e.solve s.x s.f0) n 1 s (by rwa [one_mul]) fuel hf
      simp only [hs']
      exact ih _ _

/-- **C49, termination.**  With a contraction factor below 1 and a positive smallest step, the procedure returns, after
a number of line-search rounds that does not depend on the function. -/
theorem C49_terminates (o : Options) (h1 : o.lsBeta < 1) (ha : 0 < o.alphaMin) :
    ∃ n, ∀ (e : Env X V D) (eps : ℝ) (maxIters : ℕ) (xinit : X) (fuel : ℕ), n < fuel →
      ∃ r, newton e o eps maxIters fuel xinit = some r := by
  obtain ⟨n, hn⟩ := exists_pow_lt_of_lt_one ha h1
  exact ⟨n, fun e eps maxIters xinit fuel hf =>
    newtonLoop_terminates e o eps n hn.le fuel hf maxIters 0 _⟩

/-- With the default options, 28 rounds are enough. -/
theorem C49_default_terminates (e : Env X V D) (eps : ℝ) (maxIters : ℕ) (xinit : X) (fuel : ℕ) (hf : 28 ≤ fuel) :
    ∃ r, newton e Options.default eps maxIters fuel xinit = some r :=
  newtonLoop_terminates e _ eps 27 (by rw [Options.default]; norm_num) fuel (by omega) maxIters 0 _

/-- A contraction factor of 1 (which nothing rejects) makes the line search run for ever when the first candidate is not
accepted. -/
theorem C49_factor_one_diverges (e : Env X V D) (o : Options) (hb : o.lsBeta = 1) (ha : o.alphaMin < 1) (d : D)
    (s : St X V) (hr : (1 - o.armijoC1) * s.err < e.norm (e.fn (e.integrate s.x 1 d))) (fuel : ℕ) :
    lineSearch e o d fuel 1 s = none := by
  induction fuel generalizing s with
  | zero => rfl
  | succ n ih =>
    rw [lineSearch, if_pos ha]
    simp only
    rw [if_neg (not_le.2 hr), hb, mul_one]
    exact ih { s with f0 := _ } hr

/-- **C49, a defect in the direction.**  After a line search that rejects its candidates, the buffer `f0` holds the
function at the last rejected candidate, and the next direction is computed from it instead of the function at the
current point: here `f(x) = x² + 1` from `x = 1/10`, options (1/2, 1/2, 1/100); the second direction solves
`J d = -f(-4.95)`. -/
theorem C49_stale_residual :
    ∃ (e : Env ℝ ℝ ℝ) (s s' : St ℝ ℝ), s.f0 = e.fn s.x ∧ s.err = e.norm (e.fn s.x) ∧
      lineSearch e ⟨1 / 2, 1 / 2, 1 / 100⟩ (e.solve s.x s.f0) 2 1 s = some s' ∧ s'.x = s.x ∧ s'.f0 ≠ e.fn s'.x ∧
      e.solve s'.x s'.f0 ≠ e.solve s'.x (e.fn s'.x) := by
  refine ⟨⟨fun x => x ^ 2 + 1, fun x f => -f / (2 * x), fun x a d => x + a * d, fun v => |v|⟩,
    ⟨1 / 10, 101 / 100, 101 / 100⟩, ⟨1 / 10, 10201 / 400, 101 / 100⟩, by norm_num, by norm_num, ?_, rfl,
    by norm_num, by norm_num⟩
  norm_num [lineSearch, abs_of_pos]

theorem lineSearch_first (e : Env X V D) (o : Options) (d : D) (k : ℕ) (a : ℝ) (s : St X V) (fuel : ℕ) (hf : k < fuel)
    (ha : ∀ j ≤ k, o.alphaMin < a * o.lsBeta ^ j)
    (hr : ∀ j < k, (1 - o.armijoC1) * s.err < e.norm (e.fn (e.integrate s.x (a * o.lsBeta ^ j) d)))
    (hk : e.norm (e.fn (e.integrate s.x (a * o.lsBeta ^ k) d)) ≤ (1 - o.armijoC1) * s.err) :
    lineSearch e o d fuel a s = some ⟨e.integrate s.x (a * o.lsBeta ^ k) d,
      e.fn (e.integrate s.x (a * o.lsBeta ^ k) d), e.norm (e.fn (e.integrate s.x (a * o.lsBeta ^ k) d))⟩ := by
  induction k generalizing a s fuel with
  | zero =>
    obtain ⟨f, rfl⟩ : ∃ f, fuel = f + 1 := ⟨fuel - 1, by omega⟩
    simp only [pow_zero, mul_one] at *
    rw [lineSearch, if_pos (by simpa using ha 0 (le_refl _))]
    simp only
    rw [if_pos hk]
  | succ k ih =>
    obtain ⟨f, rfl⟩ : ∃ f, fuel = f + 1 := ⟨fuel - 1, by omega⟩
    have e1 : ∀ j, a * o.lsBeta ^ (j + 1) = a * o.lsBeta * o.lsBeta ^ j := fun j => by rw [pow_succ', mul_assoc]
    rw [lineSearch, if_pos (by simpa using ha 0 (by omega))]
    simp only
    rw [if_neg (not_le.2 (by simpa using hr 0 (by omega)))]
    rw [e1] at hk ⊢
    exact ih (a * o.lsBeta) { s with f0 := _ } f (by omega) (fun j hj => by rw [← e1]; exact ha (j + 1) (by omega))
      (fun j hj => by rw [← e1]; exact hr (j + 1) (by omega)) hk

/-- **C49, the default line search.**  The candidate steps are 1, 0.7071, 0.7071², … 0.7071²⁶.  The first of them that
lowers the residual norm to 99 % or less is taken, and the point, the residual and its norm are those of that
candidate. -/
theorem C49_default_search (e : Env X V D) (d : D) (k : ℕ) (hk : k ≤ 26) (s : St X V)
    (hr : ∀ j < k, 99 / 100 * s.err < e.norm (e.fn (e.integrate s.x (0.7071 ^ j) d)))
    (ha : e.norm (e.fn (e.integrate s.x (0.7071 ^ k) d)) ≤ 99 / 100 * s.err) :
    lineSearch e Options.default d 28 1 s = some ⟨e.integrate s.x (0.7071 ^ k) d,
      e.fn (e.integrate s.x (0.7071 ^ k) d), e.norm (e.fn (e.integrate s.x (0.7071 ^ k) d))⟩ := by
  have hb : Options.default.lsBeta = 0.7071 := by norm_num [Options.default]
  have hc : 1 - Options.default.armijoC1 = 99 / 100 := by norm_num [Options.default]
  have h := lineSearch_first e Options.default d k 1 s 28 (by omega) (fun j hj => by
    rw [hb, one_mul]
    have h1 : (0.7071 : ℝ) ^ 26 ≤ 0.7071 ^ j := pow_le_pow_of_le_one (by norm_num) (by norm_num) (by omega)
    refine lt_of_lt_of_le ?_ h1
    norm_num [Options.default]) (fun j hj => by rw [hb, hc, one_mul]; exact hr j hj) (by rw [hb, hc, one_mul]; exact ha)
  rwa [hb, one_mul] at h

/-- The 28th candidate is not tried: if none of the 27 is acceptable, the point and the norm are kept. -/
theorem C49_default_gives_up (e : Env X V D) (d : D) (s s' : St X V)
    (h : lineSearch e Options.default d 28 1 s = some s')
    (hr : ∀ j ≤ 26, 99 / 100 * s.err < e.norm (e.fn (e.integrate s.x (0.7071 ^ j) d))) :
    s'.x = s.x ∧ s'.err = s.err := by
  have hb : Options.default.lsBeta = 0.7071 := by norm_num [Options.default]
  have hc : 1 - Options.default.armijoC1 = 99 / 100 := by norm_num [Options.default]
  have hm : Options.default.alphaMin = 1 / 10000 := by norm_num [Options.default]
  have key : ∀ (fuel j : ℕ) (t : St X V), t.x = s.x → t.err = s.err →
      lineSearch e Options.default d fuel (0.7071 ^ j) t = some s' → s'.x = s.x ∧ s'.err = s.err := by
    intro fuel
    induction fuel with
    | zero => intro j t _ _ h; simp [lineSearch] at h
    | succ f ih =>
      intro j t hx he h
      rw [lineSearch] at h
      split at h
      · rename_i hj
        simp only [hx, he, hb, hc] at h
        have hj' : j ≤ 26 := by
          by_contra hn
          have h1 : (0.7071 : ℝ) ^ j ≤ 0.7071 ^ 27 := pow_le_pow_of_le_one (by norm_num) (by norm_num) (by omega)
          have h2 : (0.7071 : ℝ) ^ 27 ≤ 1 / 10000 := by norm_num
          rw [hm] at hj
          exact absurd (lt_of_lt_of_le hj (h1.trans h2)) (lt_irrefl _)
        rw [if_neg (not_le.2 (hr j hj')), ← pow_succ] at h
        exact ih (j + 1) ⟨s.x, e.fn (e.integrate s.x (0.7071 ^ j) d), s.err⟩ rfl rfl h
      · simp only [Option.some.injEq] at h
        subst h
        exact ⟨hx, he⟩
  exact key 28 0 s rfl rfl (by simpa using h)

/-- **C49, when the Newton step solves the equation.**  If the full step from the initial point reaches a root (an affine
function with an exact linear solver), the procedure returns `true` with that root after one iteration, or at once. -/
theorem C49_root_in_one_step (e : Env X V D) (o : Options) (hc : o.armijoC1 ≤ 1) (ha : o.alphaMin < 1)
    (hn : ∀ v, 0 ≤ e.norm v) (eps : ℝ) (heps : 0 ≤ eps) (maxIters fuel : ℕ) (hm : 0 < maxIters) (hf : 0 < fuel) (xinit : X)
    (hroot : e.norm (e.fn (e.integrate xinit 1 (e.solve xinit (e.fn xinit)))) = 0) :
    ∃ s, newton e o eps maxIters fuel xinit =
      some (true, s, if e.norm (e.fn xinit) ≤ eps then 0 else 1) ∧
      s.x = if e.norm (e.fn xinit) ≤ eps then xinit else e.integrate xinit 1 (e.solve xinit (e.fn xinit)) := by
  unfold newton
  obtain ⟨m, rfl⟩ : ∃ m, maxIters = m + 1 := ⟨maxIters - 1, by omega⟩
  by_cases h : e.norm (e.fn xinit) ≤ eps
  · rw [newtonLoop, if_pos h]
    simp [h]
  · rw [newtonLoop, if_neg h]
    have h1 := lineSearch_first e o (e.solve xinit (e.fn xinit)) 0 1 ⟨xinit, e.fn xinit, e.norm (e.fn xinit)⟩ fuel hf
      (fun j hj => by simpa [Nat.le_zero.1 hj] using ha) (by simp)
      (by
        simp only [pow_zero, mul_one, hroot]
        exact mul_nonneg (by linarith) (hn _))
    simp only [pow_zero, mul_one] at h1
    simp only [h1, if_neg h]
    rw [newtonLoop.eq_def]
    simp only [hroot, if_pos heps]
    exact ⟨_, rfl, rfl⟩

/-- The hypotheses of `C49_default_search` with a rejected first step: `f(x) = x` with a direction twice too long. -/
example : lineSearch (⟨fun x => x, fun _ f => -2 * f, fun x a d => x + a * d, fun v => |v|⟩ : Env ℝ ℝ ℝ)
    Options.default (-2) 28 1 ⟨1, 1, 1⟩ = some ⟨1 - 0.7071 * 2, 1 - 0.7071 * 2, |1 - 0.7071 * 2|⟩ := by
  have h := C49_default_search (⟨fun x => x, fun _ f => -2 * f, fun x a d => x + a * d, fun v => |v|⟩ : Env ℝ ℝ ℝ)
    (-2) 1 (by norm_num) ⟨1, 1, 1⟩ (fun j hj => by
      obtain rfl : j = 0 := by omega
      norm_num) (by norm_num [abs_le])
  rw [h]
  norm_num

/-- Newton's method on `f(x) = x - 3` from 0: one iteration, and the hypotheses of `C49_newton` hold. -/
example : newton (⟨fun x => x - 3, fun _ f => -f, fun x a d => x + a * d, fun v => |v|⟩ : Env ℝ ℝ ℝ)
    Options.default (1 / 10) 5 28 0 = some (true, ⟨3, 0, 0⟩, 1) := by
  norm_num [newton, newtonLoop, lineSearch, Options.default]

/-! ## Explicit rollouts -/

theorem resize_length (empty : X) (l : List X) (n : ℕ) : (resize empty l n).length = n := by
  simp [resize]; omega

open Spec

/-- A model that computes `f`, whatever its data contain. -/
def Explicit.Is (m : Explicit X U E) (f : X → U → X) : Prop := ∀ x u d, m.xnext (m.forward x u d) = f x u

theorem explicitListLoop_spec (F : ℕ → X → U → X) (i : ℕ) (ms : List (Explicit X U E)) (us : List U) (xout : List X)
    (hm : ms.length = us.length) (hx : xout.length = i + us.length + 1)
    (hF : ∀ k (m : Explicit X U E), ms[k]? = some m → m.Is (F (i + k))) :
    ∃ xs, explicitListLoop i ms us xout = .ok xs ∧ xs.length = xout.length ∧ (∀ k ≤ i, xs[k]? = xout[k]?) ∧
      ∀ k u x y, us[k]? = some u → xs[i + k]? = some x → xs[i + k + 1]? = some y → y = F (i + k) x u := by
  induction ms generalizing i us xout with
  | nil =>
    obtain rfl : us = [] := List.length_eq_zero_iff.1 hm.symm
    exact ⟨xout, rfl, rfl, fun _ _ => rfl, by simp⟩
  | cons m ms ih =>
    match us, hm with
    | u :: us, hm =>
      have hi : i < xout.length := by simp at hx; omega
      have hi1 : i + 1 < xout.length := by simp at hx; omega
      rw [explicitListLoop, List.getElem?_eq_getElem hi]
      simp only
      obtain ⟨xs, h1, h2, h3, h4⟩ := ih (i + 1) us (xout.set (i + 1) (m.xnext (m.forward xout[i] u m.createData)))
        (by simpa using hm) (by simp at hx ⊢; omega) (fun k m' hk => by
          have := hF (k + 1) m' (by simpa using hk)
          rwa [show i + (k + 1) = i + 1 + k by omega] at this)
      refine ⟨xs, h1, by simpa using h2, fun k hk => ?_, fun k v x y hv hx hy => ?_⟩
      · rw [h3 k (by omega), List.getElem?_set_ne (by omega)]
      · cases k with
        | zero =>
          simp only [List.getElem?_cons_zero, Option.some.injEq, Nat.add_zero] at hv hx hy ⊢
          subst hv
          rw [h3 i (by omega), List.getElem?_set_ne (by omega), List.getElem?_eq_getElem hi, Option.some.injEq] at hx
          rw [h3 (i + 1) (le_refl _), List.getElem?_set_self hi1, Option.some.injEq] at hy
          rw [← hx, ← hy]
          exact hF 0 m rfl _ _ _
        | succ k =>
          rw [show i + (k + 1) = i + 1 + k by omega] at hx hy ⊢
          exact h4 k v x y (by simpa using hv) hx hy

/-- **C48, list of explicit models.**  Same numbers of models and controls: N + 1 states from `x0`, each the dynamics of
its index applied to the previous one, whatever the output argument contained.  Different numbers: an exception. -/
theorem C48_explicit_list (empty : X) (F : ℕ → X → U → X) (ms : List (Explicit X U E)) (x0 : X) (us : List U)
    (xout : List X) (hF : ∀ k (m : Explicit X U E), ms[k]? = some m → m.Is (F k)) :
    (ms.length = us.length → ∃ xs, rolloutExplicitList empty ms x0 us xout = .ok xs ∧
      IsRollout (fun i x u y => y = F i x u) x0 us xs) ∧
    (ms.length ≠ us.length → ∃ l, rolloutExplicitList empty ms x0 us xout = .threw l) := by
  unfold rolloutExplicitList
  constructor
  · intro h
    simp only [ne_eq, h, not_true, if_false]
    obtain ⟨xs, h1, h2, h3, h4⟩ := explicitListLoop_spec F 0 ms us ((resize empty xout (us.length + 1)).set 0 x0) h
      (by simp [resize_length]) (by simpa using hF)
    refine ⟨xs, h1, by simpa [resize_length] using h2, ?_, fun i u x y hu hx hy => ?_⟩
    · rw [h3 0 (le_refl _), List.getElem?_set_self (by simp [resize_length])]
    · simpa using h4 i u x y hu (by simpa using hx) (by simpa using hy)
  · intro h
    simp only [ne_eq, h, not_false_eq_true, if_true]
    exact ⟨_, rfl⟩

theorem explicitLoop_spec (f : X → U → X) (m : Explicit X U E) (hf : m.Is f) (i : ℕ) (d : E) (us : List U)
    (xout : List X) (hx : xout.length = i + us.length + 1) :
    ∃ xs, explicitLoop m i d us xout = .ok xs ∧ xs.length = xout.length ∧ (∀ k ≤ i, xs[k]? = xout[k]?) ∧
      ∀ k u x y, us[k]? = some u → xs[i + k]? = some x → xs[i + k + 1]? = some y → y = f x u := by
  induction us generalizing i d xout with
  | nil => exact ⟨xout, rfl, rfl, fun _ _ => rfl, by simp⟩
  | cons u us ih =>
    have hi : i < xout.length := by simp at hx; omega
    have hi1 : i + 1 < xout.length := by simp at hx; omega
    rw [explicitLoop, List.getElem?_eq_getElem hi]
    simp only
    obtain ⟨xs, h1, h2, h3, h4⟩ := ih (i + 1) (m.forward xout[i] u d)
      (xout.set (i + 1) (m.xnext (m.forward xout[i] u d))) (by simp at hx ⊢; omega)
    refine ⟨xs, h1, by simpa using h2, fun k hk => ?_, fun k v x y hv hx hy => ?_⟩
    · rw [h3 k (by omega), List.getElem?_set_ne (by omega)]
    · cases k with
      | zero =>
        simp only [List.getElem?_cons_zero, Option.some.injEq, Nat.add_zero] at hv hx hy ⊢
        subst hv
        rw [h3 i (by omega), List.getElem?_set_ne (by omega), List.getElem?_eq_getElem hi, Option.some.injEq] at hx
        rw [h3 (i + 1) (le_refl _), List.getElem?_set_self hi1, Option.some.injEq] at hy
        rw [← hx, ← hy]
        exact hf _ _ _
      | succ k =>
        rw [show i + (k + 1) = i + 1 + k by omega] at hx hy
        exact h4 k v x y (by simpa using hv) hx hy

/-- **C48, one explicit model.** -/
theorem C48_explicit (empty : X) (f : X → U → X) (m : Explicit X U E) (hf : m.Is f) (x0 : X) (us : List U)
    (xout : List X) :
    ∃ xs, rolloutExplicit empty m x0 us xout = .ok xs ∧ IsRollout (fun _ x u y => y = f x u) x0 us xs := by
  obtain ⟨xs, h1, h2, h3, h4⟩ := explicitLoop_spec f m hf 0 m.createData us
    ((resize empty xout (us.length + 1)).set 0 x0) (by simp [resize_length])
  refine ⟨xs, h1, by simpa [resize_length] using h2, ?_, fun i u x y hu hx hy => ?_⟩
  · rw [h3 0 (le_refl _), List.getElem?_set_self (by simp [resize_length])]
  · exact h4 i u x y hu (by simpa using hx) (by simpa using hy)

/-- **C48, the output is written before the check.**  A rollout of explicit models that throws has resized the caller's
vector and overwritten its first entry. -/
theorem C48_throws_after_writing :
    rolloutExplicitList (E := ℕ) 0 [] 7 [()] [1, 2, 3] = .threw [7, 2] := rfl

/-! ## Implicit rollouts -/

theorem forwardImplicit_spec (size : X → ℕ) (m : Implicit X U V D) (hn : ∀ v, 0 ≤ m.norm v) (x : X) (u : U) (y : X)
    (hs : size y = size x) :
    ∃ y', forwardImplicit size m x u y = .ok y' ∧ m.norm (m.residual x u y') ≤ m.norm (m.residual x u x) ∧
      ∃ b s it, newton (m.env x u) Options.default (1 / 1000000) 1000 28 x = some (b, s, it) ∧ s.x = y' ∧
        (b = true ↔ m.norm (m.residual x u y') ≤ 1 / 1000000) := by
  obtain ⟨⟨b, s, it⟩, hr⟩ := C49_default_terminates (m.env x u) (1 / 1000000) 1000 x 28 (le_refl _)
  obtain ⟨h1, h2, -⟩ := C49_newton (m.env x u) Options.default (by norm_num [Options.default]) hn _ 1000 28 x b s it hr
  refine ⟨s.x, ?_, h1, b, s, it, hr, rfl, h2⟩
  unfold forwardImplicit
  rw [if_neg (by simpa using hs), hr]

/-- The size of the states that a model handles: the neutral element has it, and steps keep it. -/
structure Implicit.Sized (m : Implicit X U V D) (size : X → ℕ) (n : ℕ) : Prop where
  neutral : size m.neutral = n
  integrate : ∀ x a d, size (m.integrate x a d) = size x

theorem newtonLoop_size (size : X → ℕ) (e : Env X V D) (o : Options) (eps : ℝ)
    (hi : ∀ x a d, size (e.integrate x a d) = size x) (fuel left iter : ℕ) (s : St X V) (r : Bool × St X V × ℕ)
    (h : newtonLoop e o eps fuel left iter s = some r) : size r.2.1.x = size s.x := by
  induction left generalizing iter s with
  | zero => rw [newtonLoop] at h; split at h <;> simp at h <;> subst h <;> rfl
  | succ left ih =>
    rw [newtonLoop] at h
    split at h
    · simp at h; subst h; rfl
    · split at h
      · simp at h
      · rename_i s1 h1
        rw [ih _ _ h]
        rcases lineSearch_inv e o _ fuel 1 s s1 h1 with ⟨a, h2, -⟩ | ⟨h2, -⟩
        · rw [h2, hi]
        · rw [h2]

theorem forwardImplicit_size (size : X → ℕ) (m : Implicit X U V D) (n : ℕ) (hm : m.Sized size n) (x : X) (u : U)
    (y y' : X) (h : forwardImplicit size m x u y = .ok y') : size y' = size x := by
  unfold forwardImplicit at h
  split at h
  · simp at h
  · split at h
    · simp at h
    · rename_i r hr
      simp only [Res.ok.injEq] at h
      subst h
      exact newtonLoop_size size (m.env x u) _ _ hm.integrate _ _ _ _ r hr

theorem implicitLoop_spec (size : X → ℕ) (n : ℕ) (m : Implicit X U V D) (hn : ∀ v, 0 ≤ m.norm v)
    (hm : m.Sized size n) (i : ℕ) (us : List U) (xs : List X) (hx : xs.length = i + 1)
    (hsz : ∀ x ∈ xs, size x = n) :
    ∃ ys, implicitLoop size m i us xs = .ok ys ∧ ys.length = i + 1 + us.length ∧ (∀ k ≤ i, ys[k]? = xs[k]?) ∧
      ∀ k u x y, us[k]? = some u → ys[i + k]? = some x → ys[i + k + 1]? = some y →
        ∃ b s it, newton (m.env x u) Options.default (1 / 1000000) 1000 28 x = some (b, s, it) ∧ s.x = y ∧
          (b = true ↔ m.norm (m.residual x u y) ≤ 1 / 1000000) := by
  induction us generalizing i xs with
  | nil => exact ⟨xs, rfl, by simp [hx], fun _ _ => rfl, by simp⟩
  | cons u us ih =>
    rw [implicitLoop]
    have hi : i < (xs ++ [m.neutral]).length := by simp; omega
    have hi1 : i + 1 < (xs ++ [m.neutral]).length := by simp; omega
    have hget : (xs ++ [m.neutral])[i]? = xs[i]? := List.getElem?_append_left (by omega)
    have hx1 : (xs ++ [m.neutral])[i + 1]? = some m.neutral := by
      rw [List.getElem?_append_right (by omega)]; simp [hx]
    rw [hget, List.getElem?_eq_getElem (by omega : i < xs.length), hx1]
    simp only
    obtain ⟨y', h1, -, h3⟩ := forwardImplicit_spec size m hn xs[i] u m.neutral
      (by rw [hm.neutral, hsz _ (List.getElem_mem _)])
    rw [h1]
    simp only
    obtain ⟨ys, e1, e2, e3, e4⟩ := ih (i + 1) ((xs ++ [m.neutral]).set (i + 1) y') (by simp [hx]) (by
      intro x hxm
      rcases List.mem_or_eq_of_mem_set hxm with h | rfl
      · rcases List.mem_append.1 h with h | h
        · exact hsz x h
        · simp at h; rw [h, hm.neutral]
      · rw [forwardImplicit_size size m n hm _ _ _ _ h1, hsz _ (List.getElem_mem _)])
    refine ⟨ys, e1, by simp [e2]; omega, fun k hk => ?_, fun k v x y hv hxk hyk => ?_⟩
    · rw [e3 k (by omega), List.getElem?_set_ne (by omega), List.getElem?_append_left (by omega)]
    · cases k with
      | zero =>
        simp only [List.getElem?_cons_zero, Option.some.injEq, Nat.add_zero] at hv hxk hyk
        subst hv
        rw [e3 i (by omega), List.getElem?_set_ne (by omega), hget,
          List.getElem?_eq_getElem (by omega : i < xs.length), Option.some.injEq] at hxk
        rw [e3 (i + 1) (le_refl _), List.getElem?_set_self hi1, Option.some.injEq] at hyk
        subst hxk hyk
        exact h3
      | succ k =>
        rw [show i + (k + 1) = i + 1 + k by omega] at hxk hyk
        exact e4 k v x y (by simpa using hv) hxk hyk

/-- **C48, one implicit model, partial.**  N + 1 states from `x0`; every next state is what Newton's method returned, and
it solves the dynamics up to 1e-6 exactly when Newton's method reported success.  Missing: the report is dropped, so a
failure is not visible to the caller (`C48_failure_unreported`). -/
theorem C48_implicit_partial (size : X → ℕ) (m : Implicit X U V D) (hn : ∀ v, 0 ≤ m.norm v) (x0 : X)
    (hm : m.Sized size (size x0)) (us : List U) :
    ∃ xs, rolloutImplicit size m x0 us = .ok xs ∧
      IsRollout (fun _ x u y => ∃ b s it, newton (m.env x u) Options.default (1 / 1000000) 1000 28 x = some (b, s, it) ∧
        s.x = y ∧ (b = true ↔ m.norm (m.residual x u y) ≤ 1 / 1000000)) x0 us xs := by
  obtain ⟨ys, h1, h2, h3, h4⟩ := implicitLoop_spec size (size x0) m hn hm 0 us [x0] rfl (by simp)
  refine ⟨ys, h1, by omega, by rw [h3 0 (le_refl _)]; rfl, fun i u x y hu hx hy => ?_⟩
  exact h4 i u x y hu (by simpa using hx) (by simpa using hy)

/-- **C48 is violated when Newton's method fails.**  Dynamics without solution (residual 1): the rollout returns states
without any error. -/
theorem C48_failure_unreported :
    ∃ m : Implicit ℝ Unit ℝ ℝ, (∀ x u y, m.norm (m.residual x u y) = 1) ∧
      ∀ (x0 : ℝ) (us : List Unit), ∃ xs, rolloutImplicit (fun _ => 1) m x0 us = .ok xs ∧ xs.length = us.length + 1 := by
  refine ⟨⟨fun _ _ _ => 1, fun _ _ _ _ => 0, fun x a d => x + a * d, fun v => |v|, 0⟩, fun _ _ _ => abs_one,
    fun x0 us => ?_⟩
  obtain ⟨xs, h1, h2⟩ := C48_implicit_partial (fun _ => 1)
    (⟨fun _ _ _ => 1, fun _ _ _ _ => 0, fun x a d => x + a * d, fun v => |v|, 0⟩ : Implicit ℝ Unit ℝ ℝ)
    (fun v => abs_nonneg v) x0 ⟨rfl, fun _ _ _ => rfl⟩ us
  exact ⟨xs, h1, h2.length⟩

theorem implicitListLoop_length (size : X → ℕ) (i : ℕ) (ms : List (Implicit X U V D)) (us : List U) (xout ys : List X)
    (hm : ms.length = us.length) (h : implicitListLoop size i ms us xout = .ok ys) :
    ys.length = xout.length + us.length := by
  induction ms generalizing i us xout with
  | nil =>
    obtain rfl : us = [] := List.length_eq_zero_iff.1 hm.symm
    simp only [implicitListLoop, Res.ok.injEq] at h
    simp [h]
  | cons m ms ih =>
    match us, hm with
    | u :: us, hm =>
      rw [implicitListLoop] at h
      split at h
      · split at h
        · have := ih _ us _ (by simpa using hm) h
          simp at this ⊢
          omega
        · simp at h
        · simp at h
        · simp at h
      · simp at h

/-- **C48 is violated by the list of implicit models.**  Whenever it returns it returns 2 N + 1 states. -/
theorem C48_implicit_list_length (size : X → ℕ) (empty : X) (ms : List (Implicit X U V D)) (x0 : X) (us : List U)
    (xout ys : List X) (h : rolloutImplicitList size empty ms x0 us xout = .ok ys) :
    ys.length = 2 * us.length + 1 := by
  unfold rolloutImplicitList at h
  split at h
  · simp at h
  · rename_i hm
    have := implicitListLoop_length size 0 ms us _ ys (by simpa using hm) h
    rw [this]
    simp [resize_length]
    omega

theorem implicitListLoop_spec (size : X → ℕ) (n : ℕ) (ms : List (Implicit X U V D))
    (hn : ∀ m ∈ ms, (∀ v, 0 ≤ m.norm v) ∧ m.Sized size n) (i : ℕ) (us : List U) (xs : List X)
    (hl : ms.length = us.length) (hx : i + us.length + 1 ≤ xs.length) (hsz : ∀ x ∈ xs, size x = n) :
    ∃ ys, implicitListLoop size i ms us xs = .ok ys ∧ (∀ k ≤ i, ys[k]? = xs[k]?) ∧
      (∀ k, i + us.length < k → ys[k]? = (xs ++ ms.map Implicit.neutral)[k]?) ∧
      ∀ (k : ℕ) (m : Implicit X U V D) (u : U) (x y : X), ms[k]? = some m → us[k]? = some u → ys[i + k]? = some x →
        ys[i + k + 1]? = some y →
        ∃ b s it, newton (m.env x u) Options.default (1 / 1000000) 1000 28 x = some (b, s, it) ∧ s.x = y ∧
          (b = true ↔ m.norm (m.residual x u y) ≤ 1 / 1000000) := by
  induction ms generalizing i us xs with
  | nil =>
    obtain rfl : us = [] := List.length_eq_zero_iff.1 hl.symm
    exact ⟨xs, rfl, fun _ _ => rfl, fun k _ => by simp, by simp⟩
  | cons m ms ih =>
    match us, hl with
    | u :: us, hl =>
      simp only [List.length_cons] at hx
      have hmn := hn m (by simp)
      rw [implicitListLoop]
      have hi : i < xs.length := by omega
      have hi1 : i + 1 < xs.length := by omega
      rw [List.getElem?_append_left hi, List.getElem?_append_left hi1, List.getElem?_eq_getElem hi,
        List.getElem?_eq_getElem hi1]
      simp only
      obtain ⟨y', h1, -, h3⟩ := forwardImplicit_spec size m hmn.1 xs[i] u xs[i + 1]
        (by rw [hsz _ (List.getElem_mem _), hsz _ (List.getElem_mem _)])
      rw [h1]
      simp only
      obtain ⟨ys, e1, e3, e5, e4⟩ := ih (fun q hq => hn q (List.mem_cons_of_mem _ hq)) (i + 1) us
        ((xs ++ [m.neutral]).set (i + 1) y') (by simpa using hl) (by simp; omega) (by
          intro x hxm
          rcases List.mem_or_eq_of_mem_set hxm with h | rfl
          · rcases List.mem_append.1 h with h | h
            · exact hsz x h
            · simp at h; rw [h, hmn.2.neutral]
          · rw [forwardImplicit_size size m n hmn.2 _ _ _ _ h1, hsz _ (List.getElem_mem _)])
      refine ⟨ys, e1, fun k hk => ?_, fun k hk => ?_, fun k m' v x y hm' hv hxk hyk => ?_⟩
      · rw [e3 k (by omega), List.getElem?_set_ne (by omega), List.getElem?_append_left (by omega)]
      · simp only [List.length_cons] at hk
        rw [e5 k (by omega), List.map_cons, ← List.set_append_left _ _ (by simp; omega),
          List.getElem?_set_ne (by omega)]
        simp
      · cases k with
        | zero =>
          simp only [List.getElem?_cons_zero, Option.some.injEq, Nat.add_zero] at hm' hv hxk hyk
          subst hm' hv
          rw [e3 i (by omega), List.getElem?_set_ne (by omega), List.getElem?_append_left hi,
            List.getElem?_eq_getElem hi, Option.some.injEq] at hxk
          rw [e3 (i + 1) (le_refl _), List.getElem?_set_self (by simp; omega), Option.some.injEq] at hyk
          subst hxk hyk
          exact h3
        | succ k =>
          rw [show i + (k + 1) = i + 1 + k by omega] at hxk hyk
          exact e4 k m' v x y (by simpa using hm') (by simpa using hv) hxk hyk

/-- **C48, list of implicit models, partial.**  Given an output vector that already has at least N + 1 states of the
right length: the first N + 1 states of the result are the rollout, each of its own model (as far as Newton's method
succeeds); N neutral elements follow (`C48_implicit_list_length`). -/
theorem C48_implicit_list_partial (size : X → ℕ) (empty : X) (ms : List (Implicit X U V D)) (x0 : X) (us : List U)
    (xout : List X) (hl : ms.length = us.length) (hn : ∀ m ∈ ms, (∀ v, 0 ≤ m.norm v) ∧ m.Sized size (size x0))
    (hx : us.length + 1 ≤ xout.length) (hsz : ∀ x ∈ xout, size x = size x0) :
    ∃ xs, rolloutImplicitList size empty ms x0 us xout = .ok (xs ++ ms.map Implicit.neutral) ∧
      IsRollout (fun i x u y => ∃ m, ms[i]? = some m ∧
        ∃ b s it, newton (m.env x u) Options.default (1 / 1000000) 1000 28 x = some (b, s, it) ∧
          s.x = y ∧ (b = true ↔ m.norm (m.residual x u y) ≤ 1 / 1000000)) x0 us xs := by
  have hr : resize empty xout (us.length + 1) = xout.take (us.length + 1) := by
    simp only [resize, Nat.sub_eq_zero_of_le hx, List.replicate_zero, List.append_nil]
  have hlen : ((xout.take (us.length + 1)).set 0 x0).length = us.length + 1 := by simp; omega
  obtain ⟨ys, h1, h2, h3, h4⟩ := implicitListLoop_spec size (size x0) ms hn 0 us ((xout.take (us.length + 1)).set 0 x0) hl
    (by omega) (by
      intro x hxm
      rcases List.mem_or_eq_of_mem_set hxm with h | rfl
      · exact hsz x (List.mem_of_mem_take h)
      · rfl)
  have hy := implicitListLoop_length size 0 ms us _ ys hl h1
  have hd : ys.drop (us.length + 1) = ms.map Implicit.neutral := by
    apply List.ext_getElem?
    intro k
    rw [List.getElem?_drop, h3 _ (by omega), List.getElem?_append_right (by omega), hlen]
    congr 1
    omega
  refine ⟨ys.take (us.length + 1), ?_, by rw [List.length_take]; omega, ?_, fun i u x y hu hxi hyi => ?_⟩
  · unfold rolloutImplicitList
    rw [if_neg (by simpa using hl), hr, h1, ← hd, List.take_append_drop]
  · rw [List.getElem?_take_of_lt (by omega), h2 0 (le_refl _)]
    rw [List.getElem?_set_self (by simp; omega)]
  · have hi : i < us.length := (List.getElem?_eq_some_iff.1 hu).1
    rw [List.getElem?_take_of_lt (by omega)] at hxi hyi
    have hm : ms[i]? = some ms[i] := List.getElem?_eq_getElem (by omega)
    exact ⟨_, hm, h4 i _ u x y hm hu (by simpa using hxi) (by simpa using hyi)⟩

/-- Two different implicit models `y = x + u` and `y = x - u`, and an output vector of three states. -/
example : ∃ xs : List ℝ, rolloutImplicitList (fun _ => 1) 0
    ([⟨fun x u y => y - x - u, fun _ _ _ f => -f, fun x a d => x + a * d, fun v => |v|, 0⟩,
      ⟨fun x u y => y - x + u, fun _ _ _ f => -f, fun x a d => x + a * d, fun v => |v|, 0⟩] : List (Implicit ℝ ℝ ℝ ℝ))
    1 [2, 5] [7, 8, 9] = .ok (xs ++ [0, 0]) ∧ xs.length = 3 := by
  obtain ⟨xs, h1, h2⟩ := C48_implicit_list_partial (fun _ => 1) 0
    ([⟨fun x u y => y - x - u, fun _ _ _ f => -f, fun x a d => x + a * d, fun v => |v|, 0⟩,
      ⟨fun x u y => y - x + u, fun _ _ _ f => -f, fun x a d => x + a * d, fun v => |v|, 0⟩] : List (Implicit ℝ ℝ ℝ ℝ))
    1 [2, 5] [7, 8, 9] rfl
    (by intro m hm; simp only [List.mem_cons, List.not_mem_nil, or_false] at hm
        rcases hm with rfl | rfl <;> exact ⟨fun v => abs_nonneg v, rfl, fun _ _ _ => rfl⟩)
    (by simp) (fun _ _ => rfl)
  exact ⟨xs, h1, h2.length⟩

/-- **C48 is violated by the list of implicit models on a new vector.**  The variant that allocates its output passes an
empty vector: for non-empty states the first step writes into a reference of length 0. -/
theorem C48_implicit_list_fresh_output (size : X → ℕ) (empty : X) (h0 : size empty = 0) (m : Implicit X U V D)
    (ms : List (Implicit X U V D)) (x0 : X) (hx : size x0 ≠ 0) (u : U) (us : List U) (hl : ms.length = us.length) :
    rolloutImplicitList size empty (m :: ms) x0 (u :: us) [] = .undefined := by
  unfold rolloutImplicitList
  rw [if_neg (by simp [hl])]
  simp only [resize, List.take_nil, List.nil_append, List.length_cons, List.length_nil, Nat.sub_zero,
    List.replicate_succ, List.set_cons_zero]
  rw [implicitListLoop]
  simp only [List.cons_append, List.getElem?_cons_zero, List.getElem?_cons_succ]
  unfold forwardImplicit
  rw [if_pos (by rw [h0]; exact Ne.symm hx)]

/-- Hypotheses of `C48_explicit_list` on two different models, and the result. -/
example : ∃ xs, rolloutExplicitList (E := ℕ) 0 [⟨fun x u _ => x + u, id, 0⟩, ⟨fun x u _ => x * u, id, 0⟩] 1 [2, 5] []
    = .ok xs ∧ xs = [1, 3, 15] := ⟨_, rfl, rfl⟩

end Aligator.Roll
