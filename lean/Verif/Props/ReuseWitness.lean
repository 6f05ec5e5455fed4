import Verif.Props.Reuse
import Verif.Props.ReuseLink
import Mathlib.Tactic.NormNum.GCD

/-!
# C69: concrete runs
-/

namespace Aligator.Reuse.Witness

open ProxDDP (Params)

/-- Settings of the concrete runs. -/
noncomputable def par (n : ℕ) : Params :=
  { targetTol := 1 / 4, targetDual := 1 / 4, muInit := 1 / 2, muLb := 1 / 16, muFactor := 1 / 100
    primAlpha := 1, primBeta := 1, dualAlpha := 1, dualBeta := 1, innerTol0 := 1, primTol0 := 1
    regMin := 1 / 1000, regMax := 1000000000, regInit := 1 / 7, regInc := 10, regIncFirst := 100, regDec := 1 / 3
    dphiThresh := 1 / 10000000000000, alphaMin := 1 / 1000000, closeEps := 0, maxIters := n, maxAlIters := 1 }

/-- Options of the line search, `alpha_min` and `max_num_steps` as by default (core/linesearch-base.hpp:13-42). -/
noncomputable def opts : Linesearch.Options :=
  { armijoC1 := 1 / 10000, dphiThresh := 1 / 1000000000, alphaMin := 1 / 1000000, maxNumSteps := 20
    interp := .cubic, contractionMin := 1 / 2, contractionMax := 9 / 10 }

/-- Minimise `x²/2`, no constraint: regularised Newton steps, residual `|x|`. -/
noncomputable def quad : Env ℝ Unit Unit ℝ Unit where
  vs _ := ()
  mult _ _ _ := some ((), 0)
  multNaN _ _ _ _ := ()
  merit _ x _ := x ^ 2 / 2
  dualInf x := |x|
  innerCrit x _ := |x|
  nextV _ _ := ()
  lin x _ _ preg := some (-x / (1 + preg), (), -x ^ 2 / (1 + preg))
  point x d a := .ok (x + a * d)
  prime t := t
  fresh := (0, 0, (), (), ())

theorem quad_total : Total quad := ⟨fun _ _ _ => ⟨_, rfl⟩, fun _ _ _ => ⟨_, rfl⟩⟩

theorem mu0_par (n : ℕ) : mu0 (par n) = 1 / 2 := by
  show max (1 / 2 : ℝ) (1 / 16) = 1 / 2
  norm_num

theorem quad_first (n : ℕ) (hn : 0 < n) :
    FirstStep (par n) quad 1 () 0 (-7 / 8) () (-7 / 8) where
  iters := hn
  alIters := Nat.one_pos
  mult := rfl
  busy := by
    rw [mu0_par]
    show ¬ (|(1 : ℝ)| ≤ max (1 * (min (1 / 2) 0.99) ^ (1 : ℝ)) (1 / 4) ∨ (|(1 : ℝ)| ≤ 1 / 4 ∧ (0 : ℝ) ≤ 1 / 4))
    norm_num
  lin := by
    show some ((-1 : ℝ) / (1 + max (1 / 7) (1 / 1000)), (), -1 ^ 2 / (1 + max (1 / 7) (1 / 1000))) = _
    norm_num
  slope := by
    show (1 / 10000000000000 : ℝ) < |-7 / 8|
    norm_num

theorem quad_full (n : ℕ) : FullStep (par n) quad 1 (-7 / 8) (1 / 128, 0) where
  point := ⟨1 / 8, (), by
    show (Except.ok ((1 : ℝ) + 1 * (-7 / 8)) : Except (ℝ → ℝ) ℝ) = _
    norm_num, rfl, by
    show ((1 / 8 : ℝ)) ^ 2 / 2 = 1 / 128
    norm_num⟩

/-- The conditions of `C69_filter_rerun_step` and `C69_filter_rerun_differs` can be met: a quadratic. -/
example (qr : Linesearch.Solve2) (s : St ℝ Unit Unit Unit) (cs : List (Call ℝ Unit Unit ℝ Unit)) :
    ¬ SameReport (run qr 1 .filter (par 200) quad 1 (setup .filter opts quad s))
      (run qr 1 .filter (par 200) quad 1
        (cs.foldl (Call.after qr 1 .filter) (run qr 1 .filter (par 200) quad 1 (setup .filter opts quad s)).state)) :=
  C69_filter_rerun_differs qr 1 Nat.one_pos opts (by decide) (by show (1 / 1000000 : ℝ) < 1; norm_num) quad s (par 200) quad
    quad_total 1 () 0 (-7 / 8) () (-7 / 8) (1 / 128, 0) (quad_first 200 (by decide)) (quad_full 200) cs

theorem forwardPass_quad (d : ℝ) (s : St ℝ Unit Unit Unit) (a : ℝ) :
    forwardPass quad d s a = { s with trial := s.x + a * d, ws := (), prim := 0 } := rfl

theorem fold_quad (d : ℝ) (l : List ℝ) (a : ℝ) (s : St ℝ Unit Unit Unit) :
    (l ++ [a]).foldl (forwardPass quad d) s = { s with trial := s.x + a * d, ws := (), prim := 0 } := by
  induction l generalizing s with
  | nil => rfl
  | cons b l ih => exact ih (forwardPass quad d s b)

/-- First run, with any search that takes the full step: one step, convergence. -/
theorem first_run_of_search (qr : Linesearch.Solve2) (fuel n : ℕ) (sa : Strategy) (s : St ℝ Unit Unit Unit) (l : LS) (f : Filter.State ℝ)
    (hse : search qr (fuel + 3) sa quad (searchState (par (n + 2)) quad () 0 () (initRun (par (n + 2)) quad 1 s)) (-7 / 8) (-7 / 8) =
      some ⟨[1], .ok 1 (1 / 128), l, f⟩) :
    ∃ t, run qr (fuel + 3) sa (par (n + 2)) quad 1 s = .done true t ∧ t.x = 1 / 8 ∧
      t.filter = f ∧ t.trial = 1 / 8 ∧ t.numIters = 1 ∧ t.prim = 0 := by
  have hL := innerLoop_first (quad_first (n + 2) (by omega)) qr (fuel + 3) sa s
  rw [hse] at hL
  have hs0 : (searchState (par (n + 2)) quad () 0 () (initRun (par (n + 2)) quad 1 s)).x = 1 := rfl
  unfold run
  show ∃ t, outer qr (fuel + 3) sa (par (n + 2)) quad 1 _ = _ ∧ _
  unfold outer
  rw [if_pos (by show 0 < n + 2; omega), hL]
  unfold afterSearch
  dsimp only
  rw [show ([1] : List ℝ) = [] ++ [1] from rfl, fold_quad, hs0]
  rw [if_neg (by show ¬ (1 : ℝ) ≤ 1 / 1000000; norm_num)]
  have hinner : ∀ (t : St ℝ Unit Unit Unit), t.x = 1 / 8 → t.innerTol = 1 / 2 → t.prim = 0 →
      innerIter qr (fuel + 3) sa (par (n + 2)) quad ((par (n + 2)).maxIters - 1) t =
        .done true { t with crit := 1 / 8, dual := 1 / 8 } := by
    intro t h1 h2 h3
    show innerIter qr (fuel + 3) sa (par (n + 2)) quad (n + 1) t = _
    unfold innerIter
    have h18 : |(1 / 8 : ℝ)| = 1 / 8 := by norm_num
    have e1 : quad.innerCrit t.x t.ws = 1 / 8 := by show |t.x| = _; rw [h1, h18]
    have e2 : quad.dualInf t.x = 1 / 8 := by show |t.x| = _; rw [h1, h18]
    dsimp only
    rw [e1, e2, if_pos]
    left
    rw [h2]
    norm_num
  have htol : (initRun (par (n + 2)) quad 1 s).innerTol = 1 / 2 := by
    show max ((1 : ℝ) * (min (max (1 / 2) (1 / 16)) 0.99) ^ (1 : ℝ)) (1 / 4) = 1 / 2
    norm_num
  have hptol : (initRun (par (n + 2)) quad 1 s).primTol = 1 / 2 := by
    show max ((1 : ℝ) * (min (max (1 / 2) (1 / 16)) 0.99) ^ (1 : ℝ)) (1 / 4) = 1 / 2
    norm_num
  have hmu : (initRun (par (n + 2)) quad 1 s).mu = 1 / 2 := by
    show max (1 / 2 : ℝ) (1 / 16) = 1 / 2
    norm_num
  rw [hinner _ (by dsimp only; norm_num) (by exact htol) rfl]
  dsimp only
  rw [if_pos (by show (0 : ℝ) ≤ (initRun (par (n + 2)) quad 1 s).primTol; rw [hptol]; norm_num)]
  have htight : ∀ (t : St ℝ Unit Unit Unit), t.crit = 1 / 8 → t.innerTol = 1 / 2 → t.mu = 1 / 2 →
      tighten (par (n + 2)) (fuel + 3) t =
        some { t with innerTol := t.innerTol * (1 / 2) * (1 / 2), primTol := t.primTol * (1 / 2) * (1 / 2) } := by
    intro t h1 h2 h3
    have hp : (min (1 / 2 : ℝ) 0.99) ^ (1 : ℝ) = 1 / 2 := by norm_num
    have step : ∀ (k : ℕ) (u : St ℝ Unit Unit Unit), u.mu = 1 / 2 → tighten (par (n + 2)) (k + 1) u =
        if u.crit < u.innerTol * (1 / 2) then
          tighten (par (n + 2)) k { u with primTol := u.primTol * (1 / 2), innerTol := u.innerTol * (1 / 2) }
        else some { u with primTol := u.primTol * (1 / 2), innerTol := u.innerTol * (1 / 2) } := by
      intro k u hu
      conv_lhs => unfold tighten
      unfold updateTolsOnSuccess
      have e1 : (par (n + 2)).primBeta = 1 := rfl
      have e2 : (par (n + 2)).dualBeta = 1 := rfl
      rw [hu, e1, e2, hp]
    rw [step _ _ h3, if_pos (by rw [h1, h2]; norm_num), step (fuel + 1) { t with primTol := t.primTol * (1 / 2), innerTol := t.innerTol * (1 / 2) } h3,
      if_neg (by dsimp only; rw [h1, h2]; norm_num)]
  rw [htight]
  rotate_left
  · rfl
  · exact htol
  · exact hmu
  dsimp only
  rw [if_pos (by constructor; · show (1 / 8 : ℝ) ≤ 1 / 4; norm_num
                 · show (0 : ℝ) ≤ 1 / 4; norm_num)]
  exact ⟨_, rfl, by dsimp only; norm_num, rfl, by dsimp only; norm_num, rfl, rfl⟩

/-- First run with the filter. -/
theorem first_run (qr : Linesearch.Solve2) (fuel n : ℕ) (s : St ℝ Unit Unit Unit) (hs : s.filter = Filter.reset 0 (1 / 1000000) 20) :
    ∃ t, run qr (fuel + 3) .filter (par (n + 2)) quad 1 s = .done true t ∧ t.x = 1 / 8 ∧
      t.filter = ⟨[(1 / 128, 0)], 0, 1 / 1000000, 20⟩ ∧ t.trial = 1 / 8 ∧ t.numIters = 1 ∧ t.prim = 0 := by
  have hse : search qr (fuel + 3) .filter quad (searchState (par (n + 2)) quad () 0 () (initRun (par (n + 2)) quad 1 s)) (-7 / 8) (-7 / 8) =
      some ⟨[1], .ok 1 (1 / 128), s.ls, ⟨[(1 / 128, 0)], 0, 1 / 1000000, 20⟩⟩ := by
    have hfil : (searchState (par (n + 2)) quad () 0 () (initRun (par (n + 2)) quad 1 s)).filter = s.filter := rfl
    have hls : (searchState (par (n + 2)) quad () 0 () (initRun (par (n + 2)) quad 1 s)).ls = s.ls := rfl
    unfold search
    dsimp only
    unfold filterFirst
    rw [pair_full (quad_full (n + 2)), hfil, hls, hs]
    dsimp only [Filter.reset]
    unfold filterLoop
    simp [Filter.acceptPair]
  exact first_run_of_search qr fuel n .filter s _ _ hse

/-- The filter that the first run leaves. -/
noncomputable def left : Filter.State ℝ := ⟨[(1 / 128, 0)], 0, 1 / 1000000, 20⟩

theorem left_rejects {q : ℝ × ℝ} (h1 : 1 / 128 ≤ q.1) (h2 : 0 ≤ q.2) : (Filter.acceptPair left q).2 = false :=
  Blocked.reject ⟨rfl, (1 / 128, 0), by simp [left], h1, h2⟩

theorem filterLoop_all_blocked {phi : ℝ → Option (ℝ × ℝ)} (hphi : ∀ a, 0 ≤ a → a ≤ 1 → ∃ q, phi a = some q ∧ 1 / 128 ≤ q.1 ∧ 0 ≤ q.2)
    (n : ℕ) (a : ℝ) (q : ℝ × ℝ) (ha0 : 0 ≤ a) (ha1 : a ≤ 1) (hq : 1 / 128 ≤ q.1 ∧ 0 ≤ q.2)
    (hn : a ≤ 1 / 1000000 * 2 ^ (n + 1)) :
    ∃ c v, filterLoop phi (n + 1) left a q = (c ++ [1 / 1000000], left, .ok (1 / 1000000) v) := by
  induction n generalizing a q with
  | zero =>
    unfold filterLoop
    rw [left_rejects hq.1 hq.2]
    have hle : a * (1 / 2) ≤ left.alphaMin := by
      show a * (1 / 2) ≤ 1 / 1000000
      norm_num at hn
      linarith
    simp only [Bool.false_eq_true, if_false]
    rw [if_pos hle]
    obtain ⟨q', hq', _⟩ := hphi left.alphaMin (by show (0 : ℝ) ≤ 1 / 1000000; norm_num) (by show (1 / 1000000 : ℝ) ≤ 1; norm_num)
    rw [hq']
    exact ⟨[], _, rfl⟩
  | succ n ih =>
    unfold filterLoop
    rw [left_rejects hq.1 hq.2]
    simp only [Bool.false_eq_true, if_false]
    split
    · obtain ⟨q', hq', _⟩ := hphi left.alphaMin (by show (0 : ℝ) ≤ 1 / 1000000; norm_num) (by show (1 / 1000000 : ℝ) ≤ 1; norm_num)
      rw [hq']
      exact ⟨[], _, rfl⟩
    · obtain ⟨q', hq', h3⟩ := hphi (a * (1 / 2)) (by linarith) (by linarith)
      rw [hq']
      obtain ⟨c, v, h⟩ := ih (a * (1 / 2)) q' (by linarith) (by linarith) h3 (by rw [pow_succ] at hn; linarith)
      simp only [h]
      exact ⟨a * (1 / 2) :: c, v, rfl⟩

/-- Every step is rejected: the search ends at the smallest step. -/
theorem search_left (qr : Linesearch.Solve2) (fuel : ℕ) (s : St ℝ Unit Unit Unit) (d dphi0 : ℝ) (hs : s.filter = left)
    (h : ∀ a, 0 ≤ a → a ≤ 1 → 1 / 8 ≤ s.x + a * d) :
    ∃ c v, search qr (fuel + 1) .filter quad s d dphi0 = some ⟨c ++ [1 / 1000000], .ok (1 / 1000000) v, s.ls, left⟩ := by
  have hphi : ∀ a, 0 ≤ a → a ≤ 1 → ∃ q, quad.pair s d a = some q ∧ 1 / 128 ≤ q.1 ∧ 0 ≤ q.2 := by
    intro a h0 h1
    refine ⟨((s.x + a * d) ^ 2 / 2, 0), rfl, ?_, le_rfl⟩
    have := h a h0 h1
    show (1 / 128 : ℝ) ≤ (s.x + a * d) ^ 2 / 2
    nlinarith
  obtain ⟨q, hq, hq'⟩ := hphi 1 zero_le_one le_rfl
  obtain ⟨c, v, hc⟩ := filterLoop_all_blocked hphi 19 1 q zero_le_one le_rfl hq' (by norm_num)
  refine ⟨1 :: c, v, ?_⟩
  unfold search
  dsimp only
  unfold filterFirst
  rw [hq, hs]
  have : left.maxNumSteps = 19 + 1 := rfl
  dsimp only
  rw [this, hc]
  rfl

/-- What holds before each iteration of the second run. -/
def Stuck (s : St ℝ Unit Unit Unit) : Prop :=
  (s.pregLast = 0 ∧ s.x = 1) ∨
  (100 / 7 ≤ s.pregLast ∧ s.pregLast ≤ 10000000000 ∧ s.x ≤ 1 ∧
    1 - 1 / 1000000 * (1 + 30 / 7 * (7 / 100 - 1 / s.pregLast)) ≤ s.x)

theorem Stuck.far {s : St ℝ Unit Unit Unit} (h : Stuck s) : 999 / 1000 ≤ s.x ∧ s.x ≤ 1 := by
  rcases h with ⟨_, h⟩ | ⟨h1, _, h2, h3⟩
  · rw [h]; norm_num
  · refine ⟨?_, h2⟩
    have : 0 ≤ 1 / s.pregLast := by positivity
    linarith

theorem second_inner (qr : Linesearch.Solve2) (fuel N k : ℕ) (s : St ℝ Unit Unit Unit) (hf : s.filter = left)
    (ht : s.innerTol = 1 / 2) (h : Stuck s) :
    ∃ t, innerIter qr (fuel + 1) .filter (par N) quad k s = .done false t ∧ 999 / 1000 ≤ t.x := by
  induction k generalizing s with
  | zero => exact ⟨s, rfl, h.far.1⟩
  | succ k ih =>
    obtain ⟨hx0, hx1⟩ := h.far
    have habs : |s.x| = s.x := abs_of_nonneg (by linarith)
    have hρ : ∃ ρ, (initializeRegularization (par N) s).preg = ρ ∧ 0 < ρ ∧ ρ ≤ 10000000000 / 3 ∧
        (∀ a, 0 ≤ a → a ≤ 1 → 1 / 8 ≤ s.x + a * (-s.x / (1 + ρ))) := by
      rcases h with ⟨h1, h2⟩ | ⟨h1, h2, h3, h4⟩
      · refine ⟨1 / 7, ?_, by norm_num, by norm_num, fun a h0 h1 => ?_⟩
        · show (if s.pregLast = 0 then max (1 / 7 : ℝ) (1 / 1000) else _) = _
          rw [if_pos h1]
          norm_num
        · rw [h2]
          norm_num
          linarith
      · refine ⟨s.pregLast / 3, ?_, by linarith, by linarith, fun a ha0 ha1 => ?_⟩
        · show (if s.pregLast = 0 then _ else max (1 / 1000 : ℝ) (s.pregLast * (1 / 3))) = _
          rw [if_neg (by linarith), max_eq_right (by linarith)]
          ring
        · have h5 : 0 < 1 + s.pregLast / 3 := by linarith
          have h6 : s.x + a * (-s.x / (1 + s.pregLast / 3)) = s.x * (1 - a / (1 + s.pregLast / 3)) := by
            field_simp
            ring
          rw [h6]
          have h7 : a / (1 + s.pregLast / 3) ≤ 1 / 2 := by
            rw [div_le_iff₀ h5]
            linarith
          nlinarith
    obtain ⟨ρ, hρ, hρ0, hρ1, hbl⟩ := hρ
    have h1ρ : 0 < 1 + ρ := by linarith
    rw [innerIter_succ qr (fuel + 1) .filter (par N) quad k s (d := -s.x / (1 + ρ)) (gn := ()) (dphi0 := -s.x ^ 2 / (1 + ρ))
      (by
        show ¬ (|s.x| ≤ s.innerTol ∨ (|s.x| ≤ 1 / 4 ∧ _))
        rw [habs, ht]
        rintro (h | ⟨h, _⟩) <;> linarith)
      (by rw [hρ]; rfl)
      (by
        show (1 / 10000000000000 : ℝ) < |-s.x ^ 2 / (1 + ρ)|
        rw [neg_div, abs_neg, abs_of_nonneg (by positivity), lt_div_iff₀ h1ρ]
        nlinarith)]
    rw [hρ]
    obtain ⟨c, v, hc⟩ := search_left qr fuel
      { s with crit := quad.innerCrit s.x s.ws, dual := quad.dualInf s.x, preg := ρ, gains := (), solves := s.solves + 1 }
      (-s.x / (1 + ρ)) (-s.x ^ 2 / (1 + ρ)) hf hbl
    rw [hc]
    unfold afterSearch
    dsimp only
    rw [fold_quad]
    dsimp only
    rw [if_pos (by show (1 / 1000000 : ℝ) ≤ 1 / 1000000; exact le_rfl)]
    have hmove : s.x - 1 / 1000000 / (1 + ρ) ≤ s.x + 1 / 1000000 * (-s.x / (1 + ρ)) ∧
        s.x + 1 / 1000000 * (-s.x / (1 + ρ)) ≤ s.x := by
      have e1 : 1 / 1000000 * (-s.x / (1 + ρ)) = -(1 / 1000000 / (1 + ρ) * s.x) := by ring
      have e2 : 0 < 1 / 1000000 / (1 + ρ) := by positivity
      rw [e1]
      constructor <;> nlinarith
    split
    · refine ⟨_, rfl, ?_⟩
      show 999 / 1000 ≤ s.x + 1 / 1000000 * (-s.x / (1 + ρ))
      have : 1 / 1000000 / (1 + ρ) ≤ 1 / 1000000 := by
        rw [div_le_iff₀ h1ρ]
        linarith
      rcases h with ⟨h1, h2⟩ | ⟨h1, h2, h3, h4⟩
      · rw [h2] at hmove ⊢; linarith [hmove.1]
      · have : 0 ≤ 1 / s.pregLast := by positivity
        linarith [hmove.1]
    · rename_i hreg
      refine ih _ rfl ht ?_
      right
      have hreg' : ρ < 1000000000 := not_le.1 hreg
      rcases h with ⟨h1, h2⟩ | ⟨h1, h2, h3, h4⟩
      · have hr : ρ = 1 / 7 := by
          rw [← hρ]
          show (if s.pregLast = 0 then max (1 / 7 : ℝ) (1 / 1000) else _) = _
          rw [if_pos h1]
          norm_num
        have hL : (if s.pregLast = 0 then ρ * (par N).regIncFirst else ρ * (par N).regInc) = 100 / 7 := by
          rw [if_pos h1, hr]
          show (1 / 7 : ℝ) * 100 = _
          norm_num
        show (100 / 7 ≤ (if s.pregLast = 0 then ρ * (par N).regIncFirst else ρ * (par N).regInc) ∧
          (if s.pregLast = 0 then ρ * (par N).regIncFirst else ρ * (par N).regInc) ≤ 10000000000 ∧
          s.x + 1 / 1000000 * (-s.x / (1 + ρ)) ≤ 1 ∧
          1 - 1 / 1000000 * (1 + 30 / 7 * (7 / 100 - 1 / (if s.pregLast = 0 then ρ * (par N).regIncFirst else ρ * (par N).regInc)))
            ≤ s.x + 1 / 1000000 * (-s.x / (1 + ρ)))
        rw [hL, h2, hr]
        norm_num
      · have hr : ρ = s.pregLast / 3 := by
          rw [← hρ]
          show (if s.pregLast = 0 then _ else max (1 / 1000 : ℝ) (s.pregLast * (1 / 3))) = _
          rw [if_neg (by linarith), max_eq_right (by linarith)]
          ring
        have hL : (if s.pregLast = 0 then ρ * (par N).regIncFirst else ρ * (par N).regInc) = 10 * s.pregLast / 3 := by
          rw [if_neg (by linarith), hr]
          show s.pregLast / 3 * 10 = _
          ring
        show (100 / 7 ≤ (if s.pregLast = 0 then ρ * (par N).regIncFirst else ρ * (par N).regInc) ∧
          (if s.pregLast = 0 then ρ * (par N).regIncFirst else ρ * (par N).regInc) ≤ 10000000000 ∧
          s.x + 1 / 1000000 * (-s.x / (1 + ρ)) ≤ 1 ∧
          1 - 1 / 1000000 * (1 + 30 / 7 * (7 / 100 - 1 / (if s.pregLast = 0 then ρ * (par N).regIncFirst else ρ * (par N).regInc)))
            ≤ s.x + 1 / 1000000 * (-s.x / (1 + ρ)))
        rw [hL]
        refine ⟨by linarith, by linarith, by linarith [hmove.2], ?_⟩
        have h5 : 1 / 1000000 / (1 + ρ) ≤ 1 / 1000000 * (3 / s.pregLast) := by
          rw [hr, div_le_iff₀ (by linarith), mul_assoc]
          have : 1 ≤ 3 / s.pregLast * (1 + s.pregLast / 3) := by
            have h6 : 3 / s.pregLast * (1 + s.pregLast / 3) = 3 / s.pregLast + 1 := by
              field_simp
            rw [h6]
            have : 0 ≤ 3 / s.pregLast := by positivity
            linarith
          linarith
        have h6 : 1 / (10 * s.pregLast / 3) = 3 / 10 * (1 / s.pregLast) := by
          field_simp
        have h7 : 3 / s.pregLast = 3 * (1 / s.pregLast) := by ring
        rw [h6]
        rw [h7] at h5
        linarith [hmove.1]

/-- Minimising `x²/2` from `x = 1` with the filter and at least two iterations: the first run after `setup` converges in
one step to `1/8` and returns true.  The same call made again returns false and stays within 1/1000 of the guess,
whatever the number of iterations allowed. -/
theorem C69_filter_rerun_fails (qr : Linesearch.Solve2) (fuel n : ℕ) (s : St ℝ Unit Unit Unit) :
    ∃ t t', run qr (fuel + 3) .filter (par (n + 2)) quad 1 (setup .filter opts quad s) = .done true t ∧ t.x = 1 / 8 ∧
      run qr (fuel + 3) .filter (par (n + 2)) quad 1 t = .done false t' ∧ 999 / 1000 ≤ t'.x := by
  obtain ⟨t, h1, h2, h3, _⟩ := first_run qr fuel n (setup .filter opts quad s) rfl
  obtain ⟨t', h4, h5⟩ := second_inner qr (fuel + 2) (n + 2) (n + 2) (evaluateIterate quad (initRun (par (n + 2)) quad 1 t))
    h3 (by
      show max ((1 : ℝ) * (min (max (1 / 2) (1 / 16)) 0.99) ^ (1 : ℝ)) (1 / 4) = 1 / 2
      norm_num) (Or.inl ⟨rfl, rfl⟩)
  refine ⟨t, { t' with alIter := t'.alIter + 1 }, h1, h2, ?_, h5⟩
  unfold run
  show outer qr (fuel + 3) .filter (par (n + 2)) quad 1 _ = _
  unfold outer
  rw [if_pos (by show 0 < n + 2; omega)]
  have : innerLoop qr (fuel + 3) .filter (par (n + 2)) quad (initRun (par (n + 2)) quad 1 t) = .done false t' := h4
  rw [this]

/-- The conditions of `C16_C69_run_is_loop` and `C16_used_solver_partial` can be met by a run that returns true, and by
one that returns false on a used solver. -/
example (qr : Linesearch.Solve2) (fuel n : ℕ) (s : St ℝ Unit Unit Unit) :
    ∃ t t', run qr (fuel + 3) .filter (par (n + 2)) quad 1 (setup .filter opts quad s) = .done true t ∧ |t.x| ≤ 1 / 4 ∧
      run qr (fuel + 3) .filter (par (n + 2)) quad 1 t = .done false t' ∧ t'.numIters ≤ n + 2 := by
  obtain ⟨t, t', h1, _, h3, _⟩ := C69_filter_rerun_fails qr fuel n s
  have hv : ∀ (mu : ℝ) (v : Unit) (x : ℝ) (w : Unit) (r : ℝ), quad.mult mu v x = some (w, r) → (fun _ : ℝ => (0 : ℝ)) x ≤ r := by
    intro mu v x w r h
    injection h with h
    injection h with _ h
    exact h.le
  exact ⟨t, t', h1,
    ((C16_used_solver_partial qr (fuel + 3) .filter (par (n + 2)) quad quad_total 1 (fun _ => 0) hv _ _ _ h1).1 rfl).2, h3,
    (C16_used_solver_partial qr (fuel + 3) .filter (par (n + 2)) quad quad_total 1 (fun _ => 0) hv _ _ _ h3).2.1⟩

/-! ## The moving average of the nonmonotone search -/

/-- Minimise `x²/2` with steps three times too long. -/
noncomputable def long : Env ℝ Unit Unit ℝ Unit :=
  { quad with lin := fun x _ _ _ => some (-3 * x, (), -3 * x ^ 2) }

theorem long_total : Total long := ⟨fun _ _ _ => ⟨_, rfl⟩, fun _ _ _ => ⟨_, rfl⟩⟩

theorem long_first (n : ℕ) (hn : 0 < n) (g : ℝ) (hg : 1 ≤ g) : FirstStep (par n) long g () 0 (-3 * g) () (-3 * g ^ 2) where
  iters := hn
  alIters := Nat.one_pos
  mult := rfl
  busy := by
    rw [mu0_par]
    show ¬ (|g| ≤ max (1 * (min (1 / 2) 0.99) ^ (1 : ℝ)) (1 / 4) ∨ (|g| ≤ 1 / 4 ∧ (0 : ℝ) ≤ 1 / 4))
    rw [abs_of_nonneg (by linarith)]
    have : max (1 * (min (1 / 2 : ℝ) 0.99) ^ (1 : ℝ)) (1 / 4) = 1 / 2 := by norm_num
    rw [this]
    rintro (h | ⟨h, _⟩) <;> linarith
  lin := rfl
  slope := by
    show (1 / 10000000000000 : ℝ) < |-3 * g ^ 2|
    rw [neg_mul, abs_neg, abs_of_nonneg (by positivity)]
    nlinarith

theorem long_search (qr : Linesearch.Solve2) (fuel : ℕ) (n : ℕ) (g : ℝ) (st : Linesearch.NMSt) (s : St ℝ Unit Unit Unit)
    (hs : s.ls = .nonmonotone opts st) :
    search qr fuel .nonmonotone long (searchState (par n) long () 0 () (initRun (par n) long g s)) (-3 * g) (-3 * g ^ 2) =
      (nmCalls opts (st.update (17 / 20) (g ^ 2 / 2)).movAvg (fun a => some ((g + a * (-3 * g)) ^ 2 / 2)) (-3 * g ^ 2) fuel 1).map
        fun r => ⟨r.1, r.2, .nonmonotone opts (st.update (17 / 20) (g ^ 2 / 2)), s.filter⟩ := by
  have h1 : (searchState (par n) long () 0 () (initRun (par n) long g s)).ls = s.ls := rfl
  have h2 : (searchState (par n) long () 0 () (initRun (par n) long g s)).merit = g ^ 2 / 2 := rfl
  have h3 : (fun a => (long.pair (searchState (par n) long () 0 () (initRun (par n) long g s)) (-3 * g) a).map Prod.fst) =
      fun a => some ((g + a * (-3 * g)) ^ 2 / 2) := rfl
  have h4 : (searchState (par n) long () 0 () (initRun (par n) long g s)).filter = s.filter := rfl
  unfold search
  simp only [h1, hs, h2, h3, h4]
  cases nmCalls opts (st.update (17 / 20) (g ^ 2 / 2)).movAvg (fun a => some ((g + a * (-3 * g)) ^ 2 / 2)) (-3 * g ^ 2) fuel 1 <;> rfl

theorem nm_one (m : ℝ) (phi : ℝ → ℝ) (dphi0 : ℝ) (fuel : ℕ) (h : phi 1 ≤ m + 1 / 10000 * 1 * dphi0) :
    nmCalls opts m (fun a => some (phi a)) dphi0 (fuel + 1) 1 = some ([1], .ok 1 (phi 1)) := by
  unfold nmCalls
  rw [if_pos (by show (1 / 1000000 : ℝ) < 1; norm_num)]
  dsimp only
  rw [if_pos (by exact h)]

theorem nm_half (m : ℝ) (phi : ℝ → ℝ) (dphi0 : ℝ) (fuel : ℕ) (h : ¬ phi 1 ≤ m + 1 / 10000 * 1 * dphi0)
    (h2 : phi (1 / 2) ≤ m + 1 / 10000 * (1 / 2) * dphi0) :
    nmCalls opts m (fun a => some (phi a)) dphi0 (fuel + 2) 1 = some ([1, 1 / 2], .ok (1 / 2) (phi (1 / 2))) := by
  unfold nmCalls
  rw [if_pos (by show (1 / 1000000 : ℝ) < 1; norm_num)]
  dsimp only
  rw [if_neg (by exact h)]
  unfold nmCalls
  rw [one_mul, if_pos (by show (1 / 1000000 : ℝ) < 1 / 2; norm_num)]
  dsimp only
  rw [if_pos (by exact h2)]
  rfl

/-- The conditions of `C69_nonmonotone_partial` can be met: two converging runs with one step each and a shift. -/
theorem nm_first_run (qr : Linesearch.Solve2) (fuel n : ℕ) (st : Linesearch.NMSt) (s : St ℝ Unit Unit Unit)
    (hs : s.ls = .nonmonotone opts st) (hm : (st.update (17 / 20) (1 / 2)).movAvg = 1 / 2) :
    ∃ t, run qr (fuel + 3) .nonmonotone (par (n + 2)) quad 1 s = .done true t ∧ t.x = 1 / 8 := by
  have h1 : (searchState (par (n + 2)) quad () 0 () (initRun (par (n + 2)) quad 1 s)).ls = s.ls := rfl
  have h2 : (searchState (par (n + 2)) quad () 0 () (initRun (par (n + 2)) quad 1 s)).merit = (1 : ℝ) ^ 2 / 2 := rfl
  have h3 : (fun a => (quad.pair (searchState (par (n + 2)) quad () 0 () (initRun (par (n + 2)) quad 1 s)) (-7 / 8) a).map Prod.fst) =
      fun a => some (((1 : ℝ) + a * (-7 / 8)) ^ 2 / 2) := rfl
  have h5 : (1 : ℝ) ^ 2 / 2 = 1 / 2 := by norm_num
  have hse : search qr (fuel + 3) .nonmonotone quad (searchState (par (n + 2)) quad () 0 () (initRun (par (n + 2)) quad 1 s))
      (-7 / 8) (-7 / 8) = some ⟨[1], .ok 1 (1 / 128), .nonmonotone opts (st.update (17 / 20) (1 / 2)), s.filter⟩ := by
    have h4 : (searchState (par (n + 2)) quad () 0 () (initRun (par (n + 2)) quad 1 s)).filter = s.filter := rfl
    unfold search
    simp only [h1, hs, h2, h3, h4, h5, hm]
    rw [nm_one (1 / 2) (fun a => ((1 : ℝ) + a * (-7 / 8)) ^ 2 / 2) _ (fuel + 2) (by norm_num)]
    norm_num
  obtain ⟨t, ht, hx, _⟩ := first_run_of_search qr fuel n .nonmonotone s _ _ hse
  exact ⟨t, ht, hx⟩

example (qr : Linesearch.Solve2) (fuel n : ℕ) (s : St ℝ Unit Unit Unit) (f : ℝ × ℝ × Unit × Unit × Unit → ℝ × ℝ × Unit × Unit × Unit) :
    SameReport
      (run qr (fuel + 3) .nonmonotone (par (n + 2)) quad 1 ([Call.run (par 200) quad 1, .cycle f].foldl
        (Call.after qr (fuel + 3) .nonmonotone) (setup .nonmonotone opts quad s)))
      (run qr (fuel + 3) .nonmonotone (par (n + 2)) quad 1 (setup .nonmonotone opts quad s)) := by
  refine C69_nonmonotone_partial qr (fuel + 3) opts (par (n + 2)) quad quad quad_total (by show 0 < n + 2; omega) Nat.one_pos 1 s _
    ⟨?_, trivial, trivial⟩
  obtain ⟨t, ht, _⟩ := nm_first_run qr fuel 198 .reset (setup .nonmonotone opts quad s) rfl (by
    unfold Linesearch.NMSt.update Linesearch.NMSt.reset
    norm_num)
  exact ⟨t, ht⟩

/-- The conditions of `C69_after_setup_partial` can be met. -/
example (qr : Linesearch.Solve2) (fuel n : ℕ) (sa : Strategy) (s s' : St ℝ Unit Unit Unit) :
    SameReport (run qr fuel sa (par (n + 1)) quad 1 (setup sa opts quad s)) (run qr fuel sa (par (n + 1)) quad 1 (setup sa opts quad s')) :=
  C69_after_setup_partial qr fuel sa opts (par (n + 1)) quad quad quad_total (Nat.succ_pos n) Nat.one_pos 1 s s'

/-- The conditions of `C69_armijo` can be met. -/
example (qr : Linesearch.Solve2) (fuel n : ℕ) (s : St ℝ Unit Unit Unit) (cs : List (Call ℝ Unit Unit ℝ Unit)) :
    SameReport (run qr fuel .armijo (par (n + 1)) quad 1 (cs.foldl (Call.after qr fuel .armijo) (setup .armijo opts quad s)))
      (run qr fuel .armijo (par (n + 1)) quad 1 (setup .armijo opts quad s)) :=
  C69_armijo qr fuel opts (par (n + 1)) quad quad quad_total (Nat.succ_pos n) Nat.one_pos 1 s cs

/-- With the nonmonotone search, a run that stopped without converging (here: `max_iters` reached) leaves its moving
average: from `x = 1` a new run accepts a step of length 1 that doubles `|x|`, which the same run after `setup` does not. -/
theorem C69_nonmonotone_stale_average (qr : Linesearch.Solve2) (fuel n : ℕ) (s : St ℝ Unit Unit Unit) :
    (∃ t, run qr (fuel + 2) .nonmonotone (par 1) long 10 (setup .nonmonotone opts long s) = .done false t ∧
      (run qr (fuel + 2) .nonmonotone (par (n + 1)) long 1 t).state.alphas.head? = some 1) ∧
    (run qr (fuel + 2) .nonmonotone (par (n + 1)) long 1 (setup .nonmonotone opts long s)).state.alphas.head? =
      some (1 / 2) := by
  constructor
  · have hse := long_search qr (fuel + 2) 1 10 .reset (setup .nonmonotone opts long s) rfl
    have hu : Linesearch.NMSt.reset.update (17 / 20) ((10 : ℝ) ^ 2 / 2) = ⟨50, 1⟩ := by
      unfold Linesearch.NMSt.update Linesearch.NMSt.reset
      norm_num
    rw [hu, nm_half 50 (fun a => ((10 : ℝ) + a * (-3 * 10)) ^ 2 / 2) _ fuel (by norm_num) (by norm_num)] at hse
    have hL := innerLoop_first (long_first 1 Nat.one_pos 10 (by norm_num)) qr (fuel + 2) .nonmonotone
      (setup .nonmonotone opts long s)
    rw [hse] at hL
    have hrun : ∃ t, run qr (fuel + 2) .nonmonotone (par 1) long 10 (setup .nonmonotone opts long s) = .done false t ∧
        t.ls = .nonmonotone opts ⟨50, 1⟩ := by
      unfold run
      show ∃ t, outer qr (fuel + 2) .nonmonotone (par 1) long 1 _ = _ ∧ _
      unfold outer
      rw [if_pos (by show 0 < 1; exact Nat.one_pos), hL]
      unfold afterSearch
      dsimp only [Option.map]
      rw [if_neg (by show ¬ (1 / 2 : ℝ) ≤ 1 / 1000000; norm_num)]
      have hz : (par 1).maxIters - 1 = 0 := rfl
      rw [hz]
      exact ⟨_, rfl, rfl⟩
    obtain ⟨t, h1, h2⟩ := hrun
    refine ⟨t, h1, ?_⟩
    have hse := long_search qr (fuel + 2) (n + 1) 1 ⟨50, 1⟩ t h2
    have hu : Linesearch.NMSt.update (17 / 20) ⟨50, 1⟩ ((1 : ℝ) ^ 2 / 2) = ⟨43 / (37 / 20), 37 / 20⟩ := by
      unfold Linesearch.NMSt.update
      norm_num
    rw [hu, nm_one (43 / (37 / 20)) (fun a => ((1 : ℝ) + a * (-3 * 1)) ^ 2 / 2) _ (fuel + 1) (by norm_num)] at hse
    exact (run_first (long_first (n + 1) (by omega) 1 le_rfl) qr (fuel + 2) .nonmonotone t _ hse).1 1 _ rfl
  · have hse := long_search qr (fuel + 2) (n + 1) 1 .reset (setup .nonmonotone opts long s) rfl
    have hu : Linesearch.NMSt.reset.update (17 / 20) ((1 : ℝ) ^ 2 / 2) = ⟨1 / 2, 1⟩ := by
      unfold Linesearch.NMSt.update Linesearch.NMSt.reset
      norm_num
    rw [hu, nm_half (1 / 2) (fun a => ((1 : ℝ) + a * (-3 * 1)) ^ 2 / 2) _ fuel (by norm_num) (by norm_num)] at hse
    exact (run_first (long_first (n + 1) (by omega) 1 le_rfl) qr (fuel + 2) .nonmonotone _ _ hse).1 (1 / 2) _ rfl

/-! ## NaN and exceptions -/

/-- A problem with constant criteria `1/8` and constraint violation `v` (`none`: NaN). -/
noncomputable def flat (v : Option ℝ) : Env ℝ Unit Unit ℝ Unit :=
  { quad with mult := fun _ _ _ => v.map fun r => ((), r), dualInf := fun _ => 1 / 8, innerCrit := fun _ _ => 1 / 8 }

theorem flat_inner (qr : Linesearch.Solve2) (fuel : ℕ) (sa : Strategy) (v : Option ℝ) (s : St ℝ Unit Unit Unit)
    (h0 : s.numIters = 0) (ht : s.innerTol = 1 / 2) :
    innerLoop qr fuel sa (par 1) (flat v) s =
      .done true { s with prim := v.getD s.prim, ws := (), merit := s.x ^ 2 / 2, crit := 1 / 8, dual := 1 / 8 } := by
  unfold innerLoop
  have hk : (par 1).maxIters - s.numIters = 1 := by
    rw [h0]
    rfl
  rw [hk]
  unfold innerIter
  have hc : ∀ t : St ℝ Unit Unit Unit, t.innerTol = 1 / 2 →
      ((flat v).innerCrit t.x t.ws ≤ t.innerTol ∨ ((flat v).dualInf t.x ≤ (par 1).targetDual ∧ t.prim ≤ (par 1).targetTol)) := by
    intro t h
    left
    rw [h]
    show (1 / 8 : ℝ) ≤ 1 / 2
    norm_num
  cases v with
  | none =>
    dsimp only
    rw [if_pos (by exact hc (evaluateIterate (flat none) s) ht)]
    rfl
  | some r =>
    dsimp only
    rw [if_pos (by exact hc (evaluateIterate (flat (some r)) s) ht)]
    rfl

theorem par_tols (n : ℕ) (e : Env ℝ Unit Unit ℝ Unit) (g : ℝ) (s : St ℝ Unit Unit Unit) :
    (initRun (par n) e g s).innerTol = 1 / 2 ∧ (initRun (par n) e g s).primTol = 1 / 2 ∧ (initRun (par n) e g s).mu = 1 / 2 := by
  refine ⟨?_, ?_, ?_⟩
  · show max ((1 : ℝ) * (min (max (1 / 2) (1 / 16)) 0.99) ^ (1 : ℝ)) (1 / 4) = 1 / 2
    norm_num
  · show max ((1 : ℝ) * (min (max (1 / 2) (1 / 16)) 0.99) ^ (1 : ℝ)) (1 / 4) = 1 / 2
    norm_num
  · show max (1 / 2 : ℝ) (1 / 16) = 1 / 2
    norm_num

/-- A run on `flat`: it reports convergence exactly if the violation, or the one reported by the last run, is small. -/
theorem flat_run (qr : Linesearch.Solve2) (fuel : ℕ) (sa : Strategy) (v : Option ℝ) (g : ℝ) (s : St ℝ Unit Unit Unit) :
    (v.getD s.prim ≤ 1 / 4 → ∃ t, run qr (fuel + 3) sa (par 1) (flat v) g s = .done true t) ∧
    (1 / 2 < v.getD s.prim → ∃ t, run qr (fuel + 3) sa (par 1) (flat v) g s = .done false t ∧ t.prim = v.getD s.prim) := by
  obtain ⟨h1, h2, h3⟩ := par_tols 1 (flat v) g s
  have hL := flat_inner qr (fuel + 3) sa v (initRun (par 1) (flat v) g s) rfl h1
  have hp : (initRun (par 1) (flat v) g s).prim = s.prim := rfl
  rw [hp] at hL
  have hO : run qr (fuel + 3) sa (par 1) (flat v) g s = outer qr (fuel + 3) sa (par 1) (flat v) 1 (initRun (par 1) (flat v) g s) := rfl
  rw [hO]
  unfold outer
  rw [if_pos (by show 0 < 1; exact Nat.one_pos), hL]
  dsimp only
  constructor
  · intro hv
    rw [if_pos (by rw [h2]; linarith)]
    have hp2 : (min (1 / 2 : ℝ) 0.99) ^ (1 : ℝ) = 1 / 2 := by norm_num
    have step : ∀ (k : ℕ) (u : St ℝ Unit Unit Unit), u.mu = 1 / 2 → tighten (par 1) (k + 1) u =
        if u.crit < u.innerTol * (1 / 2) then
          tighten (par 1) k { u with primTol := u.primTol * (1 / 2), innerTol := u.innerTol * (1 / 2) }
        else some { u with primTol := u.primTol * (1 / 2), innerTol := u.innerTol * (1 / 2) } := by
      intro k u hu
      conv_lhs => unfold tighten
      unfold updateTolsOnSuccess
      have e1 : (par 1).primBeta = 1 := rfl
      have e2 : (par 1).dualBeta = 1 := rfl
      rw [hu, e1, e2, hp2]
    rw [step]
    rotate_left
    · exact h3
    rw [if_pos (by dsimp only; rw [h1]; norm_num), step]
    rotate_left
    · exact h3
    rw [if_neg (by dsimp only; rw [h1]; norm_num)]
    dsimp only
    rw [if_pos ⟨by show (1 / 8 : ℝ) ≤ 1 / 4; norm_num, hv⟩]
    exact ⟨_, rfl⟩
  · intro hv
    rw [if_neg (by rw [h2]; linarith)]
    refine ⟨_, rfl, ?_⟩
    unfold clamp onFailure
    dsimp only
    split <;> rfl

/-- If the evaluation of the constraints at the guess produces a NaN, the flag that `run` returns (and the violation that
it reports) are those of whatever the solver computed last: the same call returns true on a new solver and
false after a run on another problem. -/
theorem C69_nan_guess_reports_stale_values (qr : Linesearch.Solve2) (fuel : ℕ) (sa : Strategy) (g : ℝ)
    (s : St ℝ Unit Unit Unit) :
    (∃ t, run qr (fuel + 3) sa (par 1) (flat none) g (setup sa opts quad s) = .done true t) ∧
    ∃ t, run qr (fuel + 3) sa (par 1) (flat (some 5)) g (setup sa opts quad s) = .done false t ∧
      ∃ t', run qr (fuel + 3) sa (par 1) (flat none) g t = .done false t' ∧ t'.prim = 5 := by
  refine ⟨(flat_run qr fuel sa none g _).1 (by show (0 : ℝ) ≤ 1 / 4; norm_num), ?_⟩
  obtain ⟨t, h1, h2⟩ := (flat_run qr fuel sa (some 5) g (setup sa opts quad s)).2 (by show (1 / 2 : ℝ) < 5; norm_num)
  refine ⟨t, h1, ?_⟩
  obtain ⟨t', h3, h4⟩ := (flat_run qr fuel sa none g t).2 (by show (1 / 2 : ℝ) < t.prim; rw [h2]; show (1 / 2 : ℝ) < 5; norm_num)
  exact ⟨t', h3, h4.trans h2⟩

/-- `quad` whose trial points cannot be evaluated: `c` is the part of the trial buffers written before the exception. -/
noncomputable def throwing (c : ℝ → ℝ) : Env ℝ Unit Unit ℝ Unit := { quad with point := fun _ _ _ => .error c }

theorem throwing_first (c : ℝ → ℝ) : FirstStep (par 1) (throwing c) 1 () 0 (-7 / 8) () (-7 / 8) :=
  ⟨(quad_first 1 Nat.one_pos).iters, (quad_first 1 Nat.one_pos).alIters, rfl, (quad_first 1 Nat.one_pos).busy,
    (quad_first 1 Nat.one_pos).lin, (quad_first 1 Nat.one_pos).slope⟩

theorem throwing_filterFirst (w : ℝ → ℝ) (s : St ℝ Unit Unit Unit) (d : ℝ) (n : ℕ) (a : ℝ) (h : a ≤ 1 / 1000000 * 2 ^ (n + 1)) :
    ∃ b c, filterFirst ((throwing w).pair s d) (1 / 1000000) (n + 1) a = some (b :: c, 1 / 1000000, (0, 0)) := by
  induction n generalizing a with
  | zero =>
    unfold filterFirst
    have : (throwing w).pair s d a = none := rfl
    rw [this]
    dsimp only
    rw [if_pos (by norm_num at h; linarith)]
    exact ⟨_, _, rfl⟩
  | succ n ih =>
    unfold filterFirst
    have : (throwing w).pair s d a = none := rfl
    rw [this]
    dsimp only
    split
    · exact ⟨_, _, rfl⟩
    · obtain ⟨b, c, hc⟩ := ih (a * (1 / 2)) (by rw [pow_succ] at h; linarith)
      rw [hc]
      exact ⟨_, _, rfl⟩

theorem throwing_fold {c : ℝ → ℝ} (hc : ∀ x, c (c x) = c x) (d b : ℝ) (l : List ℝ) (s : St ℝ Unit Unit Unit) :
    (b :: l).foldl (forwardPass (throwing c) d) s = { s with trial := c s.trial } := by
  induction l generalizing s b with
  | nil => rfl
  | cons a l ih =>
    show (a :: l).foldl (forwardPass (throwing c) d) { s with trial := c s.trial } = _
    rw [ih]
    dsimp only
    rw [hc]

theorem throwing_run {w : ℝ → ℝ} (hw : ∀ x, w (w x) = w x) (qr : Linesearch.Solve2) (s : St ℝ Unit Unit Unit) (hs : s.filter.alphaMin = 1 / 1000000)
    (hn : s.filter.maxNumSteps = 20) (ha : (Filter.acceptPair s.filter (0, 0)).2 = true) :
    ∃ t, run qr 20 .filter (par 1) (throwing w) 1 s = .done false t ∧ t.x = w s.trial := by
  have hL := innerLoop_first (throwing_first w) qr 20 .filter s
  have hfil : (searchState (par 1) (throwing w) () 0 () (initRun (par 1) (throwing w) 1 s)).filter = s.filter := rfl
  obtain ⟨b, c, hc⟩ := throwing_filterFirst w (searchState (par 1) (throwing w) () 0 () (initRun (par 1) (throwing w) 1 s)) (-7 / 8) 19 1
    (by norm_num)
  have hse : search qr 20 .filter (throwing w) (searchState (par 1) (throwing w) () 0 () (initRun (par 1) (throwing w) 1 s)) (-7 / 8) (-7 / 8) =
      some ⟨b :: c ++ [], .ok (1 / 1000000) 0, s.ls, (Filter.acceptPair s.filter (0, 0)).1⟩ := by
    unfold search
    dsimp only
    rw [hfil, hs, hc, hn]
    dsimp only
    unfold filterLoop
    rw [ha]
    rfl
  rw [hse] at hL
  unfold run
  show ∃ t, outer qr 20 .filter (par 1) (throwing w) 1 _ = _ ∧ _
  unfold outer
  rw [if_pos (by show 0 < 1; exact Nat.one_pos), hL]
  unfold afterSearch
  dsimp only
  rw [show b :: c ++ [] = b :: c from List.append_nil _, throwing_fold hw, if_pos (by show (1 / 1000000 : ℝ) ≤ 1 / 1000000; exact le_rfl)]
  rw [if_neg (by
    show ¬ (1000000000 : ℝ) ≤ max (1 / 7) (1 / 1000)
    norm_num)]
  have hz : (par 1).maxIters - 1 = 0 := rfl
  rw [hz]
  exact ⟨_, rfl, rfl⟩

/-- If every trial point throws, the filter accepts the pair (0, 0) and `run` returns the trial buffers, overwritten only by
what the rollouts wrote before they threw (`w`): on a new solver the initial values, after another run the last point
that run tried. -/
theorem C69_throwing_returns_stale_trajectory {w : ℝ → ℝ} (hw : ∀ x, w (w x) = w x) (qr : Linesearch.Solve2) (s : St ℝ Unit Unit Unit) :
    (∃ t, run qr 20 .filter (par 1) (throwing w) 1 (setup .filter opts quad s) = .done false t ∧ t.x = w 0) ∧
    ∃ t, run qr 20 .filter (par 2) quad 1 (setup .filter opts quad s) = .done true t ∧
      ∃ t', run qr 20 .filter (par 1) (throwing w) 1 t = .done false t' ∧ t'.x = w (1 / 8) := by
  refine ⟨throwing_run hw qr _ rfl rfl (by simp [setup, Filter.reset, Filter.acceptPair]), ?_⟩
  obtain ⟨t, h1, h2, h3, h4, _⟩ := first_run qr 17 0 (setup .filter opts quad s) rfl
  refine ⟨t, h1, ?_⟩
  have hacc : (Filter.acceptPair t.filter (0, 0)).2 = true := by
    rw [h3]
    unfold Filter.acceptPair
    rw [if_neg]
    simp only [List.any_cons, List.any_nil, Bool.or_false, Filter.blocks, Bool.and_eq_true, decide_eq_true_eq, not_and]
    norm_num
  obtain ⟨t', h5, h6⟩ := throwing_run hw qr t (by rw [h3]) (by rw [h3]) hacc
  exact ⟨t', h5, h6.trans (congrArg w h4)⟩

/-- Rollouts that throw at once (`w = id`), or after writing the larger of the buffer and `1/16`. -/
example : (∀ x : ℝ, id (id x) = id x) ∧ ∀ x : ℝ, max (max x (1 / 16)) (1 / 16) = max x (1 / 16) :=
  ⟨fun _ => rfl, fun x => by rw [max_assoc, max_self]⟩

end Aligator.Reuse.Witness
