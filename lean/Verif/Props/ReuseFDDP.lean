import Verif.Model.ReuseFDDP
import Mathlib.Tactic.NormNum
import Mathlib.Tactic.Linarith
import Mathlib.Tactic.Positivity

/-!
# C69 (and C20) for FDDP: runs on a used solver, failing rollouts
-/

namespace Aligator.FReuse

open FDDP (Params increaseReg decreaseReg)
open Linesearch (Fl)

variable {X G : Type}

/-! ## Specification -/

def Out.state : Out X G → St X G
  | .raised s => s
  | .stuck s => s
  | .done s => s

/-- What a client sees after a run.  Gains: if a line search was made, that is unless the run converged (or raised) at its
first test. -/
structure SameResults (s s' : St X G) : Prop where
  iterate : s.x = s'.x
  cost : s.cost = s'.cost
  prim : s.prim = s'.prim
  dual : s.dual = s'.dual
  conv : s.conv = s'.conv
  iters : s.iters = s'.iters
  gains : 0 < s.iters → s.gains = s'.gains

/-- Two runs end in the same way with the same results; the infeasibilities may differ if the first test raised. -/
def SameReport : Out X G → Out X G → Prop
  | .raised s, .raised s' => s.x = s'.x ∧ s.cost = s'.cost ∧ s.iters = s'.iters ∧ (0 < s.iters → SameResults s s')
  | .stuck s, .stuck s' => SameResults s s'
  | .done s, .done s' => SameResults s s'
  | _, _ => False

/-- Rollouts neither throw nor produce NaN. -/
def Total (e : Env X G) : Prop := ∀ x preg a, ∃ r, e.fwd x preg a = .ok r

/-! ## The search -/

/-- A search with throwing forward passes left out is the search of C21. -/
theorem C21_search_with_buffers (o : LS) (thGrad phi0 : ℝ) (fwd : ℝ → Except (X → X) (Pass X)) (n : ℕ) (a phi : ℝ) (t : X)
    (d1 : ℝ) (oo : Linesearch.Options) (h1 : oo.alphaMin = o.alphaMin) (h2 : oo.contractionMin = o.beta) :
    (search o thGrad phi0 fwd n a phi t d1).map (fun r => (r.1, Fl.fin r.2.1)) =
      (Linesearch.goldsteinLoop oo o.eps thGrad o.thAccept o.thAcceptNeg phi0
        (fun b => match fwd b with | .error _ => none | .ok r => some (.fin r.cost))
        (fun b => match fwd b with | .error _ => (0, 0) | .ok r => (phi0 + r.dV, r.d1)) n a (.fin phi)).map
        fun r => (r.1, r.2.1) := by
  induction n generalizing a phi t d1 with
  | zero => rfl
  | succ n ih =>
    unfold search Linesearch.goldsteinLoop
    rw [h1, h2]
    by_cases ha : a < o.alphaMin + o.eps
    · rw [if_pos ha, if_pos ha]
      rfl
    · rw [if_neg ha, if_neg ha]
      cases hf : fwd a with
      | error g => exact ih _ _ _ _
      | ok r =>
        have e1 : phi0 + r.dV - phi0 = r.dV := by ring
        have e2 : Fl.sub (.fin r.cost) (.fin phi0) = .fin (r.cost - phi0) := by
          show Fl.fin (r.cost + -phi0) = _
          rw [sub_eq_add_neg]
        have e3 : ∀ x y : ℝ, Fl.le (.fin x) (.fin y) ↔ x ≤ y := fun _ _ => Iff.rfl
        simp only [e1, e2, e3]
        by_cases hc : (r.dV < 0 ∧ (|r.d1| < thGrad ∨ r.cost - phi0 ≤ o.thAccept * r.dV)) ∨
            (¬ r.dV < 0 ∧ r.cost - phi0 ≤ o.thAcceptNeg * r.dV)
        · rw [if_pos hc, if_pos hc]
          rfl
        · rw [if_neg hc, if_neg hc]
          exact ih _ _ _ _

theorem search_indep (o : LS) (thGrad phi0 : ℝ) (fwd : ℝ → Except (X → X) (Pass X)) (hf : ∀ a, ∃ r, fwd a = .ok r)
    (n : ℕ) (a phi : ℝ) (t t' : X) (d1 d1' : ℝ) (ha : ¬ a < o.alphaMin + o.eps) :
    search o thGrad phi0 fwd n a phi t d1 = search o thGrad phi0 fwd n a phi t' d1' := by
  cases n with
  | zero => rfl
  | succ n =>
    obtain ⟨r, hr⟩ := hf a
    unfold search
    rw [if_neg ha, if_neg ha, hr]

/-- FDDP keeps no memory: a run reports the same on any solver, new or used for anything before, as long as the
rollouts it makes neither throw nor produce NaN and the full step is tried. -/
theorem C69_fddp_partial (o : LS) (ho : o.alphaMin + o.eps ≤ 1) (fuel : ℕ) (p : Params) (hp : 0 < p.maxIters) (e : Env X G)
    (hT : Total e) (g : X) (s s' : St X G) : SameReport (run o fuel p e g s) (run o fuel p e g s') := by
  have key : ∀ (n : ℕ) (s s' : St X G), s.x = s'.x → s.preg = s'.preg → s.cost = s'.cost → s.conv = s'.conv →
      s.iters = s'.iters → ((0 < s.iters ∨ n = 0) → SameResults s s') →
      SameReport (loop o fuel p e n s) (loop o fuel p e n s') := by
    intro n
    induction n with
    | zero => intro s s' _ _ _ _ _ h; exact h (Or.inr rfl)
    | succ n ih =>
      intro s s' hx hr hc hv hi h
      unfold loop
      rw [← hx, ← hr]
      cases hck : e.check s.x s.preg with
      | none => exact ⟨hx, hc, hi, fun h0 => h (Or.inl h0)⟩
      | some r =>
        obtain ⟨prim, dual, gn⟩ := r
        dsimp only
        by_cases htol : max prim dual < p.targetTol
        · rw [if_pos htol, if_pos htol]
          exact ⟨rfl, hc, rfl, rfl, rfl, hi, fun h0 => (h (Or.inl h0)).gains h0⟩
        · rw [if_neg htol, if_neg htol]
          rw [← hc, search_indep o p.thGrad s.cost (e.fwd s.x s.preg) (hT _ _) fuel 1 s.cost s'.trial s.trial s'.d1 s.d1
            (not_lt.2 ho)]
          cases search o p.thGrad s.cost (e.fwd s.x s.preg) fuel 1 s.cost s.trial s.d1 with
          | none => exact ⟨rfl, rfl, rfl, rfl, hv, hi, fun _ => rfl⟩
          | some q =>
            obtain ⟨a, phi, t, d1⟩ := q
            dsimp only
            by_cases hd : |d1| < p.thGrad
            · rw [if_pos hd, if_pos hd]
              exact ⟨rfl, rfl, rfl, rfl, rfl, hi, fun _ => rfl⟩
            · rw [if_neg hd, if_neg hd]
              by_cases hs : a ≤ p.thStepInc
              · rw [if_pos hs, if_pos hs]
                by_cases hm : increaseReg p (if p.thStepDec < a then decreaseReg p s.preg else s.preg) = p.regMax
                · simp only [hm, if_true]
                  exact ⟨rfl, rfl, rfl, rfl, rfl, hi, fun _ => rfl⟩
                · simp only [hm, if_false]
                  refine ih _ _ rfl rfl rfl hv ?_ fun _ => ⟨rfl, rfl, rfl, rfl, hv, ?_, fun _ => rfl⟩ <;>
                  · show s.iters + 1 = s'.iters + 1
                    rw [hi]
              · rw [if_neg hs, if_neg hs]
                refine ih _ _ rfl rfl rfl hv ?_ fun _ => ⟨rfl, rfl, rfl, rfl, hv, ?_, fun _ => rfl⟩ <;>
                · show s.iters + 1 = s'.iters + 1
                  rw [hi]
  refine key _ _ _ rfl rfl rfl rfl rfl ?_
  rintro (h | h)
  · exact absurd h (lt_irrefl _)
  · omega

/-! ## All rollouts fail -/

/-- Every rollout from the iterate throws, after writing `w` into the trial buffers. -/
def Fails (e : Env X G) (x : X) (preg : ℝ) (w : X → X) : Prop := ∀ a, e.fwd x preg a = .error w

theorem search_fails (o : LS) (hb0 : 0 ≤ o.beta) (hb : o.beta ≤ 1 / 2) (thGrad phi0 : ℝ) (fwd : ℝ → Except (X → X) (Pass X)) (w : X → X)
    (hf : ∀ a, fwd a = .error w) (n : ℕ) (a phi : ℝ) (t : X) (d1 : ℝ) (ha : 0 ≤ a) (hn : a < (o.alphaMin + o.eps) * 2 ^ n) :
    ∃ b k, search o thGrad phi0 fwd (n + 1) a phi t d1 = some (b, phi, w^[k] t, d1) ∧ b ≤ a ∧ b < o.alphaMin + o.eps ∧
      (¬ a < o.alphaMin + o.eps → 0 < k) := by
  induction n generalizing a t with
  | zero =>
    rw [pow_zero, mul_one] at hn
    unfold search
    rw [if_pos hn]
    exact ⟨a, 0, rfl, le_rfl, hn, fun h => absurd hn h⟩
  | succ n ih =>
    by_cases h : a < o.alphaMin + o.eps
    · unfold search
      rw [if_pos h]
      exact ⟨a, 0, rfl, le_rfl, h, fun h' => absurd h h'⟩
    · unfold search
      rw [if_neg h, hf]
      obtain ⟨b, k, h1, h2, h3, _⟩ := ih (a * o.beta) (w t) (by positivity) (by
        have : a * o.beta ≤ a * (1 / 2) := mul_le_mul_of_nonneg_left hb ha
        rw [pow_succ] at hn
        linarith)
      refine ⟨b, k + 1, ?_, ?_, h3, fun _ => Nat.succ_pos k⟩
      · dsimp only
        rw [h1, Function.iterate_succ_apply]
      · have : a * o.beta ≤ a * (1 / 2) := mul_le_mul_of_nonneg_left hb ha
        linarith

/-- If the guess does not pass the convergence test and every rollout throws, then `run` replaces the trajectory by what the
failed rollouts left in the trial buffers, and reports convergence if and only if the slope left by an earlier
search is below `th_grad_` (or a later iteration reports it): directly after `setup` it always returns true. -/
theorem C20_C69_fddp_failed_rollouts (o : LS) (hb0 : 0 ≤ o.beta) (hb : o.beta ≤ 1 / 2) (n : ℕ) (hn : 1 < (o.alphaMin + o.eps) * 2 ^ n)
    (p : Params) (hp : 0 < p.maxIters) (e : Env X G) (g : X) (prim dual : ℝ) (gn : G)
    (hck : e.check g p.regInit = some (prim, dual, gn)) (htol : p.targetTol ≤ max prim dual) (w : X → X)
    (hF : Fails e g p.regInit w) (s : St X G) (hd : |s.d1| < p.thGrad) :
    ∃ t k, run o (n + 1) p e g s = .done t ∧ t.conv = true ∧ t.x = w^[k] (e.prime s.trial) ∧ t.cost = e.cost g ∧
      t.prim = prim ∧ t.dual = dual ∧ t.iters = 0 ∧ (o.alphaMin + o.eps ≤ 1 → 0 < k) := by
  obtain ⟨m, hm⟩ : ∃ m, p.maxIters = m + 1 := ⟨p.maxIters - 1, by omega⟩
  obtain ⟨b, k, h1, h2, h3, h4⟩ := search_fails o hb0 hb p.thGrad (e.cost g) (e.fwd g p.regInit) w hF n 1 (e.cost g)
    (e.prime s.trial) s.d1 zero_le_one hn
  unfold run
  rw [hm]
  unfold loop
  dsimp only
  rw [hck]
  dsimp only
  rw [if_neg (not_lt.2 htol), h1]
  dsimp only
  rw [if_pos hd]
  exact ⟨_, k, rfl, rfl, rfl, rfl, rfl, rfl, rfl, fun h => h4 (not_lt.2 h)⟩

/-- Directly after `setup` FDDP reports convergence for a problem all of whose rollouts fail, whatever the tolerance and
the infeasibility, and returns the trajectory left by the failed rollouts. -/
theorem C20_fddp_failed_rollouts_after_setup (o : LS) (hb0 : 0 ≤ o.beta) (hb : o.beta ≤ 1 / 2) (n : ℕ)
    (hn : 1 < (o.alphaMin + o.eps) * 2 ^ n) (p : Params) (hp : 0 < p.maxIters) (hg : 0 < p.thGrad) (e : Env X G) (g : X)
    (prim dual : ℝ) (gn : G) (hck : e.check g p.regInit = some (prim, dual, gn)) (htol : p.targetTol ≤ max prim dual)
    (w : X → X) (hF : Fails e g p.regInit w) (s : St X G) :
    ∃ t k, run o (n + 1) p e g (setup e s) = .done t ∧ t.conv = true ∧ t.x = w^[k] (e.prime e.fresh.2.1) ∧
      t.prim = prim ∧ t.dual = dual := by
  obtain ⟨t, k, h1, h2, h3, _, h5, h6, _⟩ := C20_C69_fddp_failed_rollouts o hb0 hb n hn p hp e g prim dual gn hck htol w hF
    (setup e s) (by show |(0 : ℝ)| < p.thGrad; rwa [abs_zero])
  exact ⟨t, k, h1, h2, h3, h5, h6⟩

/-! ## Concrete runs -/

/-- Default options (solvers/fddp/solver-fddp.hxx:26, core/linesearch-base.hpp:13-42, solvers/fddp/linesearch.hpp:20). -/
noncomputable def defLS : LS := ⟨1 / 512, 1 / 2, 1 / 2 ^ 52, 1 / 10, 2⟩

/-- Default parameters (solvers/fddp/solver-fddp.hpp:47-63, :93-96), one iteration. -/
noncomputable def defPar : Params := ⟨1 / 1000000, 1 / 1000000000, 1 / 1000000000, 1000000000, 1 / 10, 10, 1 / 10 ^ 12, 1 / 2, 1 / 100, 1⟩

/-- Minimise `x²/2` by halving, criterion `|x|`; `bad`: every rollout throws and leaves `none` (a NaN). -/
noncomputable def half (bad : Bool) : Env (Option ℝ) Unit where
  cost x := match x with | none => 0 | some x => x ^ 2 / 2
  check x _ := x.map fun x => (0, |x|, ())
  fwd x _ a := if bad then .error fun _ => none else
    match x with
    | none => .error id
    | some x => .ok ⟨some (x - a * x / 2), (x - a * x / 2) ^ 2 / 2, -a * x ^ 2 / 4, -x ^ 2 / 2⟩
  prime t := t
  fresh := (some 0, some 0, ())

theorem defLS_ok : 1 < (defLS.alphaMin + defLS.eps) * 2 ^ 9 := by
  show (1 : ℝ) < (1 / 512 + 1 / 2 ^ 52) * 2 ^ 9
  norm_num

/-- The conditions of `C20_fddp_failed_rollouts_after_setup` can be met. -/
example (s : St (Option ℝ) Unit) : ∃ t, run defLS 10 defPar (half true) (some 100) (setup (half true) s) = .done t ∧
    t.conv = true ∧ t.dual = 100 := by
  obtain ⟨t, k, h1, h2, _, _, h3⟩ := C20_fddp_failed_rollouts_after_setup defLS (by show (0 : ℝ) ≤ 1 / 2; norm_num)
    (by show (1 / 2 : ℝ) ≤ 1 / 2; norm_num) 9 defLS_ok defPar Nat.one_pos (by show (0 : ℝ) < 1 / 10 ^ 12; norm_num) (half true)
    (some 100) 0 100 () (by show some ((0 : ℝ), |(100 : ℝ)|, ()) = _; norm_num) (by show (1 / 1000000 : ℝ) ≤ max 0 100; norm_num)
    (fun _ => none) (fun _ => rfl) s
  exact ⟨t, h1, h2, h3⟩

theorem half_run (s : St (Option ℝ) Unit) : ∃ t, run defLS 10 defPar (half false) (some 1) s = .done t ∧ t.conv = false ∧ t.d1 = -1 / 2 := by
  unfold run
  show ∃ t, loop defLS 10 defPar (half false) 1 _ = _ ∧ _
  unfold loop
  have hck : (half false).check (some 1) defPar.regInit = some (0, 1, ()) := by
    show some ((0 : ℝ), |(1 : ℝ)|, ()) = _
    norm_num
  dsimp only
  rw [hck]
  dsimp only
  rw [if_neg (by show ¬ max (0 : ℝ) 1 < 1 / 1000000; norm_num)]
  have hs : ∀ (t : Option ℝ) (d : ℝ), search defLS defPar.thGrad ((half false).cost (some 1)) ((half false).fwd (some 1) defPar.regInit) 10 1
      ((half false).cost (some 1)) t d = some (1, 1 / 8, some (1 / 2), -1 / 2) := by
    intro t d
    unfold search
    rw [if_neg (by show ¬ (1 : ℝ) < 1 / 512 + 1 / 2 ^ 52; norm_num)]
    have hf : (half false).fwd (some 1) defPar.regInit 1 = .ok ⟨some (1 / 2), 1 / 8, -1 / 4, -1 / 2⟩ := by
      show Except.ok (⟨some ((1 : ℝ) - 1 * 1 / 2), ((1 : ℝ) - 1 * 1 / 2) ^ 2 / 2, -1 * 1 ^ 2 / 4, -1 ^ 2 / 2⟩ : Pass (Option ℝ)) = _
      norm_num
    have hc : (half false).cost (some 1) = 1 / 2 := by
      show (1 : ℝ) ^ 2 / 2 = _
      norm_num
    rw [hf, hc]
    dsimp only
    rw [if_pos]
    left
    refine ⟨by norm_num, Or.inr ?_⟩
    show (1 / 8 : ℝ) - 1 / 2 ≤ 1 / 10 * (-1 / 4)
    norm_num
  rw [hs]
  dsimp only
  rw [if_neg (by show ¬ |(-1 / 2 : ℝ)| < 1 / 10 ^ 12; norm_num), if_neg (by show ¬ (1 : ℝ) ≤ 1 / 100; norm_num)]
  exact ⟨_, rfl, rfl, rfl⟩

theorem bad_run (s : St (Option ℝ) Unit) (hd : s.d1 = -1 / 2) :
    ∃ t, run defLS 10 defPar (half true) (some 100) s = .done t ∧ t.conv = false := by
  obtain ⟨b, k, h1, h2, h3, h4⟩ := search_fails defLS (by show (0 : ℝ) ≤ 1 / 2; norm_num) (by show (1 / 2 : ℝ) ≤ 1 / 2; norm_num)
    defPar.thGrad ((half true).cost (some 100)) ((half true).fwd (some 100) defPar.regInit) (fun _ => none) (fun _ => rfl) 9 1
    ((half true).cost (some 100)) s.trial s.d1 zero_le_one defLS_ok
  unfold run
  show ∃ t, loop defLS 10 defPar (half true) 1 _ = _ ∧ _
  unfold loop
  have hck : (half true).check (some 100) defPar.regInit = some (0, 100, ()) := by
    show some ((0 : ℝ), |(100 : ℝ)|, ()) = _
    norm_num
  dsimp only
  rw [hck]
  dsimp only
  have hpr : (half true).prime s.trial = s.trial := rfl
  rw [if_neg (by show ¬ max (0 : ℝ) 100 < 1 / 1000000; norm_num), hpr, h1]
  dsimp only
  rw [hd, if_neg (by show ¬ |(-1 / 2 : ℝ)| < 1 / 10 ^ 12; norm_num)]
  by_cases hs : b ≤ defPar.thStepInc
  · rw [if_pos hs]
    by_cases hm : increaseReg defPar (if defPar.thStepDec < b then decreaseReg defPar defPar.regInit else defPar.regInit) =
        defPar.regMax
    · rw [if_pos hm]
      exact ⟨_, rfl, rfl⟩
    · rw [if_neg hm]
      unfold loop
      exact ⟨_, rfl, rfl⟩
  · rw [if_neg hs]
    unfold loop
    exact ⟨_, rfl, rfl⟩

/-- With default settings, on a problem whose rollouts all fail the flag returned depends on what the solver did before: true on
a new solver, false after a run on another problem. -/
theorem C69_fddp_flag_depends_on_history (s : St (Option ℝ) Unit) :
    (∃ t, run defLS 10 defPar (half true) (some 100) (setup (half true) s) = .done t ∧ t.conv = true) ∧
    ∃ t, run defLS 10 defPar (half false) (some 1) (setup (half true) s) = .done t ∧
      ∃ t', run defLS 10 defPar (half true) (some 100) t = .done t' ∧ t'.conv = false := by
  constructor
  · obtain ⟨t, k, h1, h2, _⟩ := C20_fddp_failed_rollouts_after_setup defLS (by show (0 : ℝ) ≤ 1 / 2; norm_num)
      (by show (1 / 2 : ℝ) ≤ 1 / 2; norm_num) 9 defLS_ok defPar Nat.one_pos (by show (0 : ℝ) < 1 / 10 ^ 12; norm_num) (half true)
      (some 100) 0 100 () (by show some ((0 : ℝ), |(100 : ℝ)|, ()) = _; norm_num)
      (by show (1 / 1000000 : ℝ) ≤ max 0 100; norm_num) (fun _ => none) (fun _ => rfl) s
    exact ⟨t, h1, h2⟩
  · obtain ⟨t, h1, _, h2⟩ := half_run (setup (half true) s)
    exact ⟨t, h1, bad_run t h2⟩

/-- The conditions of `C69_fddp_partial` can be met. -/
example : Total ({ half false with
    fwd := fun x _ a => .ok ⟨x.map fun x => x - a * x / 2, 0, -a, -1⟩ } : Env (Option ℝ) Unit) ∧
    defLS.alphaMin + defLS.eps ≤ 1 ∧ 0 < defPar.maxIters :=
  ⟨fun _ _ _ => ⟨_, rfl⟩, by show (1 / 512 : ℝ) + 1 / 2 ^ 52 ≤ 1; norm_num, Nat.one_pos⟩

end Aligator.FReuse
