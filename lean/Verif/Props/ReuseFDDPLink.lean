import Verif.Props.ReuseFDDP
import Verif.Props.FDDP

/-!
# C69, C20: a run on a used FDDP solver is a run of the loop of C20

`FReuse.loop` carries the trial buffers, the slope and the gains of the solver object.  Here: as long as no rollout throws, it
refines `FDDP.loop`, so what C20 says about new solvers holds on used ones.
-/

namespace Aligator.FReuse

open FDDP (Params increaseReg decreaseReg maxNorm)
open Linesearch (Fl)

variable {X G : Type}

/-- The convergence test is made of the norms of gaps and gradients. -/
def Checks (e : Env X G) (gaps : X → List Fl) (grads : X → ℝ → List Fl) : Prop :=
  ∀ x preg,
    (∀ a b g, e.check x preg = some (a, b, g) → maxNorm (gaps x) = .fin a ∧ maxNorm (grads x preg) = .fin b) ∧
    (e.check x preg = none → (∀ a, maxNorm (gaps x) ≠ .fin a) ∨ ∀ b, maxNorm (grads x preg) ≠ .fin b)

/-- The line search of a solver, as the loop of C20 sees it: started on some trial buffers. -/
noncomputable def toEnv (o : LS) (fuel : ℕ) (p : Params) (e : Env X G) (gaps : X → List Fl) (grads : X → ℝ → List Fl) :
    FDDP.Env X where
  gaps := gaps
  grads := grads
  search x preg phi0 := (search o p.thGrad phi0 (e.fwd x preg) fuel 1 phi0 e.fresh.2.1 0).map
    fun r => ⟨r.1, r.2.1, r.2.2.1, r.2.2.2⟩

/-- The state of the loop of C20. -/
def forget (s : St X G) (regs : List ℝ) : FDDP.St X :=
  ⟨s.x, s.preg, .fin s.cost, .fin s.prim, .fin s.dual, s.conv, s.iters, regs⟩

/-- Same end. -/
def Agree (o : Out X G) (o' : FDDP.Out X) : Prop :=
  match o with
  | .done t => ∃ regs, o' = .done (forget t regs)
  | .raised t => ∃ u, o' = .raised u ∧ u.x = t.x ∧ u.iters = t.iters ∧ u.cost = .fin t.cost ∧ u.conv = t.conv
  | .stuck _ => True

theorem loop_link (o : LS) (ho : o.alphaMin + o.eps ≤ 1) (fuel : ℕ) (p : Params) (e : Env X G) (hT : Total e)
    (gaps : X → List Fl) (grads : X → ℝ → List Fl) (hC : Checks e gaps grads) (n : ℕ) (s : St X G) (regs : List ℝ) :
    Agree (loop o fuel p e n s) (FDDP.loop p (toEnv o fuel p e gaps grads) n (forget s regs)) := by
  induction n generalizing s regs with
  | zero => exact ⟨regs, rfl⟩
  | succ n ih =>
    unfold loop FDDP.loop
    cases hck : e.check s.x s.preg with
    | none =>
      dsimp only
      rcases (hC s.x s.preg).2 hck with h | h
      · show Agree _ (match maxNorm (gaps s.x) with | .fin _ => _ | q => _)
        cases hm : maxNorm (gaps s.x) with
        | fin a => exact absurd hm (h a)
        | nan => exact ⟨_, rfl, rfl, rfl, rfl, rfl⟩
        | inf b => exact ⟨_, rfl, rfl, rfl, rfl, rfl⟩
      · show Agree _ (match maxNorm (gaps s.x) with | .fin _ => _ | q => _)
        cases hm : maxNorm (gaps s.x) with
        | nan => exact ⟨_, rfl, rfl, rfl, rfl, rfl⟩
        | inf b => exact ⟨_, rfl, rfl, rfl, rfl, rfl⟩
        | fin a =>
          show Agree _ (match maxNorm (grads s.x s.preg) with | .fin _ => _ | q => _)
          cases hg : maxNorm (grads s.x s.preg) with
          | fin b => exact absurd hg (h b)
          | nan => exact ⟨_, rfl, rfl, rfl, rfl, rfl⟩
          | inf b => exact ⟨_, rfl, rfl, rfl, rfl, rfl⟩
    | some r =>
      obtain ⟨prim, dual, gn⟩ := r
      obtain ⟨h1, h2⟩ := (hC s.x s.preg).1 _ _ _ hck
      have h1' : maxNorm ((toEnv o fuel p e gaps grads).gaps (forget s regs).x) = .fin prim := h1
      have h2' : maxNorm ((toEnv o fuel p e gaps grads).grads (forget s regs).x (forget s regs).preg) = .fin dual := h2
      rw [h1', h2']
      dsimp only
      by_cases htol : max prim dual < p.targetTol
      · rw [if_pos htol, if_pos htol]
        exact ⟨s.preg :: regs, rfl⟩
      · rw [if_neg htol, if_neg htol]
        have hse : (toEnv o fuel p e gaps grads).search (forget s regs).x (forget s regs).preg s.cost =
            (search o p.thGrad s.cost (e.fwd s.x s.preg) fuel 1 s.cost s.trial s.d1).map
              fun r => ⟨r.1, r.2.1, r.2.2.1, r.2.2.2⟩ := by
          show Option.map _ (search o p.thGrad s.cost (e.fwd s.x s.preg) fuel 1 s.cost e.fresh.2.1 0) = _
          rw [search_indep o p.thGrad s.cost (e.fwd s.x s.preg) (hT _ _) fuel 1 s.cost e.fresh.2.1 s.trial 0 s.d1 (not_lt.2 ho)]
        have hcost : (forget s regs).cost = .fin s.cost := rfl
        rw [hcost]
        dsimp only
        rw [hse]
        cases search o p.thGrad s.cost (e.fwd s.x s.preg) fuel 1 s.cost s.trial s.d1 with
        | none => trivial
        | some q =>
          obtain ⟨a, phi, t, d1⟩ := q
          dsimp only [Option.map_some]
          by_cases hd : |d1| < p.thGrad
          · rw [if_pos hd, if_pos hd]
            exact ⟨s.preg :: regs, rfl⟩
          · rw [if_neg hd, if_neg hd]
            have hpreg : (forget s regs).preg = s.preg := rfl
            rw [hpreg]
            by_cases hs : a ≤ p.thStepInc
            · rw [if_pos hs, if_pos hs]
              by_cases hm : increaseReg p (if p.thStepDec < a then decreaseReg p s.preg else s.preg) = p.regMax
              · rw [if_pos hm, if_pos hm]
                exact ⟨s.preg :: regs, rfl⟩
              · rw [if_neg hm, if_neg hm]
                exact ih _ (s.preg :: regs)
            · rw [if_neg hs, if_neg hs]
              exact ih _ (s.preg :: regs)

/-- **C69, C20.**  As long as no rollout throws, every run of an FDDP solver, new or used, is a run of the loop of C20: same flag,
trajectory, cost, infeasibilities, regularisation and counter. -/
theorem C20_C69_fddp_run_is_loop (o : LS) (ho : o.alphaMin + o.eps ≤ 1) (fuel : ℕ) (p : Params) (e : Env X G) (hT : Total e)
    (gaps : X → List Fl) (grads : X → ℝ → List Fl) (hC : Checks e gaps grads) (g : X) (s t : St X G)
    (h : run o fuel p e g s = .done t) :
    ∃ regs, FDDP.run p (toEnv o fuel p e gaps grads) g (.fin (e.cost g)) (.fin s.prim) (.fin s.dual) = .done (forget t regs) := by
  have := loop_link o ho fuel p e hT gaps grads hC p.maxIters
    { s with preg := p.regInit, x := g, trial := e.prime s.trial, conv := false, cost := e.cost g, iters := 0 } []
  unfold run at h
  rw [h] at this
  exact this

/-- **C20, used solvers.**  Whatever an FDDP solver was used for before, as long as no rollout throws: `true` means that the
returned trajectory passes the convergence test or that the last search saw a slope below the threshold, and
the limit on the iterations is respected. -/
theorem C20_fddp_used_solver_partial (o : LS) (ho : o.alphaMin + o.eps ≤ 1) (fuel : ℕ) (p : Params) (e : Env X G) (hT : Total e)
    (gaps : X → List Fl) (grads : X → ℝ → List Fl) (hC : Checks e gaps grads) (g : X) (s t : St X G)
    (h : run o fuel p e g s = .done t) :
    (t.conv = true → (maxNorm (gaps t.x) = .fin t.prim ∧ maxNorm (grads t.x t.preg) = .fin t.dual ∧ max t.prim t.dual < p.targetTol) ∨
      ∃ y phi0 a d1, search o p.thGrad phi0 (e.fwd y t.preg) fuel 1 phi0 e.fresh.2.1 0 = some (a, t.cost, t.x, d1) ∧
        |d1| < p.thGrad) ∧
    t.iters ≤ p.maxIters ∧ (t.iters = p.maxIters → t.conv = false) := by
  obtain ⟨regs, hr⟩ := C20_C69_fddp_run_is_loop o ho fuel p e hT gaps grads hC g s t h
  refine ⟨fun hc => ?_, ?_⟩
  · rcases FDDP.C20_true_reasons_partial p _ _ _ _ _ hr hc with ⟨a, b, h1, h2, h3, h4, h5⟩ | ⟨y, phi0, u, h1, h2, h3, h4⟩
    · left
      injection h1 with h1
      injection h2 with h2
      subst h1
      subst h2
      exact ⟨h3, h4, h5⟩
    · right
      obtain ⟨⟨a, c, x, d⟩, hs, hu⟩ := Option.map_eq_some_iff.1 h1
      subst hu
      injection h4 with h4
      have h3 : t.x = x := h3
      dsimp only at h2 h4
      refine ⟨y, phi0, a, d, ?_, h2⟩
      rw [h4, h3]
      exact hs
  · have := FDDP.C20_iteration_bound p (toEnv o fuel p e gaps grads) g (.fin (e.cost g)) (.fin s.prim) (.fin s.dual)
    rw [hr] at this
    exact ⟨this.1, this.2.2.2⟩

/-- Minimise `x²/2` by halving; no rollout throws. -/
noncomputable def halving : Env ℝ Unit where
  cost x := x ^ 2 / 2
  check x _ := some (0, |x|, ())
  fwd x _ a := .ok ⟨x - a * x / 2, (x - a * x / 2) ^ 2 / 2, -a * x ^ 2 / 4, -x ^ 2 / 2⟩
  prime t := t
  fresh := (0, 0, ())

/-- The conditions can be met. -/
example : Total halving ∧ Checks halving (fun _ => []) (fun x _ => [.fin |x|]) ∧ defLS.alphaMin + defLS.eps ≤ 1 := by
  refine ⟨fun _ _ _ => ⟨_, rfl⟩, fun x preg => ⟨fun a b g h => ?_, fun h => by cases h⟩, by
    show (1 / 512 : ℝ) + 1 / 2 ^ 52 ≤ 1; norm_num⟩
  obtain ⟨rfl, rfl⟩ : (0 : ℝ) = a ∧ |x| = b := by
    injection h with h
    simp only [Prod.mk.injEq] at h
    exact ⟨h.1, h.2.1⟩
  refine ⟨rfl, ?_⟩
  unfold maxNorm
  rw [List.foldl_cons, List.foldl_nil]
  unfold FDDP.stdMax
  split
  · rfl
  · rename_i hlt
    have : ¬ (0 : ℝ) < |x| := hlt
    rw [le_antisymm (not_lt.1 this) (abs_nonneg x)]

/-- A run that converges at the guess, on any solver. -/
example (s : St ℝ Unit) : ∃ t, run defLS 10 defPar halving 0 s = .done t ∧ t.conv = true := by
  unfold run
  show ∃ t, loop defLS 10 defPar halving 1 _ = _ ∧ _
  unfold loop
  have : halving.check 0 defPar.regInit = some (0, |0|, ()) := rfl
  dsimp only
  rw [this]
  dsimp only
  rw [if_pos (by show max (0 : ℝ) |0| < 1 / 1000000; norm_num)]
  exact ⟨_, rfl, rfl⟩

end Aligator.FReuse
