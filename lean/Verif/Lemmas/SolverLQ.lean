import Verif.Lemmas.Solver
import Verif.Props.ProxDDP

/-!
# Lemmas: runs of ProxDDP that take no step or one step
-/

namespace Aligator.ProxDDP

variable {X V W : Type}

/-- The state at which the linear system is solved first. -/
noncomputable def headSt (p : Params) (e : Env X V W) (s : St X V W) : St X V W :=
  (initializeRegularization p (computeCriterion e (computeMultipliers e s.x (s.push false)))).push true

theorem computeMultipliers_eq {e : Env X V W} {s : St X V W} {x : X} {w : W} {pr : ℝ} (h : e.mult s.mu s.prevV x = (w, some pr)) :
    computeMultipliers e x s = { s with ws := w, prim := pr } := by
  unfold computeMultipliers
  rw [h]

/-- What stays the same while no step is taken. -/
def Parked (x0 : X) (s : St X V W) : Prop := s.x = x0 ∧ s.numIters = 0

/-- A run that never moves, under assumptions at the first iterate only. -/
theorem run_stalls {p : Params} (hm : 0 < p.muLb) (hd : 0 ≤ p.targetDual) {e : Env X V W} (fuel : ℕ) (v0 : V) (s0 : St X V W)
    (hnan : ∀ mu v, 0 < mu → ∃ w pr, e.mult mu v s0.x = (w, some pr) ∧
      ¬ (e.dualInf s0.x ≤ p.targetDual ∧ pr ≤ p.targetTol))
    (hst : ∀ s, s.x = s0.x → 0 < s.mu → s.preg = max p.regInit p.regMin → 0.01 * p.targetDual ≤ s.innerTol →
      s.ws = (e.mult s.mu s.prevV s0.x).1 →
      e.innerCrit s0.x s.ws ≤ s.innerTol ∨ e.oracle s = .raises ∨ ∃ d l a, e.oracle s = .step d l a ∧ |d| ≤ p.dphiThresh) :
    (∃ s, run p e fuel v0 s0 = .raised s ∧ Parked s0.x s) ∨ (∃ s, run p e fuel v0 s0 = .stuck s ∧ Parked s0.x s) ∨
      ∃ s, run p e fuel v0 s0 = .done false s ∧ Parked s0.x s := by
  have key : ∀ n (s : St X V W), s.x = s0.x → s.numIters = 0 → s.pregLast = 0 → 0 < s.mu → 0.01 * p.targetDual ≤ s.innerTol →
      (∃ s', outer p e fuel n s = .raised s' ∧ Parked s0.x s') ∨ (∃ s', outer p e fuel n s = .stuck s' ∧ Parked s0.x s') ∨
      ∃ s', outer p e fuel n s = .done false s' ∧ Parked s0.x s' := by
    intro n
    induction n with
    | zero => intro s hx hn _ _ _; exact Or.inr (Or.inr ⟨s, rfl, hx, hn⟩)
    | succ n ih =>
      intro s hx hn hp hmu ht
      by_cases hi : s.numIters < p.maxIters
      · obtain ⟨w, pr, h1, h2⟩ := hnan s.mu s.prevV hmu
        have hcm : computeMultipliers e s.x (s.push false) = { s.push false with ws := w, prim := pr } :=
          computeMultipliers_eq (by rw [hx]; exact h1)
        obtain ⟨k, hk⟩ : ∃ k, p.maxIters = k + 1 := ⟨p.maxIters - 1, by omega⟩
        -- the inner loop
        have inner : (∃ s', innerLoop p e s = .raised s' ∧ Parked s0.x s') ∨
            ∃ s', innerLoop p e s = .done true s' ∧ Parked s0.x s' ∧ s'.pregLast = 0 ∧ 0 < s'.mu ∧
              ¬ (s'.dual ≤ p.targetDual ∧ s'.prim ≤ p.targetTol) := by
          have hil : innerLoop p e s = innerIter p e (k + 1) { s.push false with ws := w, prim := pr } := by
            unfold innerLoop
            dsimp only
            rw [hcm]
            show innerIter p e (p.maxIters - s.numIters) _ = _
            rw [hn, hk, Nat.sub_zero]
          rw [hil]
          unfold innerIter
          set s1 := computeCriterion e { s.push false with ws := w, prim := pr } with hs1
          have x1 : s1.x = s0.x := hx
          have d1 : ¬ (s1.dual ≤ p.targetDual ∧ s1.prim ≤ p.targetTol) := by
            show ¬ (e.dualInf s.x ≤ _ ∧ pr ≤ _)
            rw [hx]; exact h2
          dsimp only
          by_cases hc : s1.crit ≤ s1.innerTol
          · rw [if_pos (Or.inl hc)]
            exact Or.inr ⟨s1, rfl, ⟨hx, hn⟩, hp, hmu, d1⟩
          · rw [if_neg (not_or.2 ⟨hc, d1⟩)]
            have hreg : initializeRegularization p s1 = { s1 with preg := max p.regInit p.regMin } := by
              unfold initializeRegularization
              rw [if_pos (show s1.pregLast = 0 from hp)]
            rw [hreg]
            set s2 := ({ s1 with preg := max p.regInit p.regMin } : St X V W).push true with hs2
            rcases hst s2 hx hmu rfl ht (by show w = _; rw [show s2.mu = s.mu from rfl, show s2.prevV = s.prevV from rfl, h1]) with
              h | h | ⟨d, l, a, h, h'⟩
            · refine absurd ?_ hc
              show e.innerCrit s.x w ≤ s.innerTol
              rw [hx]; exact h
            · rw [h]
              exact Or.inl ⟨s2, rfl, hx, hn⟩
            · rw [h]
              dsimp only
              rw [if_pos h']
              exact Or.inr ⟨s2, rfl, ⟨hx, hn⟩, hp, hmu, d1⟩
        unfold outer
        rw [if_pos hi]
        rcases inner with ⟨s', h, hP⟩ | ⟨s', h, hP, hp', hmu', hd'⟩
        · rw [h]
          exact Or.inl ⟨s', rfl, hP⟩
        · rw [h]
          dsimp only
          by_cases hpr : s'.prim ≤ s'.primTol
          · rw [if_pos hpr]
            cases ht' : tighten p fuel s' with
            | none => exact Or.inr (Or.inl ⟨s', rfl, hP⟩)
            | some s'' =>
              obtain ⟨a, b, rfl⟩ := tighten_fields p fuel _ _ ht'
              dsimp only
              rw [if_neg hd']
              exact ih _ hP.1 hP.2 hp' hmu' (le_max_right _ _)
          · rw [if_neg hpr]
            refine ih _ ?_ ?_ ?_ ?_ (le_max_right _ _)
            · show (onFailure p s').x = _
              unfold onFailure; dsimp only; split <;> exact hP.1
            · show (onFailure p s').numIters = _
              unfold onFailure; dsimp only; split <;> exact hP.2
            · show (onFailure p s').pregLast = _
              unfold onFailure; dsimp only; split <;> exact hp'
            · show 0 < (onFailure p s').mu
              unfold onFailure; dsimp only
              split <;> exact hm.trans_le (le_max_right _ _)
      · unfold outer
        rw [if_neg hi]
        exact Or.inr (Or.inr ⟨s, rfl, hx, hn⟩)
  refine key p.maxAlIters (initRun p v0 s0) rfl rfl rfl (hm.trans_le (le_max_right _ _)) ?_
  refine le_trans ?_ (le_max_right _ _)
  linarith

/-- A run that converges after one step. -/
theorem run_one_step {p : Params} (hm : 0 < p.muLb) (hb : 0 < p.dualBeta) (hit : 2 ≤ p.maxIters) (hal : 0 < p.maxAlIters)
    {e : Env X V W} (v0 : V) (s0 : St X V W) {w : W} {pr : ℝ}
    (hw : e.mult (max p.muInit p.muLb) v0 s0.x = (w, some pr))
    (hgo : ¬ (e.innerCrit s0.x w ≤ (initRun p v0 s0).innerTol ∨ (e.dualInf s0.x ≤ p.targetDual ∧ pr ≤ p.targetTol)))
    {dphi a : ℝ} {l : List X} {x1 : X} (ho : e.oracle (headSt p e (initRun p v0 s0)) = .step dphi (l ++ [x1]) a)
    (hdphi : ¬ |dphi| ≤ p.dphiThresh) (ha : ¬ a ≤ p.alphaMin) {w1 : W} {pr1 : ℝ}
    (hw1 : e.mult (max p.muInit p.muLb) v0 x1 = (w1, some pr1)) (hpr1 : pr1 ≤ p.targetTol)
    (hd1 : e.dualInf x1 ≤ p.targetDual) (hc1 : 0 < e.innerCrit x1 w1) :
    ∃ F, ∀ fuel, F ≤ fuel → ∃ s, run p e fuel v0 s0 = .done true s ∧ s.x = x1 ∧ s.numIters = 1 ∧ s.prim = pr1 ∧
      s.dual = e.dualInf x1 := by
  obtain ⟨k, hk⟩ : ∃ k, p.maxIters = k + 2 := ⟨p.maxIters - 2, by omega⟩
  obtain ⟨m, hm'⟩ : ∃ m, p.maxAlIters = m + 1 := ⟨p.maxAlIters - 1, by omega⟩
  set s := initRun p v0 s0 with hs
  have hcm : computeMultipliers e s.x (s.push false) = { s.push false with ws := w, prim := pr } := computeMultipliers_eq hw
  set t := { s.push false with ws := w, prim := pr } with ht
  have hreg : initializeRegularization p (computeCriterion e t) =
      { computeCriterion e t with preg := max p.regInit p.regMin } := by
    unfold initializeRegularization
    rw [if_pos (show (computeCriterion e t).pregLast = 0 from rfl)]
  have hhd : headSt p e s = ({ computeCriterion e t with preg := max p.regInit p.regMin } : St X V W).push true := by
    unfold headSt
    rw [hcm, hreg]
  -- the trial points
  have fold : ∀ (l : List X) (q : St X V W), ∃ w' pr', l.foldl (forwardPass e) q =
      { q with ws := w', prim := pr', trial := (l.foldl (forwardPass e) q).trial } := by
    intro l
    induction l with
    | nil => intro q; exact ⟨q.ws, q.prim, rfl⟩
    | cons y l ih =>
      intro q
      obtain ⟨w', pr', h⟩ := ih (forwardPass e q y)
      have : ∃ w'' pr'', forwardPass e q y = { q with ws := w'', prim := pr'', trial := y } := by
        unfold forwardPass computeMultipliers
        split
        · exact ⟨_, _, rfl⟩
        · exact ⟨_, q.prim, rfl⟩
      obtain ⟨w'', pr'', h'⟩ := this
      refine ⟨w', pr', ?_⟩
      rw [List.foldl_cons, h, h']
  set q := headSt p e s with hq
  have hfin : (l ++ [x1]).foldl (forwardPass e) q = { q with ws := w1, prim := pr1, trial := x1 } := by
    rw [List.foldl_append]
    obtain ⟨w', pr', h⟩ := fold l q
    rw [h]
    show computeMultipliers e x1 _ = _
    rw [computeMultipliers_eq (w := w1) (pr := pr1) (by
      show e.mult q.mu q.prevV x1 = _
      rw [hhd]; exact hw1)]
  set s2 : St X V W := { q with
    ws := w1
    prim := pr1
    trial := x1
    x := x1
    pregLast := q.preg
    numIters := q.numIters + 1
    crit := e.innerCrit x1 w1
    dual := e.dualInf x1 } with hs2
  have hin : innerLoop p e s = .done true s2 := by
    unfold innerLoop
    dsimp only
    rw [hcm]
    show innerIter p e (p.maxIters - 0) t = _
    rw [Nat.sub_zero, hk]
    unfold innerIter
    dsimp only
    refine (if_neg hgo).trans ?_
    rw [hreg, ← hhd, ho]
    dsimp only
    rw [if_neg hdphi, if_neg ha, hfin]
    dsimp only
    unfold innerIter
    dsimp only
    exact if_pos (Or.inr ⟨hd1, hpr1⟩)
  have hmu2 : 0 < s2.mu := by
    show 0 < q.mu
    rw [hhd]
    exact hm.trans_le (le_max_right _ _)
  obtain ⟨F, s3, hF⟩ := tighten_terminates p hb s2 hmu2 hc1
  have hpt : s2.prim ≤ s2.primTol := by
    have : s2.primTol = s.primTol := by show q.primTol = _; rw [hhd]; rfl
    rw [this]
    exact hpr1.trans (le_max_right _ _)
  have hn : s2.numIters = 1 := by show q.numIters + 1 = 1; rw [hhd]; rfl
  obtain ⟨a', b', rfl⟩ := tighten_fields p F _ _ hF
  refine ⟨F, fun fuel hf => ?_⟩
  refine ⟨{ { s2 with primTol := a', innerTol := b' } with prevV := e.nextV s2.x s2.ws }, ?_, rfl, hn, rfl, rfl⟩
  unfold run
  rw [hm', outer, if_pos (show s.numIters < p.maxIters by rw [show s.numIters = 0 from rfl]; omega), hin]
  dsimp only
  rw [if_pos hpt, tighten_mono p F fuel hf _ _ hF]
  dsimp only
  rw [if_pos ⟨hd1, hpr1⟩]

end Aligator.ProxDDP
