import Verif.Spec.Reuse
import Verif.Props.ProxDDP

/-!
# C69 and C16: a run of the solver object is a run of the loops of C16

The loops with the solver's memory (`Verif.Model.Reuse`) forget to the loops of `Verif.Model.ProxDDP`, for some
environment of the latter: what the step acceptance does is recorded and replayed.  So everything proved there about
all environments holds for runs on used solvers.
-/

namespace Aligator.Reuse

open ProxDDP (Params Ev StepOutcome)

variable {X V W D G : Type}

/-- The state seen by the loops of C16. -/
def forget (s : St X V W G) (log : List Ev) : ProxDDP.St X V W :=
  ⟨s.x, s.trial, s.prevV, s.ws, s.mu, s.innerTol, s.primTol, s.preg, s.pregLast, s.prim, s.dual, s.crit, s.numIters, s.alIter, log⟩

/-- Number of linear solves in a history. -/
def solvesIn (log : List Ev) : ℕ := (log.filter (·.lq)).length

/-- The environment that replays recorded outcomes. -/
def replay (e : Env X V W D G) (outs : List (StepOutcome X)) : ProxDDP.Env X V W where
  mult mu v x := match e.mult mu v x with
    | none => (e.fresh.2.2.2.1, none)
    | some (w, pr) => (w, some pr)
  dualInf := e.dualInf
  innerCrit := e.innerCrit
  nextV := e.nextV
  oracle s := outs.getD (solvesIn s.log - 1) .raises

/-- The two ways of ending agree; nothing is said if the line search does not end. -/
def Agree (log : List Ev) : Out X V W G → ProxDDP.Out X V W → Prop
  | .raised _, o => ∃ t, o = .raised t
  | .stuck _, _ => True
  | .done b s, o => o = .done b (forget s log)

/-- Trial point of a step length. -/
def pt (e : Env X V W D G) (x : X) (d : D) (a : ℝ) : X :=
  match e.point x d a with
  | .ok t => t
  | .error _ => x

theorem forget_forwardPass {e : Env X V W D G} (hT : Total e) (outs : List (StepOutcome X)) (d : D) (s : St X V W G) (a : ℝ) (log : List Ev) :
    forget (forwardPass e d s a) log = ProxDDP.forwardPass (replay e outs) (forget s log) (pt e s.x d a) ∧
      (forwardPass e d s a).x = s.x := by
  obtain ⟨t, ht⟩ := hT.point s.x d a
  obtain ⟨⟨w, pr⟩, hr⟩ := hT.mult s.mu s.prevV t
  have h1 : forwardPass e d s a = { s with trial := t, ws := w, prim := pr } := by
    unfold forwardPass
    rw [ht]
    dsimp only
    rw [hr]
  have h2 : pt e s.x d a = t := by
    unfold pt
    rw [ht]
  have h3 : (replay e outs).mult (forget s log).mu (forget s log).prevV t = (w, some pr) := by
    show (match e.mult s.mu s.prevV t with | none => _ | some (w, pr) => (w, some pr)) = _
    rw [hr]
  rw [h1, h2]
  refine ⟨?_, rfl⟩
  unfold ProxDDP.forwardPass ProxDDP.computeMultipliers
  dsimp only
  have h4 : ({ forget s log with trial := t } : ProxDDP.St X V W).mu = (forget s log).mu := rfl
  have h5 : ({ forget s log with trial := t } : ProxDDP.St X V W).prevV = (forget s log).prevV := rfl
  rw [h3]
  rfl

theorem forget_fold {e : Env X V W D G} (hT : Total e) (outs : List (StepOutcome X)) (d : D) (l : List ℝ) (s : St X V W G) (log : List Ev) :
    forget (l.foldl (forwardPass e d) s) log =
      (l.map (pt e s.x d)).foldl (ProxDDP.forwardPass (replay e outs)) (forget s log) := by
  induction l generalizing s with
  | nil => rfl
  | cons a l ih =>
    obtain ⟨h1, h2⟩ := forget_forwardPass hT outs d s a log
    rw [List.foldl_cons, ih, h2, h1]
    rfl

theorem forget_reg (p : Params) (s : St X V W G) (log : List Ev) :
    ProxDDP.initializeRegularization p (forget s log) = forget (initializeRegularization p s) log := by
  unfold ProxDDP.initializeRegularization initializeRegularization
  by_cases h : s.pregLast = 0
  · rw [if_pos (by exact h), if_pos h]
    rfl
  · rw [if_neg (by exact h), if_neg h]
    rfl

theorem forget_inc (p : Params) (s : St X V W G) (log : List Ev) :
    ProxDDP.increaseRegularization p (forget s log) = forget (increaseRegularization p s) log := by
  unfold ProxDDP.increaseRegularization increaseRegularization
  by_cases h : s.pregLast = 0
  · rw [if_pos (by exact h), if_pos h]
    rfl
  · rw [if_neg (by exact h), if_neg h]
    rfl

theorem armijoFirst_calls (o : Linesearch.Options) (phi : ℝ → Option Linesearch.Fl) (n : ℕ) (s s' : Linesearch.ASt)
    (h : Linesearch.armijoFirst o phi n s = some s') : s'.calls ≠ [] := by
  induction n generalizing s with
  | zero => cases h
  | succ n ih =>
    unfold Linesearch.armijoFirst at h
    dsimp only at h
    split at h
    · injection h with h
      subst h
      exact List.cons_ne_nil _ _
    · split at h
      · injection h with h
        subst h
        exact List.cons_ne_nil _ _
      · exact ih _ h

theorem armijoLoop_calls (o : Linesearch.Options) (qr : Linesearch.Solve2) (phi : ℝ → Option Linesearch.Fl) (phi0 dphi0 : ℝ) (n : ℕ)
    (s : Linesearch.ASt) (h : s.calls ≠ []) : (Linesearch.armijoLoop o qr phi phi0 dphi0 n s).calls ≠ [] := by
  induction n generalizing s with
  | zero => exact h
  | succ n ih =>
    unfold Linesearch.armijoLoop
    split
    · exact h
    · dsimp only
      split
      · exact ih _ (List.cons_ne_nil _ _)
      · split
        · exact List.cons_ne_nil _ _
        · exact ih _ (List.cons_ne_nil _ _)

/-- A search that returns a step has evaluated a trial point. -/
theorem search_calls {qr : Linesearch.Solve2} {fuel : ℕ} {sa : Strategy} {e : Env X V W D G} {s : St X V W G} {d : D} {dphi0 : ℝ}
    {r : Search} (h : search qr fuel sa e s d dphi0 = some r) {a phi : ℝ} (hr : r.ret = .ok a phi) : r.calls ≠ [] := by
  have hls : ∀ {r : Search}, (match s.ls with
    | .unset => some ⟨[], .nan, s.ls, s.filter⟩
    | .armijo o =>
      match Linesearch.armijoRun o qr fuel (fun a => (e.pair s d a).map fun q => .fin q.1) s.merit dphi0 with
      | none => none
      | some (a, v, calls) =>
        some ⟨calls.reverse, match v with | .fin r => .ok a r | _ => .nan, s.ls, s.filter⟩
    | .nonmonotone o st =>
      match nmCalls o (st.update (17 / 20) s.merit).movAvg (fun a => (e.pair s d a).map Prod.fst) dphi0 fuel 1 with
      | none => none
      | some (c, r) => some ⟨c, r, .nonmonotone o (st.update (17 / 20) s.merit), s.filter⟩ : Option Search) = some r →
      r.ret = .ok a phi → r.calls ≠ [] := by
    intro r h hr
    split at h
    · injection h with h
      subst h
      cases hr
    · split at h
      · cases h
      · rename_i calls hA
        injection h with h
        subst h
        dsimp only
        rw [Ne, List.reverse_eq_nil_iff]
        unfold Linesearch.armijoRun at hA
        split at hA
        · cases hA
        · rename_i s' hF
          have hF := armijoFirst_calls _ _ _ _ _ hF
          split at hA
          · injection hA with hA
            simp only [Prod.mk.injEq] at hA
            rw [← hA.2.2]
            exact hF
          · injection hA with hA
            simp only [Prod.mk.injEq] at hA
            rw [← hA.2.2]
            exact armijoLoop_calls _ _ _ _ _ _ _ hF
    · split at h
      · cases h
      · rename_i c q hN
        injection h with h
        subst h
        dsimp only
        cases fuel with
        | zero => cases hN
        | succ n =>
          unfold nmCalls at hN
          split at hN
          · split at hN
            · split at hN
              · injection hN with hN
                simp only [Prod.mk.injEq] at hN
                rw [← hN.1]
                exact List.cons_ne_nil _ _
              · obtain ⟨q', _, hq⟩ := Option.map_eq_some_iff.1 hN
                simp only [Prod.mk.injEq] at hq
                rw [← hq.1]
                exact List.cons_ne_nil _ _
            · obtain ⟨q', _, hq⟩ := Option.map_eq_some_iff.1 hN
              simp only [Prod.mk.injEq] at hq
              rw [← hq.1]
              exact List.cons_ne_nil _ _
          · split at hN
            · injection hN with hN
              simp only [Prod.mk.injEq] at hN
              rw [← hN.1]
              exact List.cons_ne_nil _ _
            · injection hN with hN
              simp only [Prod.mk.injEq] at hN
              rw [← hN.1]
              exact List.cons_ne_nil _ _
  cases sa with
  | armijo => exact hls h hr
  | nonmonotone => exact hls h hr
  | filter =>
    unfold search at h
    dsimp only at h
    split at h
    · cases h
    · rename_i c b q hF
      injection h with h
      subst h
      dsimp only
      cases fuel with
      | zero => cases hF
      | succ n =>
        have : c ≠ [] := by
          unfold filterFirst at hF
          split at hF
          · injection hF with hF
            simp only [Prod.mk.injEq] at hF
            rw [← hF.1]
            exact List.cons_ne_nil _ _
          · split at hF
            · injection hF with hF
              simp only [Prod.mk.injEq] at hF
              rw [← hF.1]
              exact List.cons_ne_nil _ _
            · obtain ⟨q', _, hq⟩ := Option.map_eq_some_iff.1 hF
              simp only [Prod.mk.injEq] at hq
              rw [← hq.1]
              exact List.cons_ne_nil _ _
        exact List.append_ne_nil_of_left_ne_nil this _

/-- Recorded outcomes with at least one trial point. -/
def Moves (outs : List (StepOutcome X)) : Prop := ∀ o ∈ outs, ∀ d a, o ≠ .step d [] a

theorem Moves.nil : Moves ([] : List (StepOutcome X)) := fun o ho => absurd ho (List.not_mem_nil)

theorem Moves.raises : Moves ([.raises] : List (StepOutcome X)) := fun o ho d a => by
  rw [List.mem_singleton] at ho
  subst ho
  exact fun h => by cases h

theorem Moves.step {d a : ℝ} {l : List X} (hl : l ≠ []) {outs : List (StepOutcome X)} (h : Moves outs) :
    Moves (.step d l a :: outs) := fun o ho d a => by
  rcases List.mem_cons.1 ho with rfl | ho
  · intro h
    injection h with _ h _
    exact hl h
  · exact h o ho d a

theorem Moves.append {l m : List (StepOutcome X)} (h : Moves l) (h' : Moves m) : Moves (l ++ m) := fun o ho =>
  (List.mem_append.1 ho).elim (h o) (h' o)

theorem innerIter_link (qr : Linesearch.Solve2) (fuel : ℕ) (sa : Strategy) (p : Params) {e : Env X V W D G} (hT : Total e) (n : ℕ)
    (s : St X V W G) : ∃ outs : List (StepOutcome X), Moves outs ∧ ∀ (pre post : List (StepOutcome X)) (log : List Ev), solvesIn log = pre.length →
      ∃ log', solvesIn log' = pre.length + outs.length ∧
        Agree log' (innerIter qr fuel sa p e n s) (ProxDDP.innerIter p (replay e (pre ++ outs ++ post)) n (forget s log)) := by
  induction n generalizing s with
  | zero => exact ⟨[], .nil, fun pre post log h => ⟨log, h, rfl⟩⟩
  | succ n ih =>
    unfold innerIter
    dsimp only
    by_cases hc : e.innerCrit s.x s.ws ≤ s.innerTol ∨ (e.dualInf s.x ≤ p.targetDual ∧ s.prim ≤ p.targetTol)
    · rw [if_pos hc]
      refine ⟨[], .nil, fun pre post log h => ⟨log, h, ?_⟩⟩
      unfold ProxDDP.innerIter
      dsimp only
      rw [if_pos (by exact hc)]
      rfl
    · rw [if_neg hc]
      -- the C16 loop up to the linear solve
      have head : ∀ (E : ProxDDP.Env X V W) (_ : E.innerCrit = e.innerCrit) (_ : E.dualInf = e.dualInf) (log : List Ev),
          ProxDDP.innerIter p E (n + 1) (forget s log) =
            (match E.oracle ((forget (initializeRegularization p { s with crit := e.innerCrit s.x s.ws, dual := e.dualInf s.x }) log).push true) with
            | .raises => .raised ((forget (initializeRegularization p { s with crit := e.innerCrit s.x s.ws, dual := e.dualInf s.x }) log).push true)
            | .step dphi0 trials alpha =>
              if |dphi0| ≤ p.dphiThresh then
                .done true ((forget (initializeRegularization p { s with crit := e.innerCrit s.x s.ws, dual := e.dualInf s.x }) log).push true)
              else
                let s := trials.foldl (ProxDDP.forwardPass E)
                  ((forget (initializeRegularization p { s with crit := e.innerCrit s.x s.ws, dual := e.dualInf s.x }) log).push true)
                let s := { s with x := s.trial }
                if alpha ≤ p.alphaMin then
                  if p.regMax ≤ s.preg then .done false s
                  else
                    let s := ProxDDP.increaseRegularization p s
                    ProxDDP.innerIter p E n { s with pregLast := s.preg, numIters := s.numIters + 1 }
                else ProxDDP.innerIter p E n { s with pregLast := s.preg, numIters := s.numIters + 1 }) := by
        intro E h1 h2 log
        conv_lhs => unfold ProxDDP.innerIter
        have hcc : ProxDDP.computeCriterion E (forget s log) = forget { s with crit := e.innerCrit s.x s.ws, dual := e.dualInf s.x } log := by
          unfold ProxDDP.computeCriterion
          rw [h1, h2]
          rfl
        rw [hcc]
        dsimp only
        rw [if_neg (by exact hc), forget_reg]
        rfl
      generalize hs1 : initializeRegularization p { s with crit := e.innerCrit s.x s.ws, dual := e.dualInf s.x } = s1
      rw [hs1] at head
      -- the log after the linear solve
      have hpush : ∀ log, ∃ ev : Ev, ev.lq = true ∧ (forget s1 log).push true = forget s1 (ev :: log) := fun log => ⟨_, rfl, rfl⟩
      have hidx : ∀ (pre outs post : List (StepOutcome X)) (o : StepOutcome X) (ev : Ev) (log : List Ev), ev.lq = true →
          solvesIn log = pre.length → (replay e (pre ++ o :: outs ++ post)).oracle (forget s1 (ev :: log)) = o := by
        intro pre outs post o ev log hev hl
        show (pre ++ o :: outs ++ post).getD (solvesIn (ev :: log) - 1) .raises = o
        have : solvesIn (ev :: log) - 1 = pre.length := by
          unfold solvesIn at hl ⊢
          rw [List.filter_cons_of_pos hev, List.length_cons, hl]
          rfl
        rw [this]
        simp [List.getD_eq_getElem?_getD]
      have hcnt : ∀ (ev : Ev) (log : List Ev), ev.lq = true → solvesIn (ev :: log) = solvesIn log + 1 := by
        intro ev log hev
        unfold solvesIn
        rw [List.filter_cons_of_pos hev, List.length_cons]
      cases hl : e.lin s1.x s1.ws s1.mu s1.preg with
      | none =>
        refine ⟨[.raises], .raises, fun pre post log h => ?_⟩
        obtain ⟨ev, hev, hp⟩ := hpush log
        refine ⟨ev :: log, by rw [hcnt _ _ hev, h]; rfl, ?_⟩
        rw [head _ rfl rfl, hp, hidx pre [] post .raises ev log hev h]
        exact ⟨_, rfl⟩
      | some r =>
        obtain ⟨d, g, dphi0⟩ := r
        dsimp only
        by_cases hd : |dphi0| ≤ p.dphiThresh
        · rw [if_pos hd]
          refine ⟨[.step dphi0 [s1.x] 0], .step (List.cons_ne_nil _ _) .nil, fun pre post log h => ?_⟩
          obtain ⟨ev, hev, hp⟩ := hpush log
          refine ⟨ev :: log, by rw [hcnt _ _ hev, h]; rfl, ?_⟩
          rw [head _ rfl rfl, hp, hidx pre [] post _ ev log hev h]
          dsimp only
          rw [if_pos hd]
          rfl
        · rw [if_neg hd]
          cases hse : search qr fuel sa e { s1 with gains := g, solves := s1.solves + 1 } d dphi0 with
          | none => exact ⟨[], .nil, fun pre post log h => ⟨log, h, trivial⟩⟩
          | some r =>
            dsimp only
            cases hret : r.ret with
            | throws =>
              refine ⟨[.raises], .raises, fun pre post log h => ?_⟩
              obtain ⟨ev, hev, hp⟩ := hpush log
              refine ⟨ev :: log, by rw [hcnt _ _ hev, h]; rfl, ?_⟩
              rw [head _ rfl rfl, hp, hidx pre [] post .raises ev log hev h]
              exact ⟨_, rfl⟩
            | nan =>
              refine ⟨[.raises], .raises, fun pre post log h => ?_⟩
              obtain ⟨ev, hev, hp⟩ := hpush log
              refine ⟨ev :: log, by rw [hcnt _ _ hev, h]; rfl, ?_⟩
              rw [head _ rfl rfl, hp, hidx pre [] post .raises ev log hev h]
              exact ⟨_, rfl⟩
            | ok a phi =>
              dsimp only
              have hne : r.calls.map (pt e s1.x d) ≠ [] := fun h => search_calls hse hret (List.map_eq_nil_iff.1 h)
              generalize hs2 : r.calls.foldl (forwardPass e d) { s1 with gains := g, solves := s1.solves + 1 } = s2
              have hfold : ∀ (outs : List (StepOutcome X)) (log : List Ev),
                  (r.calls.map (pt e s1.x d)).foldl (ProxDDP.forwardPass (replay e outs)) (forget s1 log) = forget s2 log := by
                intro outs log
                rw [← hs2, forget_fold hT outs]
                rfl
              by_cases ha : a ≤ p.alphaMin
              · rw [if_pos ha]
                by_cases hr : p.regMax ≤ s2.preg
                · rw [if_pos hr]
                  refine ⟨[.step dphi0 (r.calls.map (pt e s1.x d)) a], .step hne .nil, fun pre post log h => ?_⟩
                  obtain ⟨ev, hev, hp⟩ := hpush log
                  refine ⟨ev :: log, by rw [hcnt _ _ hev, h]; rfl, ?_⟩
                  rw [head _ rfl rfl, hp, hidx pre [] post _ ev log hev h]
                  dsimp only
                  rw [if_neg hd, hfold, if_pos ha, if_pos (by exact hr)]
                  rfl
                · rw [if_neg hr]
                  obtain ⟨outs, hm, ho⟩ := ih (let t := increaseRegularization p { s2 with
                      ls := r.ls, filter := r.filter, x := s2.trial, merit := phi, alphas := s2.alphas ++ [a] };
                    { t with pregLast := t.preg, numIters := t.numIters + 1 })
                  refine ⟨.step dphi0 (r.calls.map (pt e s1.x d)) a :: outs, .step hne hm, fun pre post log h => ?_⟩
                  obtain ⟨ev, hev, hp⟩ := hpush log
                  obtain ⟨log', hl', hA⟩ := ho (pre ++ [.step dphi0 (r.calls.map (pt e s1.x d)) a]) post (ev :: log) (by
                    rw [hcnt _ _ hev, h, List.length_append]
                    rfl)
                  refine ⟨log', by rw [hl', List.length_append, List.length_cons, List.length_cons, List.length_nil]; omega, ?_⟩
                  have hlist : pre ++ [StepOutcome.step dphi0 (r.calls.map (pt e s1.x d)) a] ++ outs ++ post =
                      pre ++ StepOutcome.step dphi0 (r.calls.map (pt e s1.x d)) a :: outs ++ post := by simp
                  rw [hlist] at hA
                  rw [head _ rfl rfl, hp, hidx pre outs post _ ev log hev h]
                  dsimp only
                  rw [if_neg hd, hfold, if_pos ha, if_neg (by exact hr)]
                  have hinc : ProxDDP.increaseRegularization p { forget s2 (ev :: log) with x := (forget s2 (ev :: log)).trial } =
                      forget (increaseRegularization p
                        { s2 with ls := r.ls, filter := r.filter, x := s2.trial, merit := phi, alphas := s2.alphas ++ [a] }) (ev :: log) :=
                    forget_inc p { s2 with ls := r.ls, filter := r.filter, x := s2.trial, merit := phi, alphas := s2.alphas ++ [a] } (ev :: log)
                  rw [hinc]
                  exact hA
              · rw [if_neg ha]
                obtain ⟨outs, hm, ho⟩ := ih { s2 with
                  ls := r.ls, filter := r.filter, x := s2.trial, merit := phi, alphas := s2.alphas ++ [a]
                  pregLast := s2.preg, numIters := s2.numIters + 1 }
                refine ⟨.step dphi0 (r.calls.map (pt e s1.x d)) a :: outs, .step hne hm, fun pre post log h => ?_⟩
                obtain ⟨ev, hev, hp⟩ := hpush log
                obtain ⟨log', hl', hA⟩ := ho (pre ++ [.step dphi0 (r.calls.map (pt e s1.x d)) a]) post (ev :: log) (by
                  rw [hcnt _ _ hev, h, List.length_append]
                  rfl)
                refine ⟨log', by rw [hl', List.length_append, List.length_cons, List.length_cons, List.length_nil]; omega, ?_⟩
                have hlist : pre ++ [StepOutcome.step dphi0 (r.calls.map (pt e s1.x d)) a] ++ outs ++ post =
                    pre ++ StepOutcome.step dphi0 (r.calls.map (pt e s1.x d)) a :: outs ++ post := by simp
                rw [hlist] at hA
                rw [head _ rfl rfl, hp, hidx pre outs post _ ev log hev h]
                dsimp only
                rw [if_neg hd, hfold, if_neg ha]
                exact hA

theorem evaluateIterate_link {e : Env X V W D G} (hT : Total e) (outs : List (StepOutcome X)) (s : St X V W G) (log : List Ev) :
    ∃ log', solvesIn log' = solvesIn log ∧
      ProxDDP.computeMultipliers (replay e outs) (forget s log).x ((forget s log).push false) = forget (evaluateIterate e s) log' := by
  obtain ⟨⟨w, pr⟩, hr⟩ := hT.mult s.mu s.prevV s.x
  refine ⟨⟨s.mu, s.innerTol, s.primTol, s.preg, false⟩ :: log, rfl, ?_⟩
  have h3 : (replay e outs).mult s.mu s.prevV s.x = (w, some pr) := by
    show (match e.mult s.mu s.prevV s.x with | none => _ | some (w, pr) => (w, some pr)) = _
    rw [hr]
  have h1 : evaluateIterate e s = { s with ws := w, prim := pr, merit := e.merit s.mu s.x w } := by
    unfold evaluateIterate
    rw [hr]
  rw [h1]
  unfold ProxDDP.computeMultipliers
  show (match (replay e outs).mult s.mu s.prevV s.x with | (w, some pr) => _ | (w, none) => _) = _
  rw [h3]
  rfl

theorem innerLoop_link (qr : Linesearch.Solve2) (fuel : ℕ) (sa : Strategy) (p : Params) {e : Env X V W D G} (hT : Total e)
    (s : St X V W G) : ∃ outs : List (StepOutcome X), Moves outs ∧ ∀ (pre post : List (StepOutcome X)) (log : List Ev), solvesIn log = pre.length →
      ∃ log', solvesIn log' = pre.length + outs.length ∧
        Agree log' (innerLoop qr fuel sa p e s) (ProxDDP.innerLoop p (replay e (pre ++ outs ++ post)) (forget s log)) := by
  obtain ⟨outs, hm, ho⟩ := innerIter_link qr fuel sa p hT (p.maxIters - s.numIters) (evaluateIterate e s)
  refine ⟨outs, hm, fun pre post log h => ?_⟩
  obtain ⟨log1, h1, h2⟩ := evaluateIterate_link hT (pre ++ outs ++ post) s log
  obtain ⟨log', h3, h4⟩ := ho pre post log1 (h1.trans h)
  refine ⟨log', h3, ?_⟩
  unfold ProxDDP.innerLoop
  dsimp only
  rw [h2]
  have hn : (forget (evaluateIterate e s) log1).numIters = s.numIters := by
    obtain ⟨⟨w, pr⟩, hr⟩ := hT.mult s.mu s.prevV s.x
    unfold evaluateIterate
    rw [hr]
    rfl
  rw [hn]
  exact h4

theorem tighten_link (p : Params) (n : ℕ) (s : St X V W G) (log : List Ev) :
    ProxDDP.tighten p n (forget s log) = (tighten p n s).map fun t => forget t log := by
  induction n generalizing s with
  | zero => rfl
  | succ n ih =>
    unfold ProxDDP.tighten tighten
    dsimp only
    by_cases h : (updateTolsOnSuccess p s).crit < (updateTolsOnSuccess p s).innerTol
    · rw [if_pos (by exact h), if_pos h]
      exact ih (updateTolsOnSuccess p s)
    · rw [if_neg (by exact h), if_neg h]
      rfl

theorem onFailure_link (p : Params) (s : St X V W G) (log : List Ev) :
    ProxDDP.onFailure p (forget s log) = forget (onFailure p s) log := by
  unfold ProxDDP.onFailure onFailure
  dsimp only
  by_cases h : ProxDDP.scalarClose p.closeEps (updateTolsOnFailure p (setAlmPenalty p (s.mu * p.muFactor) s)).mu p.muLb = true
  · rw [if_pos (by exact h), if_pos h]
    rfl
  · rw [if_neg (by exact h), if_neg h]
    rfl

theorem outer_link (qr : Linesearch.Solve2) (fuel : ℕ) (sa : Strategy) (p : Params) {e : Env X V W D G} (hT : Total e) (n : ℕ)
    (s : St X V W G) : ∃ outs : List (StepOutcome X), Moves outs ∧ ∀ (pre post : List (StepOutcome X)) (log : List Ev), solvesIn log = pre.length →
      ∃ log', Agree log' (outer qr fuel sa p e n s) (ProxDDP.outer p (replay e (pre ++ outs ++ post)) fuel n (forget s log)) := by
  induction n generalizing s with
  | zero => exact ⟨[], .nil, fun pre post log h => ⟨log, rfl⟩⟩
  | succ n ih =>
    unfold outer
    by_cases hn : s.numIters < p.maxIters
    · rw [if_pos hn]
      obtain ⟨outs, hm, ho⟩ := innerLoop_link qr fuel sa p hT s
      have hin : ∀ E log, ProxDDP.outer p E fuel (n + 1) (forget s log) =
          (match ProxDDP.innerLoop p E (forget s log) with
          | .raised s => .raised s
          | .stuck s => .stuck s
          | .done false s => .done false { s with alIter := s.alIter + 1 }
          | .done true s =>
            if s.prim ≤ s.primTol then
              match ProxDDP.tighten p fuel s with
              | none => .stuck s
              | some s =>
                let s := { s with prevV := E.nextV s.x s.ws }
                if s.dual ≤ p.targetDual ∧ s.prim ≤ p.targetTol then .done true s
                else ProxDDP.outer p E fuel n (ProxDDP.clamp p s)
            else ProxDDP.outer p E fuel n (ProxDDP.clamp p (ProxDDP.onFailure p s))) := by
        intro E log
        conv_lhs => unfold ProxDDP.outer
        rw [if_pos (by exact hn)]
        rfl
      cases hI : innerLoop qr fuel sa p e s with
      | raised t =>
        refine ⟨outs, hm, fun pre post log h => ?_⟩
        obtain ⟨log', _, hA⟩ := ho pre post log h
        rw [hI] at hA
        obtain ⟨t', ht'⟩ := hA
        exact ⟨log', t', by rw [hin, ht']⟩
      | stuck t => exact ⟨[], .nil, fun pre post log h => ⟨log, trivial⟩⟩
      | done b t =>
        cases b with
        | false =>
          refine ⟨outs, hm, fun pre post log h => ?_⟩
          obtain ⟨log', _, hA⟩ := ho pre post log h
          rw [hI] at hA
          refine ⟨log', ?_⟩
          rw [hin, show ProxDDP.innerLoop p _ (forget s log) = _ from hA]
          rfl
        | true =>
          dsimp only
          by_cases hp : t.prim ≤ t.primTol
          · rw [if_pos hp]
            cases ht : tighten p fuel { t with ls := t.ls.reset } with
            | none => exact ⟨[], .nil, fun pre post log h => ⟨log, trivial⟩⟩
            | some u =>
              dsimp only
              have htl : ∀ log, ProxDDP.tighten p fuel (forget t log) = some (forget u log) := by
                intro log
                have := tighten_link p fuel { t with ls := t.ls.reset } log
                rw [ht] at this
                exact this
              by_cases hd : u.dual ≤ p.targetDual ∧ u.prim ≤ p.targetTol
              · rw [if_pos hd]
                refine ⟨outs, hm, fun pre post log h => ?_⟩
                obtain ⟨log', _, hA⟩ := ho pre post log h
                rw [hI] at hA
                refine ⟨log', ?_⟩
                rw [hin, show ProxDDP.innerLoop p _ (forget s log) = _ from hA]
                dsimp only
                rw [if_pos (by exact hp), htl]
                dsimp only
                rw [if_pos (by exact hd)]
                rfl
              · rw [if_neg hd]
                obtain ⟨outs2, hm2, ho2⟩ := ih (clamp p { u with prevV := e.nextV u.x u.ws })
                refine ⟨outs ++ outs2, hm.append hm2, fun pre post log h => ?_⟩
                obtain ⟨log', hl', hA⟩ := ho pre (outs2 ++ post) log h
                obtain ⟨log2, hA2⟩ := ho2 (pre ++ outs) post log' (by rw [hl', List.length_append])
                rw [hI] at hA
                refine ⟨log2, ?_⟩
                have hlist : pre ++ (outs ++ outs2) ++ post = pre ++ outs ++ (outs2 ++ post) := by simp
                have hlist2 : pre ++ outs ++ outs2 ++ post = pre ++ outs ++ (outs2 ++ post) := by simp
                rw [hlist2] at hA2
                rw [hlist, hin, show ProxDDP.innerLoop p _ (forget s log) = _ from hA]
                dsimp only
                rw [if_pos (by exact hp), htl]
                dsimp only
                rw [if_neg (by exact hd)]
                exact hA2
          · rw [if_neg hp]
            obtain ⟨outs2, hm2, ho2⟩ := ih (clamp p (onFailure p { t with ls := t.ls.reset }))
            refine ⟨outs ++ outs2, hm.append hm2, fun pre post log h => ?_⟩
            obtain ⟨log', hl', hA⟩ := ho pre (outs2 ++ post) log h
            obtain ⟨log2, hA2⟩ := ho2 (pre ++ outs) post log' (by rw [hl', List.length_append])
            rw [hI] at hA
            refine ⟨log2, ?_⟩
            have hlist : pre ++ (outs ++ outs2) ++ post = pre ++ outs ++ (outs2 ++ post) := by simp
            have hlist2 : pre ++ outs ++ outs2 ++ post = pre ++ outs ++ (outs2 ++ post) := by simp
            rw [hlist2] at hA2
            rw [hlist, hin, show ProxDDP.innerLoop p _ (forget s log) = _ from hA]
            dsimp only
            rw [if_neg (by exact hp)]
            have := onFailure_link p { t with ls := t.ls.reset } log'
            rw [show ProxDDP.onFailure p (forget t log') = _ from this]
            exact hA2
    · rw [if_neg hn]
      refine ⟨[], .nil, fun pre post log h => ⟨log, ?_⟩⟩
      unfold ProxDDP.outer
      rw [if_neg (by exact hn)]
      rfl

/-- **C69, C16.**  For a problem whose functions neither throw nor produce NaN, every run of a solver in any state is, up to the
solver's memory, a run of the loops of C16 in some environment (one that replays the searches): same flag, same iterate,
same penalty, tolerances, infeasibilities and counters. -/
theorem C16_C69_run_is_loop (qr : Linesearch.Solve2) (fuel : ℕ) (sa : Strategy) (p : Params) (e : Env X V W D G) (hT : Total e) (g : X)
    (s : St X V W G) (b : Bool) (t : St X V W G) (h : run qr fuel sa p e g s = .done b t) :
    ∃ (E : ProxDDP.Env X V W) (log : List Ev), E.innerCrit = e.innerCrit ∧ E.dualInf = e.dualInf ∧ E.nextV = e.nextV ∧
      (∀ mu v x w r, E.mult mu v x = (w, some r) ↔ e.mult mu v x = some (w, r)) ∧ E.Regular ∧
      ProxDDP.run p E fuel (e.vs g) (forget { s with x := g, trial := e.prime s.trial } []) = .done b (forget t log) := by
  obtain ⟨outs, hm, ho⟩ := outer_link qr fuel sa p hT p.maxAlIters (initRun p e g s)
  obtain ⟨log', hA⟩ := ho [] [] [] rfl
  unfold run at h
  rw [h] at hA
  refine ⟨_, log', rfl, rfl, rfl, ?_, ⟨?_, ?_⟩, hA⟩
  · intro mu v x w r
    obtain ⟨q, hq⟩ := hT.mult mu v x
    show (match e.mult mu v x with | none => (e.fresh.2.2.2.1, none) | some (w, pr) => (w, some pr)) = _ ↔ _
    rw [hq]
    dsimp only
    rw [Option.some.injEq, Prod.ext_iff, Prod.ext_iff, Option.some.injEq]
  · intro mu v x
    obtain ⟨q, hq⟩ := hT.mult mu v x
    show (match e.mult mu v x with | none => (e.fresh.2.2.2.1, none) | some (w, pr) => (w, some pr)).2.isSome
    rw [hq]
    rfl
  · intro s d a
    show ([] ++ outs ++ []).getD (solvesIn s.log - 1) .raises ≠ _
    rw [List.nil_append, List.append_nil, List.getD_eq_getElem?_getD]
    cases hg : outs[solvesIn s.log - 1]? with
    | none => exact fun h => by cases h
    | some o => exact hm o (List.mem_of_getElem? hg) d a

/-- **C16, used solvers.**  Whatever a solver was used for before: if `run` returns true, the trajectory returned meets the
tolerances (`viol`: a violation that `computeMultipliers` never underestimates); in any case the limits on the iterations are
respected. -/
theorem C16_used_solver_partial (qr : Linesearch.Solve2) (fuel : ℕ) (sa : Strategy) (p : Params) (e : Env X V W D G) (hT : Total e) (g : X)
    (viol : X → ℝ) (hv : ∀ mu v x w r, e.mult mu v x = some (w, r) → viol x ≤ r) (s : St X V W G) (b : Bool) (t : St X V W G)
    (h : run qr fuel sa p e g s = .done b t) :
    (b = true → viol t.x ≤ p.targetTol ∧ e.dualInf t.x ≤ p.targetDual) ∧ t.numIters ≤ p.maxIters ∧ t.alIter ≤ p.maxAlIters := by
  obtain ⟨E, log, _, h2, _, h4, h5, h6⟩ := C16_C69_run_is_loop qr fuel sa p e hT g s b t h
  constructor
  · intro hb
    subst hb
    have := ProxDDP.C16_violation_within_tolerance_partial p E h5 viol
      (fun mu v x r hr => by
        have : E.mult mu v x = ((E.mult mu v x).1, some r) := Prod.ext rfl hr
        exact hv _ _ _ _ _ ((h4 _ _ _ _ _).1 this)) fuel _ _ _ h6
    rw [h2] at this
    exact this
  · have := ProxDDP.C16_iteration_limits p E fuel (e.vs g) (forget { s with x := g, trial := e.prime s.trial } [])
    rw [h6] at this
    exact this

end Aligator.Reuse
