import Verif.Spec.Reuse
import Verif.Lemmas.Filter

/-!
# Lemmas: runs depend on guess and memory only
-/

namespace Aligator.Reuse

open ProxDDP (Params)

variable {X V W D G : Type}

/-- The memory that a strategy reads agrees. -/
def MemRel (sa : Strategy) (l : LS) (f : Filter.State ℝ) (l' : LS) (f' : Filter.State ℝ) : Prop :=
  match sa with
  | .filter => f = f'
  | _ => l = l' ∧ l ≠ .unset

structure Rel (sa : Strategy) (s s' : St X V W G) : Prop where
  x : s.x = s'.x
  prevV : s.prevV = s'.prevV
  ws : s.ws = s'.ws
  mu : s.mu = s'.mu
  innerTol : s.innerTol = s'.innerTol
  primTol : s.primTol = s'.primTol
  pregLast : s.pregLast = s'.pregLast
  prim : s.prim = s'.prim
  merit : s.merit = s'.merit
  numIters : s.numIters = s'.numIters
  alIter : s.alIter = s'.alIter
  solves : s.solves = s'.solves
  alphas : s.alphas = s'.alphas
  gains : 0 < s.solves → s.gains = s'.gains
  mem : MemRel sa s.ls s.filter s'.ls s'.filter

structure Rel2 (sa : Strategy) (s s' : St X V W G) : Prop extends Rel sa s s' where
  crit : s.crit = s'.crit
  dual : s.dual = s'.dual

def OutRel (sa : Strategy) : Out X V W G → Out X V W G → Prop
  | .raised s, .raised s' => Rel2 sa s s'
  | .stuck s, .stuck s' => Rel2 sa s s'
  | .done b s, .done b' s' => b = b' ∧ Rel2 sa s s'
  | _, _ => False

theorem pair_congr (e : Env X V W D G) {s s' : St X V W G} (hx : s.x = s'.x) (hm : s.mu = s'.mu)
    (hv : s.prevV = s'.prevV) : e.pair s = e.pair s' := by
  funext d a
  unfold Env.pair
  rw [hx, hm, hv]

theorem nmCalls_ne (o : Linesearch.Options) (m : ℝ) (phi : ℝ → Option ℝ) (dphi0 : ℝ) (n : ℕ) (a : ℝ)
    (r : List ℝ × Ret) (h : nmCalls o m phi dphi0 n a = some r) : r.1 ≠ [] := by
  induction n generalizing a r with
  | zero => cases h
  | succ n ih =>
    unfold nmCalls at h
    split at h
    · split at h
      · split at h
        · injection h with h; subst h; simp
        · obtain ⟨q, -, rfl⟩ := Option.map_eq_some_iff.1 h
          simp
      · obtain ⟨q, -, rfl⟩ := Option.map_eq_some_iff.1 h
        simp
    · split at h <;> · injection h with h; subst h; simp

theorem filterFirst_ne (phi : ℝ → Option (ℝ × ℝ)) (am : ℝ) (n : ℕ) (a : ℝ) (r : List ℝ × ℝ × (ℝ × ℝ))
    (h : filterFirst phi am n a = some r) : r.1 ≠ [] := by
  cases n with
  | zero => cases h
  | succ n =>
    unfold filterFirst at h
    split at h
    · injection h with h; subst h; simp
    · split at h
      · injection h with h; subst h; simp
      · obtain ⟨q, -, rfl⟩ := Option.map_eq_some_iff.1 h
        simp

theorem armijoFirst_ne (o : Linesearch.Options) (phi : ℝ → Option Linesearch.Fl) (n : ℕ) (s s' : Linesearch.ASt)
    (h : Linesearch.armijoFirst o phi n s = some s') : s'.calls ≠ [] := by
  induction n generalizing s with
  | zero => cases h
  | succ n ih =>
    unfold Linesearch.armijoFirst at h
    simp only at h
    split at h
    · injection h with h; subst h; simp
    · split at h
      · injection h with h; subst h; simp
      · exact ih _ h

theorem armijoLoop_ne (o : Linesearch.Options) (qr : Linesearch.Solve2) (phi : ℝ → Option Linesearch.Fl) (phi0 dphi0 : ℝ)
    (n : ℕ) (s : Linesearch.ASt) (hs : s.calls ≠ []) :
    (Linesearch.armijoLoop o qr phi phi0 dphi0 n s).calls ≠ [] := by
  induction n generalizing s with
  | zero => exact hs
  | succ n ih =>
    unfold Linesearch.armijoLoop
    split
    · exact hs
    · simp only
      split
      · exact ih _ (by simp)
      · split
        · simp
        · exact ih _ (by simp)

theorem armijoRun_ne (o : Linesearch.Options) (qr : Linesearch.Solve2) (fuel : ℕ) (phi : ℝ → Option Linesearch.Fl)
    (phi0 dphi0 : ℝ) (r : ℝ × Linesearch.Fl × List ℝ) (h : Linesearch.armijoRun o qr fuel phi phi0 dphi0 = some r) :
    r.2.2 ≠ [] := by
  unfold Linesearch.armijoRun at h
  split at h
  · cases h
  · rename_i s hs
    have := armijoFirst_ne _ _ _ _ _ hs
    split at h
    · injection h with h; subst h; exact this
    · injection h with h; subst h
      exact armijoLoop_ne _ _ _ _ _ _ _ this

/-- A search with memory calls the merit function at least once. -/
theorem search_calls_ne (qr : Linesearch.Solve2) (fuel : ℕ) (sa : Strategy) (e : Env X V W D G) (s : St X V W G) (d : D)
    (dphi0 : ℝ) (hm : sa ≠ .filter → s.ls ≠ .unset) (r : Search) (h : search qr fuel sa e s d dphi0 = some r) :
    r.calls ≠ [] := by
  have key : ∀ r, (match s.ls with
    | .unset => some ⟨[], .nan, s.ls, s.filter⟩
    | .armijo o =>
      match Linesearch.armijoRun o qr fuel (fun a => (e.pair s d a).map fun q => .fin q.1) s.merit dphi0 with
      | none => none
      | some (a, v, calls) =>
        some ⟨calls.reverse, match v with | .fin r => .ok a r | _ => .nan, s.ls, s.filter⟩
    | .nonmonotone o st =>
      let st := st.update (17 / 20) s.merit
      match nmCalls o st.movAvg (fun a => (e.pair s d a).map Prod.fst) dphi0 fuel 1 with
      | none => none
      | some (c, r) => some (⟨c, r, .nonmonotone o st, s.filter⟩ : Search)) = some r → s.ls ≠ .unset → r.calls ≠ [] := by
    intro r h hu
    split at h
    · rename_i hl; exact absurd hl hu
    · split at h
      · cases h
      · rename_i hr
        injection h with h; subst h
        have := armijoRun_ne _ _ _ _ _ _ _ hr
        simpa using this
    · simp only at h
      split at h
      · cases h
      · rename_i hr
        injection h with h; subst h
        exact nmCalls_ne _ _ _ _ _ _ _ hr
  cases sa with
  | filter =>
    unfold search at h
    simp only at h
    split at h
    · cases h
    · rename_i hr
      injection h with h; subst h
      have := filterFirst_ne _ _ _ _ _ hr
      simp [this]
  | armijo => exact key r h (hm (by simp))
  | nonmonotone => exact key r h (hm (by simp))

/-- Results of related searches. -/
def SearchRel (sa : Strategy) (r r' : Option Search) : Prop :=
  match r, r' with
  | none, none => True
  | some r, some r' => r.calls = r'.calls ∧ r.ret = r'.ret ∧ MemRel sa r.ls r.filter r'.ls r'.filter
  | _, _ => False

theorem search_rel (qr : Linesearch.Solve2) (fuel : ℕ) (sa : Strategy) (e : Env X V W D G) {s s' : St X V W G} (d : D)
    (dphi0 : ℝ) (hx : s.x = s'.x) (hm : s.mu = s'.mu) (hv : s.prevV = s'.prevV) (hp : s.merit = s'.merit)
    (hmem : MemRel sa s.ls s.filter s'.ls s'.filter) :
    SearchRel sa (search qr fuel sa e s d dphi0) (search qr fuel sa e s' d dphi0) := by
  have hpair := pair_congr e hx hm hv
  cases sa with
  | filter =>
    have hf : s.filter = s'.filter := hmem
    unfold search
    simp only [hpair, hf]
    cases filterFirst (e.pair s' d) s'.filter.alphaMin fuel 1 with
    | none => trivial
    | some q => exact ⟨rfl, rfl, rfl⟩
  | armijo =>
    obtain ⟨hl, hu⟩ := hmem
    rw [hl] at hu
    unfold search
    simp only [hpair, hl, hp]
    cases hls : s'.ls with
    | unset => exact absurd hls hu
    | armijo o =>
      simp only
      cases Linesearch.armijoRun o qr fuel (fun a => (e.pair s' d a).map fun q => .fin q.1) s'.merit dphi0 with
      | none => trivial
      | some q => exact ⟨rfl, rfl, rfl, by simp⟩
    | nonmonotone o st =>
      simp only
      cases nmCalls o (st.update (17 / 20) s'.merit).movAvg (fun a => (e.pair s' d a).map Prod.fst) dphi0 fuel 1 with
      | none => trivial
      | some q => exact ⟨rfl, rfl, rfl, by simp⟩
  | nonmonotone =>
    obtain ⟨hl, hu⟩ := hmem
    rw [hl] at hu
    unfold search
    simp only [hpair, hl, hp]
    cases hls : s'.ls with
    | unset => exact absurd hls hu
    | armijo o =>
      simp only
      cases Linesearch.armijoRun o qr fuel (fun a => (e.pair s' d a).map fun q => .fin q.1) s'.merit dphi0 with
      | none => trivial
      | some q => exact ⟨rfl, rfl, rfl, by simp⟩
    | nonmonotone o st =>
      simp only
      cases nmCalls o (st.update (17 / 20) s'.merit).movAvg (fun a => (e.pair s' d a).map Prod.fst) dphi0 fuel 1 with
      | none => trivial
      | some q => exact ⟨rfl, rfl, rfl, by simp⟩

/-- In a total environment a forward pass writes trial point, workspace and infeasibility. -/
theorem forwardPass_total {e : Env X V W D G} (hT : Total e) (x : X) (v : V) (mu : ℝ) (d : D) (a : ℝ) :
    ∃ t w pr, ∀ s : St X V W G, s.x = x → s.prevV = v → s.mu = mu →
      forwardPass e d s a = { s with trial := t, ws := w, prim := pr } := by
  obtain ⟨t, ht⟩ := hT.point x d a
  obtain ⟨⟨w, pr⟩, hw⟩ := hT.mult mu v t
  refine ⟨t, w, pr, ?_⟩
  rintro s rfl rfl rfl
  unfold forwardPass
  rw [ht]
  simp only [hw]

theorem fold_total {e : Env X V W D G} (hT : Total e) (x : X) (v : V) (mu : ℝ) (d : D) (calls : List ℝ) (hc : calls ≠ []) :
    ∃ t w pr, ∀ s : St X V W G, s.x = x → s.prevV = v → s.mu = mu →
      calls.foldl (forwardPass e d) s = { s with trial := t, ws := w, prim := pr } := by
  induction calls using List.reverseRecOn with
  | nil => exact absurd rfl hc
  | append_singleton l a ih =>
    obtain ⟨t, w, pr, h⟩ := forwardPass_total hT x v mu d a
    refine ⟨t, w, pr, fun s hx hv hm => ?_⟩
    rw [List.foldl_append]
    by_cases hl : l = []
    · subst hl
      exact h s hx hv hm
    · obtain ⟨t', w', pr', h'⟩ := ih hl
      rw [h' s hx hv hm]
      exact h { s with trial := t', ws := w', prim := pr' } hx hv hm

theorem MemRel.reset {sa : Strategy} {l l' : LS} {f f' : Filter.State ℝ} (h : MemRel sa l f l' f') :
    MemRel sa l.reset f l'.reset f' := by
  cases sa with
  | filter => exact h
  | armijo =>
    obtain ⟨rfl, hu⟩ := h
    exact ⟨rfl, by cases l <;> simp_all [LS.reset]⟩
  | nonmonotone =>
    obtain ⟨rfl, hu⟩ := h
    exact ⟨rfl, by cases l <;> simp_all [LS.reset]⟩

theorem innerIter_rel (qr : Linesearch.Solve2) (fuel : ℕ) (sa : Strategy) (p : Params) {e : Env X V W D G} (hT : Total e)
    (n : ℕ) (s s' : St X V W G) (h : Rel sa s s') (h0 : n = 0 → Rel2 sa s s') :
    OutRel sa (innerIter qr fuel sa p e n s) (innerIter qr fuel sa p e n s') := by
  induction n generalizing s s' with
  | zero => exact ⟨rfl, h0 rfl⟩
  | succ n ih =>
    obtain ⟨x, trial, prevV, ws, mu, innerTol, primTol, preg, pregLast, prim, dual, crit, merit, gains, numIters, alIter,
      ls, filter, solves, alphas⟩ := s
    obtain ⟨x', trial', prevV', ws', mu', innerTol', primTol', preg', pregLast', prim', dual', crit', merit', gains',
      numIters', alIter', ls', filter', solves', alphas'⟩ := s'
    obtain ⟨h1, h2, h3, h4, h5, h6, h7, h8, h9, h10, h11, h12, h13, h14, h15⟩ := h
    simp only at h1 h2 h3 h4 h5 h6 h7 h8 h9 h10 h11 h12 h13 h14 h15
    subst h1 h2 h3 h4 h5 h6 h7 h8 h9 h10 h11 h12 h13
    unfold innerIter
    simp only [initializeRegularization]
    split
    · exact ⟨rfl, ⟨⟨rfl, rfl, rfl, rfl, rfl, rfl, rfl, rfl, rfl, rfl, rfl, rfl, rfl, h14, h15⟩, rfl, rfl⟩⟩
    · generalize hpr : (if pregLast = 0 then max p.regInit p.regMin else max p.regMin (pregLast * p.regDec)) = pr
      cases hlin : e.lin x ws mu pr with
      | none => exact ⟨⟨rfl, rfl, rfl, rfl, rfl, rfl, rfl, rfl, rfl, rfl, rfl, rfl, rfl, h14, h15⟩, rfl, rfl⟩
      | some q =>
        obtain ⟨d, g, dphi0⟩ := q
        simp only
        split
        · exact ⟨rfl, ⟨⟨rfl, rfl, rfl, rfl, rfl, rfl, rfl, rfl, rfl, rfl, rfl, rfl, rfl, fun _ => rfl, h15⟩, rfl, rfl⟩⟩
        · generalize hS : (⟨x, trial, prevV, ws, mu, innerTol, primTol, pr, pregLast, prim, e.dualInf x,
            e.innerCrit x ws, merit, g, numIters, alIter, ls, filter, solves + 1, alphas⟩ : St X V W G) = S
          generalize hS' : (⟨x, trial', prevV, ws, mu, innerTol, primTol, pr, pregLast, prim, e.dualInf x,
            e.innerCrit x ws, merit, g, numIters, alIter, ls', filter', solves + 1, alphas⟩ : St X V W G) = S'
          have hrel := search_rel qr fuel sa e (s := S) (s' := S') d dphi0 (by subst hS hS'; rfl) (by subst hS hS'; rfl)
            (by subst hS hS'; rfl) (by subst hS hS'; rfl) (by subst hS hS'; exact h15)
          have hne := search_calls_ne qr fuel sa e S d dphi0 (by
            intro hsa
            subst hS
            cases sa with
            | filter => exact absurd rfl hsa
            | armijo => exact h15.2
            | nonmonotone => exact h15.2)
          cases hs : search qr fuel sa e S d dphi0 with
          | none =>
            cases hs' : search qr fuel sa e S' d dphi0 with
            | none =>
              simp only
              subst hS hS'
              exact ⟨⟨rfl, rfl, rfl, rfl, rfl, rfl, rfl, rfl, rfl, rfl, rfl, rfl, rfl, fun _ => rfl, h15⟩, rfl, rfl⟩
            | some r' => rw [hs, hs'] at hrel; exact hrel.elim
          | some r =>
            cases hs' : search qr fuel sa e S' d dphi0 with
            | none => rw [hs, hs'] at hrel; exact hrel.elim
            | some r' =>
              rw [hs, hs'] at hrel
              obtain ⟨hc, hr, hmem⟩ := hrel
              obtain ⟨t, w, prm, hfold⟩ := fold_total hT x prevV mu d r.calls (hne r hs)
              simp only
              rw [← hc, ← hr, hfold S (by subst hS; rfl) (by subst hS; rfl) (by subst hS; rfl),
                hfold S' (by subst hS'; rfl) (by subst hS'; rfl) (by subst hS'; rfl)]
              subst hS hS'
              cases r.ret with
              | throws =>
                exact ⟨⟨rfl, rfl, rfl, rfl, rfl, rfl, rfl, rfl, rfl, rfl, rfl, rfl, rfl, fun _ => rfl, hmem⟩, rfl, rfl⟩
              | nan =>
                exact ⟨⟨rfl, rfl, rfl, rfl, rfl, rfl, rfl, rfl, rfl, rfl, rfl, rfl, rfl, fun _ => rfl, hmem⟩, rfl, rfl⟩
              | ok a phi =>
                simp only
                split
                · split
                  · exact ⟨rfl, ⟨⟨rfl, rfl, rfl, rfl, rfl, rfl, rfl, rfl, rfl, rfl, rfl, rfl, rfl, fun _ => rfl, hmem⟩,
                      rfl, rfl⟩⟩
                  · refine ih _ _ ⟨rfl, rfl, rfl, rfl, rfl, rfl, rfl, rfl, rfl, rfl, rfl, rfl, rfl, fun _ => rfl, hmem⟩
                      fun _ => ⟨⟨rfl, rfl, rfl, rfl, rfl, rfl, rfl, rfl, rfl, rfl, rfl, rfl, rfl, fun _ => rfl, hmem⟩,
                        rfl, rfl⟩
                · refine ih _ _ ⟨rfl, rfl, rfl, rfl, rfl, rfl, rfl, rfl, rfl, rfl, rfl, rfl, rfl, fun _ => rfl, hmem⟩
                      fun _ => ⟨⟨rfl, rfl, rfl, rfl, rfl, rfl, rfl, rfl, rfl, rfl, rfl, rfl, rfl, fun _ => rfl, hmem⟩,
                        rfl, rfl⟩

theorem evaluateIterate_rel {sa : Strategy} {e : Env X V W D G} (hT : Total e) {s s' : St X V W G} (hx : s.x = s'.x)
    (hv : s.prevV = s'.prevV) (hm : s.mu = s'.mu) (hi : s.innerTol = s'.innerTol) (hp : s.primTol = s'.primTol)
    (hl : s.pregLast = s'.pregLast) (hn : s.numIters = s'.numIters) (ha : s.alIter = s'.alIter)
    (hs : s.solves = s'.solves) (hal : s.alphas = s'.alphas) (hg : 0 < s.solves → s.gains = s'.gains)
    (hmem : MemRel sa s.ls s.filter s'.ls s'.filter) :
    Rel sa (evaluateIterate e s) (evaluateIterate e s') := by
  obtain ⟨⟨w, pr⟩, hw⟩ := hT.mult s'.mu s'.prevV s'.x
  have hw' : e.mult s.mu s.prevV s.x = some (w, pr) := by rw [hx, hv, hm, hw]
  have e1 : evaluateIterate e s = { s with ws := w, prim := pr, merit := e.merit s.mu s.x w } := by
    unfold evaluateIterate
    simp only [hw']
  have e2 : evaluateIterate e s' = { s' with ws := w, prim := pr, merit := e.merit s'.mu s'.x w } := by
    unfold evaluateIterate
    simp only [hw]
  rw [e1, e2]
  exact ⟨hx, hv, rfl, hm, hi, hp, hl, rfl, by simp only [hm, hx], hn, ha, hs, hal, hg, hmem⟩

theorem tighten_rel {sa : Strategy} (p : Params) (n : ℕ) (s s' : St X V W G) (h : Rel2 sa s s') :
    match tighten p n s, tighten p n s' with
    | none, none => True
    | some t, some t' => Rel2 sa t t'
    | _, _ => False := by
  induction n generalizing s s' with
  | zero => trivial
  | succ n ih =>
    have hu : Rel2 sa (updateTolsOnSuccess p s) (updateTolsOnSuccess p s') := by
      obtain ⟨⟨h1, h2, h3, h4, h5, h6, h7, h8, h9, h10, h11, h12, h13, h14, h15⟩, h16, h17⟩ := h
      exact ⟨⟨h1, h2, h3, h4, by simp only [updateTolsOnSuccess, h4, h5], by simp only [updateTolsOnSuccess, h4, h6],
        h7, h8, h9, h10, h11, h12, h13, h14, h15⟩, h16, h17⟩
    unfold tighten
    simp only
    rw [hu.crit, hu.innerTol]
    split
    · rename_i e1 e2
      split at e1
      · rename_i hlt
        rw [if_pos hlt] at e2
        have := ih _ _ hu
        rw [e1, e2] at this
        trivial
      · cases e1
    · rename_i t t' e1 e2
      split at e1
      · rename_i hlt
        rw [if_pos hlt] at e2
        have := ih _ _ hu
        rw [e1, e2] at this
        exact this
      · rename_i hlt
        rw [if_neg hlt] at e2
        injection e1 with e1
        injection e2 with e2
        subst e1 e2
        exact hu
    · rename_i hno1 hno2
      by_cases hlt : (updateTolsOnSuccess p s').crit < (updateTolsOnSuccess p s').innerTol
      · have := ih _ _ hu
        simp only [if_pos hlt] at hno1 hno2
        cases e1 : tighten p n (updateTolsOnSuccess p s) with
        | none =>
          cases e2 : tighten p n (updateTolsOnSuccess p s') with
          | none => exact hno1 e1 e2
          | some t' => rw [e1, e2] at this; exact this
        | some t =>
          cases e2 : tighten p n (updateTolsOnSuccess p s') with
          | none => rw [e1, e2] at this; exact this
          | some t' => exact hno2 _ _ e1 e2
      · simp only [if_neg hlt] at hno2
        exact hno2 _ _ rfl rfl

theorem clamp_rel {sa : Strategy} (p : Params) {s s' : St X V W G} (h : Rel2 sa s s') :
    Rel2 sa (clamp p s) (clamp p s') := by
  obtain ⟨⟨h1, h2, h3, h4, h5, h6, h7, h8, h9, h10, h11, h12, h13, h14, h15⟩, h16, h17⟩ := h
  exact ⟨⟨h1, h2, h3, h4, by simp only [clamp, h5], by simp only [clamp, h6],
    h7, h8, h9, h10, by simp only [clamp, h11], h12, h13, h14, h15⟩, h16, h17⟩

theorem onFailure_rel {sa : Strategy} (p : Params) {s s' : St X V W G} (h : Rel2 sa s s') :
    Rel2 sa (onFailure p s) (onFailure p s') := by
  obtain ⟨⟨h1, h2, h3, h4, h5, h6, h7, h8, h9, h10, h11, h12, h13, h14, h15⟩, h16, h17⟩ := h
  unfold onFailure
  simp only [updateTolsOnFailure, setAlmPenalty, h4]
  by_cases hc : ProxDDP.scalarClose p.closeEps (max (s'.mu * p.muFactor) p.muLb) p.muLb = true
  · simp only [hc, if_true]
    exact ⟨⟨h1, h2, h3, rfl, rfl, rfl, h7, h8, h9, h10, h11, h12, h13, h14, h15⟩, h16, h17⟩
  · rw [Bool.not_eq_true] at hc
    simp only [hc, Bool.false_eq_true, if_false]
    exact ⟨⟨h1, h2, h3, rfl, rfl, rfl, h7, h8, h9, h10, h11, h12, h13, h14, h15⟩, h16, h17⟩

/-- Related up to what the next inner loop recomputes. -/
structure Rel0 (sa : Strategy) (s s' : St X V W G) : Prop where
  x : s.x = s'.x
  prevV : s.prevV = s'.prevV
  mu : s.mu = s'.mu
  innerTol : s.innerTol = s'.innerTol
  primTol : s.primTol = s'.primTol
  pregLast : s.pregLast = s'.pregLast
  numIters : s.numIters = s'.numIters
  alIter : s.alIter = s'.alIter
  solves : s.solves = s'.solves
  alphas : s.alphas = s'.alphas
  gains : 0 < s.solves → s.gains = s'.gains
  mem : MemRel sa s.ls s.filter s'.ls s'.filter

theorem Rel2.rel0 {sa : Strategy} {s s' : St X V W G} (h : Rel2 sa s s') : Rel0 sa s s' :=
  ⟨h.x, h.prevV, h.mu, h.innerTol, h.primTol, h.pregLast, h.numIters, h.alIter, h.solves, h.alphas, h.gains, h.mem⟩

theorem outer_rel (qr : Linesearch.Solve2) (fuel : ℕ) (sa : Strategy) (p : Params) {e : Env X V W D G} (hT : Total e)
    (n : ℕ) (s s' : St X V W G) (h : Rel0 sa s s')
    (h0 : n = 0 ∨ ¬ s.numIters < p.maxIters → Rel2 sa s s') :
    OutRel sa (outer qr fuel sa p e n s) (outer qr fuel sa p e n s') := by
  induction n generalizing s s' with
  | zero => exact ⟨rfl, h0 (Or.inl rfl)⟩
  | succ n ih =>
    unfold outer
    rw [← h.numIters]
    by_cases hlt : s.numIters < p.maxIters
    · rw [if_pos hlt, if_pos hlt]
      have hin : OutRel sa (innerLoop qr fuel sa p e s) (innerLoop qr fuel sa p e s') := by
        unfold innerLoop
        rw [← h.numIters]
        refine innerIter_rel qr fuel sa p hT _ _ _ ?_ (fun hz => by omega)
        exact evaluateIterate_rel hT h.x h.prevV h.mu h.innerTol h.primTol h.pregLast h.numIters h.alIter h.solves
          h.alphas h.gains h.mem
      cases h1 : innerLoop qr fuel sa p e s with
      | raised t =>
        cases h2 : innerLoop qr fuel sa p e s' with
        | raised t' => rw [h1, h2] at hin; exact hin
        | stuck t' => rw [h1, h2] at hin; exact hin.elim
        | done b t' => rw [h1, h2] at hin; exact hin.elim
      | stuck t =>
        cases h2 : innerLoop qr fuel sa p e s' with
        | raised t' => rw [h1, h2] at hin; exact hin.elim
        | stuck t' => rw [h1, h2] at hin; exact hin
        | done b t' => rw [h1, h2] at hin; exact hin.elim
      | done b t =>
        cases h2 : innerLoop qr fuel sa p e s' with
        | raised t' => rw [h1, h2] at hin; exact hin.elim
        | stuck t' => rw [h1, h2] at hin; exact hin.elim
        | done b' t' =>
          rw [h1, h2] at hin
          obtain ⟨rfl, hr⟩ := hin
          cases b with
          | false =>
            obtain ⟨⟨h1, h2, h3, h4, h5, h6, h7, h8, h9, h10, h11, h12, h13, h14, h15⟩, h16, h17⟩ := hr
            exact ⟨rfl, ⟨⟨h1, h2, h3, h4, h5, h6, h7, h8, h9, h10, by simp only [h11], h12, h13, h14, h15⟩, h16, h17⟩⟩
          | true =>
            simp only
            have hr' : Rel2 sa { t with ls := t.ls.reset } { t' with ls := t'.ls.reset } := by
              obtain ⟨⟨h1, h2, h3, h4, h5, h6, h7, h8, h9, h10, h11, h12, h13, h14, h15⟩, h16, h17⟩ := hr
              exact ⟨⟨h1, h2, h3, h4, h5, h6, h7, h8, h9, h10, h11, h12, h13, h14, h15.reset⟩, h16, h17⟩
            have hiff : t'.prim ≤ t'.primTol ↔ t.prim ≤ t.primTol := by rw [hr.prim, hr.primTol]
            generalize ({ t with ls := t.ls.reset } : St X V W G) = S at hr'
            generalize ({ t' with ls := t'.ls.reset } : St X V W G) = S' at hr'
            by_cases hle : t.prim ≤ t.primTol
            · rw [if_pos hle, if_pos (hiff.2 hle)]
              have ht := tighten_rel p fuel S S' hr'
              cases e1 : tighten p fuel S with
              | none =>
                cases e2 : tighten p fuel S' with
                | none => exact hr'
                | some T' => rw [e1, e2] at ht; exact ht.elim
              | some T =>
                cases e2 : tighten p fuel S' with
                | none => rw [e1, e2] at ht; exact ht.elim
                | some T' =>
                  rw [e1, e2] at ht
                  simp only
                  have hT2 : Rel2 sa { T with prevV := e.nextV T.x T.ws } { T' with prevV := e.nextV T'.x T'.ws } := by
                    obtain ⟨⟨h1, h2, h3, h4, h5, h6, h7, h8, h9, h10, h11, h12, h13, h14, h15⟩, h16, h17⟩ := ht
                    exact ⟨⟨h1, by simp only [h1, h3], h3, h4, h5, h6, h7, h8, h9, h10, h11, h12, h13, h14, h15⟩,
                      h16, h17⟩
                  have hiff2 : (T'.dual ≤ p.targetDual ∧ T'.prim ≤ p.targetTol) ↔
                      (T.dual ≤ p.targetDual ∧ T.prim ≤ p.targetTol) := by rw [ht.dual, ht.prim]
                  by_cases hcv : T.dual ≤ p.targetDual ∧ T.prim ≤ p.targetTol
                  · rw [if_pos hcv, if_pos (hiff2.2 hcv)]
                    exact ⟨rfl, hT2⟩
                  · rw [if_neg hcv, if_neg (fun h => hcv (hiff2.1 h))]
                    have := clamp_rel p hT2
                    exact ih _ _ this.rel0 fun _ => this
            · rw [if_neg hle, if_neg (fun h => hle (hiff.1 h))]
              have := clamp_rel p (onFailure_rel p hr')
              exact ih _ _ this.rel0 fun _ => this
    · rw [if_neg hlt, if_neg hlt]
      exact ⟨rfl, h0 (Or.inr hlt)⟩

theorem initRun_rel {sa : Strategy} (p : Params) (e : Env X V W D G) (g : X) (s s' : St X V W G)
    (h : MemRel sa s.ls s.filter s'.ls s'.filter) : Rel0 sa (initRun p e g s) (initRun p e g s') :=
  ⟨rfl, rfl, rfl, rfl, rfl, rfl, rfl, rfl, rfl, rfl, fun h => absurd h (lt_irrefl _), h⟩

theorem OutRel.report {sa : Strategy} {a b : Out X V W G} (h : OutRel sa a b) : SameReport a b := by
  cases a <;> cases b <;> first | exact h.elim | skip
  · exact ⟨h.x, h.prim, h.dual, h.merit, h.numIters, h.alIter, h.alphas, h.gains⟩
  · exact ⟨h.x, h.prim, h.dual, h.merit, h.numIters, h.alIter, h.alphas, h.gains⟩
  · exact ⟨h.1, h.2.x, h.2.prim, h.2.dual, h.2.merit, h.2.numIters, h.2.alIter, h.2.alphas, h.2.gains⟩

/-- Runs from the same guess with the same memory. -/
theorem run_rel (qr : Linesearch.Solve2) (fuel : ℕ) (sa : Strategy) (p : Params) {e : Env X V W D G} (hT : Total e)
    (hi : 0 < p.maxIters) (ha : 0 < p.maxAlIters) (g : X) (s s' : St X V W G)
    (h : MemRel sa s.ls s.filter s'.ls s'.filter) :
    SameReport (run qr fuel sa p e g s) (run qr fuel sa p e g s') := by
  refine (outer_rel qr fuel sa p hT _ _ _ (initRun_rel p e g s s' h) fun hz => ?_).report
  rcases hz with hz | hz
  · omega
  · exact absurd hi hz

/-! ### Memory along runs -/

theorem forwardPass_mem (e : Env X V W D G) (d : D) (s : St X V W G) (a : ℝ) :
    (forwardPass e d s a).alphas = s.alphas := by
  unfold forwardPass
  split
  · rfl
  · split <;> rfl

theorem fold_alphas (e : Env X V W D G) (d : D) (calls : List ℝ) (s : St X V W G) :
    (calls.foldl (forwardPass e d) s).alphas = s.alphas := by
  induction calls generalizing s with
  | nil => rfl
  | cons a l ih => rw [List.foldl_cons, ih, forwardPass_mem]

/-- A property of the memory kept by searches holds after inner loops. -/
theorem innerIter_mem (P : LS → Filter.State ℝ → Prop) (qr : Linesearch.Solve2) (fuel : ℕ) (sa : Strategy) (p : Params)
    (e : Env X V W D G)
    (hs : ∀ (s : St X V W G) d dphi0 r, P s.ls s.filter → search qr fuel sa e s d dphi0 = some r → P r.ls r.filter)
    (n : ℕ) (s : St X V W G) (h : P s.ls s.filter) :
    P (innerIter qr fuel sa p e n s).state.ls (innerIter qr fuel sa p e n s).state.filter := by
  induction n generalizing s with
  | zero => exact h
  | succ n ih =>
    unfold innerIter
    dsimp only
    split
    · exact h
    · split
      · exact h
      · split
        · exact h
        · split
          · exact h
          · rename_i r hr
            have := hs _ _ _ _ (by exact h) hr
            split
            · exact this
            · exact this
            · split
              · split
                · exact this
                · exact ih _ this
              · exact ih _ this

theorem tighten_mem (p : Params) (n : ℕ) (s t : St X V W G) (h : tighten p n s = some t) :
    t.ls = s.ls ∧ t.filter = s.filter := by
  induction n generalizing s with
  | zero => cases h
  | succ n ih =>
    unfold tighten at h
    dsimp only at h
    split at h
    · exact ih (updateTolsOnSuccess p s) h
    · injection h with h
      subst h
      exact ⟨rfl, rfl⟩

theorem onFailure_mem (p : Params) (s : St X V W G) : (onFailure p s).ls = s.ls ∧ (onFailure p s).filter = s.filter := by
  unfold onFailure
  simp only
  split <;> exact ⟨rfl, rfl⟩

theorem evaluateIterate_mem (e : Env X V W D G) (s : St X V W G) :
    (evaluateIterate e s).ls = s.ls ∧ (evaluateIterate e s).filter = s.filter := by
  unfold evaluateIterate
  simp only
  split <;> exact ⟨rfl, rfl⟩

theorem outer_mem_of_inner_aux (P : LS → Filter.State ℝ → Prop) (qr : Linesearch.Solve2) (fuel : ℕ) (sa : Strategy) (p : Params)
    (e : Env X V W D G) (hr : ∀ l f, P l f → P l.reset f) (n : ℕ)
    (ih : ∀ s : St X V W G, P s.ls s.filter → P (outer qr fuel sa p e n s).state.ls (outer qr fuel sa p e n s).state.filter)
    (s : St X V W G) (hlt : s.numIters < p.maxIters)
    (h1 : P (innerLoop qr fuel sa p e s).state.ls (innerLoop qr fuel sa p e s).state.filter) :
    P (outer qr fuel sa p e (n + 1) s).state.ls (outer qr fuel sa p e (n + 1) s).state.filter := by
  unfold outer
  rw [if_pos hlt]
  cases hi : innerLoop qr fuel sa p e s with
  | raised t => rw [hi] at h1; exact h1
  | stuck t => rw [hi] at h1; exact h1
  | done b t =>
    rw [hi] at h1
    cases b with
    | false => exact h1
    | true =>
      simp only
      split
      · split
        · exact hr _ _ h1
        · rename_i T hT
          obtain ⟨e1, e2⟩ := tighten_mem _ _ _ _ hT
          have h2 : P T.ls T.filter := by
            rw [e1, e2]
            exact hr _ _ h1
          split
          · exact h2
          · exact ih _ h2
      · refine ih _ ?_
        show P (onFailure p _).ls (onFailure p _).filter
        rw [(onFailure_mem p _).1, (onFailure_mem p _).2]
        exact hr _ _ h1

/-- A property of the memory kept by searches and resets holds after runs. -/
theorem outer_mem (P : LS → Filter.State ℝ → Prop) (qr : Linesearch.Solve2) (fuel : ℕ) (sa : Strategy) (p : Params)
    (e : Env X V W D G)
    (hs : ∀ (s : St X V W G) d dphi0 r, P s.ls s.filter → search qr fuel sa e s d dphi0 = some r → P r.ls r.filter)
    (hr : ∀ l f, P l f → P l.reset f) (n : ℕ) (s : St X V W G) (h : P s.ls s.filter) :
    P (outer qr fuel sa p e n s).state.ls (outer qr fuel sa p e n s).state.filter := by
  induction n generalizing s with
  | zero => exact h
  | succ n ih =>
    by_cases hlt : s.numIters < p.maxIters
    · refine outer_mem_of_inner_aux P qr fuel sa p e hr n ih s hlt ?_
      refine innerIter_mem P qr fuel sa p e hs _ _ ?_
      rw [(evaluateIterate_mem e s).1, (evaluateIterate_mem e s).2]
      exact h
    · unfold outer
      rw [if_neg hlt]
      exact h

theorem outer_mem_of_inner (P : LS → Filter.State ℝ → Prop) (qr : Linesearch.Solve2) (fuel : ℕ) (sa : Strategy) (p : Params)
    (e : Env X V W D G)
    (hs : ∀ (s : St X V W G) d dphi0 r, P s.ls s.filter → search qr fuel sa e s d dphi0 = some r → P r.ls r.filter)
    (hr : ∀ l f, P l f → P l.reset f) (n : ℕ) (s : St X V W G) (hlt : s.numIters < p.maxIters)
    (h1 : P (innerLoop qr fuel sa p e s).state.ls (innerLoop qr fuel sa p e s).state.filter) :
    P (outer qr fuel sa p e (n + 1) s).state.ls (outer qr fuel sa p e (n + 1) s).state.filter :=
  outer_mem_of_inner_aux P qr fuel sa p e hr n (outer_mem P qr fuel sa p e hs hr n) s hlt h1

theorem run_mem (P : LS → Filter.State ℝ → Prop) (qr : Linesearch.Solve2) (fuel : ℕ) (sa : Strategy) (p : Params)
    (e : Env X V W D G)
    (hs : ∀ (s : St X V W G) d dphi0 r, P s.ls s.filter → search qr fuel sa e s d dphi0 = some r → P r.ls r.filter)
    (hr : ∀ l f, P l f → P l.reset f) (g : X) (s : St X V W G) (h : P s.ls s.filter) :
    P (run qr fuel sa p e g s).state.ls (run qr fuel sa p e g s).state.filter :=
  outer_mem P qr fuel sa p e hs hr _ _ h

/-- A run that reports convergence leaves the line search reset. -/
theorem outer_converged_reset (qr : Linesearch.Solve2) (fuel : ℕ) (sa : Strategy) (p : Params) (e : Env X V W D G) (n : ℕ)
    (s t : St X V W G) (h : outer qr fuel sa p e n s = .done true t) : ∃ l : LS, t.ls = l.reset := by
  induction n generalizing s with
  | zero => cases h
  | succ n ih =>
    unfold outer at h
    split at h
    · split at h
      · cases h
      · cases h
      · cases h
      · simp only at h
        split at h
        · split at h
          · cases h
          · rename_i T hT
            split at h
            · injection h with h1 h2
              subst h2
              exact ⟨_, (tighten_mem _ _ _ _ hT).1⟩
            · exact ih _ h
        · exact ih _ h
    · cases h

/-! ### The filter -/

/-- The filter, with margin 0, rejects the pair. -/
def Blocked (f : Filter.State ℝ) (q : ℝ × ℝ) : Prop := f.beta = 0 ∧ ∃ e ∈ f.pairs, Filter.Dominates e q

theorem Blocked.reject {f : Filter.State ℝ} {q : ℝ × ℝ} (h : Blocked f q) : (Filter.acceptPair f q).2 = false := by
  obtain ⟨hb, e, he, hd⟩ := h
  have : f.pairs.any (fun e => Filter.blocks f.beta e q) = true := by
    rw [List.any_eq_true]
    exact ⟨e, he, by rw [hb]; exact (Filter.blocks_zero e q).2 hd⟩
  unfold Filter.acceptPair
  rw [if_pos this]

theorem Blocked.accept {f : Filter.State ℝ} {q : ℝ × ℝ} (h : Blocked f q) (c : ℝ × ℝ) :
    Blocked (Filter.acceptPair f c).1 q := by
  obtain ⟨hb, e, he, hd⟩ := h
  unfold Filter.acceptPair
  split
  · exact ⟨hb, e, he, hd⟩
  · refine ⟨hb, ?_⟩
    by_cases hdom : Filter.dominatedBy c e = true
    · exact ⟨c, by simp, Filter.dominates_trans ((Filter.dominatedBy_iff e c).1 hdom) hd⟩
    · exact ⟨e, by simp [he, hdom], hd⟩

theorem accepted_blocked {f : Filter.State ℝ} (hb : f.beta = 0) {c q : ℝ × ℝ} (h : (Filter.acceptPair f c).2 = true)
    (hd : Filter.Dominates c q) : Blocked (Filter.acceptPair f c).1 q := by
  unfold Filter.acceptPair at h ⊢
  split at h
  · cases h
  · rename_i hn
    rw [if_neg hn]
    exact ⟨hb, c, by simp, hd⟩

theorem accept_params (f : Filter.State ℝ) (c : ℝ × ℝ) :
    (Filter.acceptPair f c).1.beta = f.beta ∧ (Filter.acceptPair f c).1.alphaMin = f.alphaMin ∧
      (Filter.acceptPair f c).1.maxNumSteps = f.maxNumSteps := by
  unfold Filter.acceptPair
  split <;> exact ⟨rfl, rfl, rfl⟩

/-- Invariants of the filter kept by the search. -/
theorem filterLoop_inv (P : Filter.State ℝ → Prop) (hP : ∀ f c, P f → P (Filter.acceptPair f c).1)
    (phi : ℝ → Option (ℝ × ℝ)) (n : ℕ) (f : Filter.State ℝ) (a : ℝ) (q : ℝ × ℝ) (h : P f) :
    P (filterLoop phi n f a q).2.1 := by
  induction n generalizing a q with
  | zero => exact h
  | succ n ih =>
    unfold filterLoop
    split
    · exact hP _ _ h
    · split
      · split <;> exact h
      · split
        · exact h
        · exact ih _ _

theorem search_filter_inv (P : Filter.State ℝ → Prop) (hP : ∀ f c, P f → P (Filter.acceptPair f c).1)
    (qr : Linesearch.Solve2) (fuel : ℕ) (sa : Strategy) (e : Env X V W D G) (s : St X V W G) (d : D) (dphi0 : ℝ)
    (r : Search) (h : P s.filter) (hr : search qr fuel sa e s d dphi0 = some r) : P r.filter := by
  cases sa with
  | filter =>
    unfold search at hr
    simp only at hr
    split at hr
    · cases hr
    · injection hr with hr
      subst hr
      exact filterLoop_inv P hP _ _ _ _ _ h
  | armijo =>
    unfold search at hr
    simp only at hr
    split at hr
    · injection hr with hr; subst hr; exact h
    · split at hr
      · cases hr
      · injection hr with hr; subst hr; exact h
    · split at hr
      · cases hr
      · injection hr with hr; subst hr; exact h
  | nonmonotone =>
    unfold search at hr
    simp only at hr
    split at hr
    · injection hr with hr; subst hr; exact h
    · split at hr
      · cases hr
      · injection hr with hr; subst hr; exact h
    · split at hr
      · cases hr
      · injection hr with hr; subst hr; exact h

theorem call_filter_inv (P : Filter.State ℝ → Prop) (hP : ∀ f c, P f → P (Filter.acceptPair f c).1)
    (qr : Linesearch.Solve2) (fuel : ℕ) (sa : Strategy) (s : St X V W G) (c : Call X V W D G) (h : P s.filter) :
    P (c.after qr fuel sa s).filter := by
  cases c with
  | run p e g =>
    exact run_mem (fun _ f => P f) qr fuel sa p e (fun s d dphi0 r h hr => search_filter_inv P hP qr fuel sa e s d dphi0 r h hr)
      (fun _ _ h => h) g s h
  | cycle f => exact h

theorem history_filter_inv (P : Filter.State ℝ → Prop) (hP : ∀ f c, P f → P (Filter.acceptPair f c).1)
    (qr : Linesearch.Solve2) (fuel : ℕ) (sa : Strategy) (cs : List (Call X V W D G)) (s : St X V W G) (h : P s.filter) :
    P (cs.foldl (Call.after qr fuel sa) s).filter := by
  induction cs generalizing s with
  | nil => exact h
  | cons c cs ih => exact ih _ (call_filter_inv P hP qr fuel sa s c h)

/-! ### First step -/

theorem prefix_of_eq {l l' : List ℝ} (h : l' = l) : l <+: l' := h ▸ List.prefix_rfl

theorem prefix_append_of_eq {l l' m : List ℝ} (h : l' = l) : l <+: l' ++ m := h ▸ List.prefix_append _ _

theorem innerIter_alphas (qr : Linesearch.Solve2) (fuel : ℕ) (sa : Strategy) (p : Params) (e : Env X V W D G)
    (n : ℕ) (s : St X V W G) : s.alphas <+: (innerIter qr fuel sa p e n s).state.alphas := by
  induction n generalizing s with
  | zero => exact List.prefix_rfl
  | succ n ih =>
    unfold innerIter
    dsimp only
    split
    · exact List.prefix_rfl
    · split
      · exact List.prefix_rfl
      · split
        · exact List.prefix_rfl
        · split
          · exact List.prefix_rfl
          · rename_i r hr
            split
            · exact prefix_of_eq (fold_alphas e _ r.calls _)
            · exact prefix_of_eq (fold_alphas e _ r.calls _)
            · split
              · split
                · exact prefix_append_of_eq (fold_alphas e _ r.calls _)
                · refine List.IsPrefix.trans ?_ (ih _); exact prefix_append_of_eq (fold_alphas e _ r.calls _)
              · refine List.IsPrefix.trans ?_ (ih _); exact prefix_append_of_eq (fold_alphas e _ r.calls _)

theorem onFailure_alphas (p : Params) (s : St X V W G) : (onFailure p s).alphas = s.alphas := by
  unfold onFailure
  simp only
  split <;> rfl

theorem tighten_alphas (p : Params) (n : ℕ) (s t : St X V W G) (h : tighten p n s = some t) : t.alphas = s.alphas := by
  induction n generalizing s with
  | zero => cases h
  | succ n ih =>
    unfold tighten at h
    dsimp only at h
    split at h
    · exact ih (updateTolsOnSuccess p s) h
    · injection h with h
      subst h
      rfl

theorem evaluateIterate_alphas (e : Env X V W D G) (s : St X V W G) : (evaluateIterate e s).alphas = s.alphas := by
  unfold evaluateIterate
  simp only
  split <;> rfl

theorem innerLoop_alphas (qr : Linesearch.Solve2) (fuel : ℕ) (sa : Strategy) (p : Params) (e : Env X V W D G)
    (s : St X V W G) : s.alphas <+: (innerLoop qr fuel sa p e s).state.alphas := by
  have := innerIter_alphas qr fuel sa p e (p.maxIters - s.numIters) (evaluateIterate e s)
  rwa [evaluateIterate_alphas] at this

theorem outer_alphas (qr : Linesearch.Solve2) (fuel : ℕ) (sa : Strategy) (p : Params) (e : Env X V W D G)
    (n : ℕ) (s : St X V W G) :
    s.alphas <+: (outer qr fuel sa p e n s).state.alphas ∧
    (0 < n → s.numIters < p.maxIters →
      (innerLoop qr fuel sa p e s).state.alphas <+: (outer qr fuel sa p e n s).state.alphas) := by
  induction n generalizing s with
  | zero => exact ⟨List.prefix_rfl, fun h => absurd h (lt_irrefl _)⟩
  | succ n ih =>
    have key : s.numIters < p.maxIters →
        (innerLoop qr fuel sa p e s).state.alphas <+: (outer qr fuel sa p e (n + 1) s).state.alphas := by
      intro hlt
      unfold outer
      rw [if_pos hlt]
      cases hi : innerLoop qr fuel sa p e s with
      | raised t => exact List.prefix_rfl
      | stuck t => exact List.prefix_rfl
      | done b t =>
        cases b with
        | false => exact List.prefix_rfl
        | true =>
          simp only
          split
          · split
            · exact List.prefix_rfl
            · rename_i T hT
              have e1 : T.alphas = t.alphas := tighten_alphas p fuel { t with ls := t.ls.reset } T hT
              split
              · show t.alphas <+: T.alphas
                rw [e1]
              · have := (ih (clamp p { T with prevV := e.nextV T.x T.ws })).1
                show t.alphas <+: _
                rw [← e1]
                exact this
          · have := (ih (clamp p (onFailure p { t with ls := t.ls.reset }))).1
            refine List.IsPrefix.trans ?_ this
            show t.alphas <+: (onFailure p { t with ls := t.ls.reset }).alphas
            rw [onFailure_alphas]
    refine ⟨?_, fun _ => key⟩
    by_cases hlt : s.numIters < p.maxIters
    · exact (innerLoop_alphas qr fuel sa p e s).trans (key hlt)
    · unfold outer
      rw [if_neg hlt]
      exact List.prefix_rfl

/-- The state in which the first search of an inner loop starts. -/
noncomputable def searchState (p : Params) (e : Env X V W D G) (w : W) (pr : ℝ) (gn : G) (t : St X V W G) : St X V W G :=
  { t with
    ws := w, prim := pr, merit := e.merit t.mu t.x w, crit := e.innerCrit t.x w, dual := e.dualInf t.x
    preg := max p.regInit p.regMin, gains := gn, solves := t.solves + 1 }

/-- What follows a search. -/
noncomputable def afterSearch (qr : Linesearch.Solve2) (fuel : ℕ) (sa : Strategy) (p : Params) (e : Env X V W D G) (n : ℕ)
    (d : D) (s : St X V W G) : Option Search → Out X V W G
  | none => .stuck s
  | some r =>
    let s := { r.calls.foldl (forwardPass e d) s with ls := r.ls, filter := r.filter }
    match r.ret with
    | .throws => .raised s
    | .nan => .raised { s with x := s.trial }
    | .ok a phi =>
      let s := { s with x := s.trial, merit := phi, alphas := s.alphas ++ [a] }
      open Classical in
      if a ≤ p.alphaMin then
        if p.regMax ≤ s.preg then .done false s
        else
          let s := increaseRegularization p s
          innerIter qr fuel sa p e n { s with pregLast := s.preg, numIters := s.numIters + 1 }
      else innerIter qr fuel sa p e n { s with pregLast := s.preg, numIters := s.numIters + 1 }

theorem innerIter_succ (qr : Linesearch.Solve2) (fuel : ℕ) (sa : Strategy) (p : Params) (e : Env X V W D G) (n : ℕ)
    (s : St X V W G) {d : D} {gn : G} {dphi0 : ℝ}
    (hb : ¬ (e.innerCrit s.x s.ws ≤ s.innerTol ∨ (e.dualInf s.x ≤ p.targetDual ∧ s.prim ≤ p.targetTol)))
    (hl : e.lin s.x s.ws s.mu (initializeRegularization p s).preg = some (d, gn, dphi0)) (hd : p.dphiThresh < |dphi0|) :
    innerIter qr fuel sa p e (n + 1) s =
      afterSearch qr fuel sa p e n d
        { s with
          crit := e.innerCrit s.x s.ws, dual := e.dualInf s.x, preg := (initializeRegularization p s).preg
          gains := gn, solves := s.solves + 1 }
        (search qr fuel sa e
          { s with
            crit := e.innerCrit s.x s.ws, dual := e.dualInf s.x, preg := (initializeRegularization p s).preg
            gains := gn, solves := s.solves + 1 } d dphi0) := by
  conv_lhs => unfold innerIter
  dsimp only
  rw [if_neg hb]
  have hI : ∀ t : St X V W G, initializeRegularization p t = { t with preg := (initializeRegularization p t).preg } :=
    fun t => rfl
  have hl' : e.lin s.x s.ws s.mu
      (initializeRegularization p { s with crit := e.innerCrit s.x s.ws, dual := e.dualInf s.x }).preg =
      some (d, gn, dphi0) := hl
  rw [hI]
  dsimp only
  rw [hl']
  dsimp only
  rw [if_neg (not_le.2 hd)]
  unfold afterSearch
  rfl

theorem innerLoop_first {p : Params} {e : Env X V W D G} {g : X} {w : W} {pr : ℝ} {d : D} {gn : G} {dphi0 : ℝ}
    (h : FirstStep p e g w pr d gn dphi0) (qr : Linesearch.Solve2) (fuel : ℕ) (sa : Strategy) (s : St X V W G) :
    innerLoop qr fuel sa p e (initRun p e g s) =
      afterSearch qr fuel sa p e (p.maxIters - 1) d (searchState p e w pr gn (initRun p e g s))
        (search qr fuel sa e (searchState p e w pr gn (initRun p e g s)) d dphi0) := by
  have h1 : (initRun p e g s).x = g := rfl
  have h2 : (initRun p e g s).mu = mu0 p := rfl
  have h3 : (initRun p e g s).prevV = e.vs g := rfl
  have h4 : (initRun p e g s).pregLast = 0 := rfl
  have h5 : (initRun p e g s).innerTol = max (p.innerTol0 * (min (mu0 p) 0.99) ^ p.dualAlpha) p.targetDual := rfl
  have h6 : (initRun p e g s).numIters = 0 := rfl
  generalize initRun p e g s = t at *
  have hE : evaluateIterate e t = { t with ws := w, prim := pr, merit := e.merit t.mu t.x w } := by
    unfold evaluateIterate
    rw [h1, h2, h3, h.mult]
  have hk : p.maxIters - t.numIters = (p.maxIters - 1) + 1 := by
    have := h.iters
    omega
  unfold innerLoop
  rw [hE, hk]
  have hreg : (initializeRegularization p { t with ws := w, prim := pr, merit := e.merit t.mu t.x w }).preg =
      max p.regInit p.regMin := by
    unfold initializeRegularization
    simp only [h4, if_true]
  rw [innerIter_succ qr fuel sa p e (p.maxIters - 1) _ (d := d) (gn := gn) (dphi0 := dphi0)
    (by dsimp only; rw [h1, h5]; exact h.busy) (by rw [hreg]; dsimp only; rw [h1, h2]; exact h.lin) h.slope, hreg]
  rfl

theorem afterSearch_alphas (qr : Linesearch.Solve2) (fuel : ℕ) (sa : Strategy) (p : Params) (e : Env X V W D G) (n : ℕ)
    (d : D) (s : St X V W G) (r : Search) {a phi : ℝ} (hr : r.ret = .ok a phi) :
    s.alphas ++ [a] <+: (afterSearch qr fuel sa p e n d s (some r)).state.alphas := by
  have hc : (r.calls.foldl (forwardPass e d) s).alphas = s.alphas := fold_alphas e d r.calls s
  unfold afterSearch
  simp only [hr]
  split
  · split
    · exact prefix_of_eq (congrArg (· ++ [a]) hc)
    · refine List.IsPrefix.trans ?_ (innerIter_alphas qr fuel sa p e n _)
      exact prefix_of_eq (congrArg (· ++ [a]) hc)
  · refine List.IsPrefix.trans ?_ (innerIter_alphas qr fuel sa p e n _)
    exact prefix_of_eq (congrArg (· ++ [a]) hc)

theorem afterSearch_mem (P : LS → Filter.State ℝ → Prop) (qr : Linesearch.Solve2) (fuel : ℕ) (sa : Strategy) (p : Params)
    (e : Env X V W D G)
    (hs : ∀ (s : St X V W G) d dphi0 r, P s.ls s.filter → search qr fuel sa e s d dphi0 = some r → P r.ls r.filter)
    (n : ℕ) (d : D) (s : St X V W G) (r : Search) (h : P r.ls r.filter) :
    P (afterSearch qr fuel sa p e n d s (some r)).state.ls (afterSearch qr fuel sa p e n d s (some r)).state.filter := by
  unfold afterSearch
  dsimp only
  split
  · exact h
  · exact h
  · split
    · split
      · exact h
      · exact innerIter_mem P qr fuel sa p e hs n _ h
    · exact innerIter_mem P qr fuel sa p e hs n _ h

/-- The first step of a run, and what its search leaves in the memory. -/
theorem run_first {p : Params} {e : Env X V W D G} {g : X} {w : W} {pr : ℝ} {d : D} {gn : G} {dphi0 : ℝ}
    (h : FirstStep p e g w pr d gn dphi0) (qr : Linesearch.Solve2) (fuel : ℕ) (sa : Strategy) (s : St X V W G) (r : Search)
    (hr : search qr fuel sa e (searchState p e w pr gn (initRun p e g s)) d dphi0 = some r) :
    (∀ a phi, r.ret = .ok a phi → (run qr fuel sa p e g s).state.alphas.head? = some a) ∧
    (∀ P : LS → Filter.State ℝ → Prop,
      (∀ (s : St X V W G) d dphi0 r, P s.ls s.filter → search qr fuel sa e s d dphi0 = some r → P r.ls r.filter) →
      (∀ l f, P l f → P l.reset f) → P r.ls r.filter →
      P (run qr fuel sa p e g s).state.ls (run qr fuel sa p e g s).state.filter) := by
  have hL := innerLoop_first h qr fuel sa s
  rw [hr] at hL
  refine ⟨fun a phi ha => ?_, fun P hs hres hP => ?_⟩
  · have h1 := (outer_alphas qr fuel sa p e p.maxAlIters (initRun p e g s)).2 h.alIters h.iters
    have h2 := afterSearch_alphas qr fuel sa p e (p.maxIters - 1) d (searchState p e w pr gn (initRun p e g s)) r ha
    rw [hL] at h1
    have h3 := h2.trans h1
    have h4 : (searchState p e w pr gn (initRun p e g s)).alphas = [] := rfl
    rw [h4] at h3
    obtain ⟨l, hl⟩ := h3
    unfold run
    rw [← hl]
    rfl
  · have h1 := afterSearch_mem P qr fuel sa p e hs (p.maxIters - 1) d (searchState p e w pr gn (initRun p e g s)) r hP
    rw [← hL] at h1
    obtain ⟨n, hn⟩ : ∃ n, p.maxAlIters = n + 1 := ⟨p.maxAlIters - 1, by have := h.alIters; omega⟩
    unfold run
    rw [hn]
    exact outer_mem_of_inner P qr fuel sa p e hs hres n _ h.iters h1

end Aligator.Reuse
