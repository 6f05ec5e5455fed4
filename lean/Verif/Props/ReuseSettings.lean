import Verif.Props.ReuseWitness
import Verif.Props.Linesearch

/-!
# C69, C16: settings changed between `setup` and `run`, and guesses that are not given
-/

namespace Aligator.Reuse

open ProxDDP (Params)

variable {X V W D G : Type}

/-! ## `alpha_min` -/

/-- The smallest step of the strategy `sa`, as it was when the strategy was set up. -/
def Floor (sa : Strategy) (m : ℝ) (l : LS) (f : Filter.State ℝ) : Prop :=
  match sa with
  | .filter => f.alphaMin = m
  | _ => match l with
    | .unset => True
    | .armijo o => o.alphaMin = m
    | .nonmonotone o _ => o.alphaMin = m

theorem acceptPair_alphaMin (f : Filter.State ℝ) (q : ℝ × ℝ) : (Filter.acceptPair f q).1.alphaMin = f.alphaMin := by
  unfold Filter.acceptPair
  split <;> rfl

theorem nmCalls_floor (o : Linesearch.Options) (m : ℝ) (phi : ℝ → Option ℝ) (dphi0 : ℝ) (n : ℕ) (a : ℝ) (c : List ℝ)
    {b v : ℝ} (h : nmCalls o m phi dphi0 n a = some (c, .ok b v)) : o.alphaMin ≤ b := by
  induction n generalizing a c with
  | zero => cases h
  | succ n ih =>
    unfold nmCalls at h
    split at h
    · rename_i ha
      split at h
      · split at h
        · injection h with h
          simp only [Prod.mk.injEq, Ret.ok.injEq] at h
          rw [← h.2.1]
          exact ha.le
        · obtain ⟨q, hq, hq'⟩ := Option.map_eq_some_iff.1 h
          simp only [Prod.mk.injEq] at hq'
          exact ih _ q.1 (by rw [hq]; exact congrArg some (Prod.ext rfl hq'.2))
      · obtain ⟨q, hq, hq'⟩ := Option.map_eq_some_iff.1 h
        simp only [Prod.mk.injEq] at hq'
        exact ih _ q.1 (by rw [hq]; exact congrArg some (Prod.ext rfl hq'.2))
    · split at h
      · injection h with h
        simp only [Prod.mk.injEq, Ret.ok.injEq] at h
        rw [← h.2.1]
        exact le_max_right _ _
      · injection h with h
        simp only [Prod.mk.injEq, reduceCtorEq, and_false] at h

theorem filterFirst_floor (phi : ℝ → Option (ℝ × ℝ)) (m : ℝ) (n : ℕ) (a : ℝ) (ha : m ≤ a) (c : List ℝ) {b : ℝ} {q : ℝ × ℝ}
    (h : filterFirst phi m n a = some (c, b, q)) : m ≤ b := by
  induction n generalizing a c with
  | zero => cases h
  | succ n ih =>
    unfold filterFirst at h
    split at h
    · injection h with h
      simp only [Prod.mk.injEq] at h
      rw [← h.2.1]
      exact ha
    · split at h
      · injection h with h
        simp only [Prod.mk.injEq] at h
        rw [← h.2.1]
      · rename_i hlt
        obtain ⟨r, hr, hr'⟩ := Option.map_eq_some_iff.1 h
        simp only [Prod.mk.injEq] at hr'
        exact ih _ (not_le.1 hlt).le r.1 (by rw [hr]; exact congrArg some (Prod.ext rfl hr'.2))

theorem filterLoop_floor (phi : ℝ → Option (ℝ × ℝ)) (n : ℕ) (s : Filter.State ℝ) (a : ℝ) (q : ℝ × ℝ) (ha : s.alphaMin ≤ a) :
    (filterLoop phi n s a q).2.1.alphaMin = s.alphaMin ∧
      ∀ b v, (filterLoop phi n s a q).2.2 = .ok b v → s.alphaMin ≤ b := by
  induction n generalizing a q with
  | zero =>
    refine ⟨rfl, fun b v h => ?_⟩
    unfold filterLoop at h
    simp only [Ret.ok.injEq] at h
    rw [← h.1]
    exact ha
  | succ n ih =>
    unfold filterLoop
    split
    · refine ⟨acceptPair_alphaMin _ _, fun b v h => ?_⟩
      simp only [Ret.ok.injEq] at h
      rw [← h.1]
      exact ha
    · split
      · split
        · exact ⟨rfl, fun b v h => by cases h⟩
        · refine ⟨rfl, fun b v h => ?_⟩
          simp only [Ret.ok.injEq] at h
          rw [← h.1]
      · rename_i hlt
        split
        · exact ⟨rfl, fun b v h => by cases h⟩
        · exact ih _ _ (not_le.1 hlt).le

/-- A search never returns a step below the bound with which it was set up, and does not change the bound. -/
theorem search_floor {qr : Linesearch.Solve2} {fuel : ℕ} {sa : Strategy} {e : Env X V W D G} {s : St X V W G} {d : D} {dphi0 m : ℝ}
    (hm : m ≤ 1) (hf : Floor sa m s.ls s.filter) {r : Search} (h : search qr fuel sa e s d dphi0 = some r) :
    Floor sa m r.ls r.filter ∧ ∀ a phi, r.ret = .ok a phi → m ≤ a := by
  have hls : ∀ {r : Search}, (match s.ls with | .unset => True | .armijo o => o.alphaMin = m | .nonmonotone o _ => o.alphaMin = m) →
      (match s.ls with
    | .unset => some ⟨[], .nan, s.ls, s.filter⟩
    | .armijo o =>
      match Linesearch.armijoRun o qr fuel (fun a => (e.pair s d a).map fun q => .fin q.1) s.merit dphi0 with
      | none => none
      | some (a, v, calls) =>
        some ⟨calls.reverse, match v with | .fin r => .ok a r | _ => .nan, s.ls, s.filter⟩
    | .nonmonotone o st =>
      match nmCalls o (st.update (17 / 20) s.merit).movAvg (fun a => (e.pair s d a).map Prod.fst) dphi0 fuel 1 with
      | none => none
      | some (c, r) => some ⟨c, r, .nonmonotone o (st.update (17 / 20) s.merit), s.filter⟩ : Option Search) = some r →
      (match r.ls with | .unset => True | .armijo o => o.alphaMin = m | .nonmonotone o _ => o.alphaMin = m) ∧
        ∀ a phi, r.ret = .ok a phi → m ≤ a := by
    intro r hf h
    cases hl : s.ls with
    | unset =>
      simp only [hl] at h
      injection h with h
      subst h
      exact ⟨trivial, fun a phi h => by cases h⟩
    | armijo o =>
      simp only [hl] at h hf
      split at h
      · cases h
      · rename_i a v calls hA
        injection h with h
        subst h
        refine ⟨hf, fun b phi hb => ?_⟩
        have := Linesearch.C22_step_at_least_alphaMin o qr fuel _ _ _ (by rw [hf]; exact hm) hA
        cases v with
        | fin r =>
          simp only [Ret.ok.injEq] at hb
          rw [← hb.1, ← hf]
          exact this
        | _ => cases hb
    | nonmonotone o st =>
      simp only [hl] at h hf
      split at h
      · cases h
      · rename_i c q hN
        injection h with h
        subst h
        refine ⟨hf, fun b phi hb => ?_⟩
        dsimp only at hb
        rw [hb] at hN
        rw [← hf]
        exact nmCalls_floor o _ _ _ _ _ _ hN
  cases sa with
  | armijo => exact hls hf h
  | nonmonotone => exact hls hf h
  | filter =>
    unfold search at h
    dsimp only at h
    split at h
    · cases h
    · rename_i c b q hF
      injection h with h
      subst h
      have hf' : s.filter.alphaMin = m := hf
      have hb : s.filter.alphaMin ≤ b := filterFirst_floor _ _ _ _ (by rw [hf']; exact hm) _ hF
      obtain ⟨h1, h2⟩ := filterLoop_floor (e.pair s d) s.filter.maxNumSteps s.filter b q hb
      exact ⟨h1.trans hf', fun a phi ha => hf' ▸ h2 a phi ha⟩

/-- Largest regularisation of a run that never raises it. -/
noncomputable def regStart (p : Params) : ℝ := max p.regInit p.regMin

/-- Nothing was raised so far. -/
structure Calm (sa : Strategy) (p : Params) (m : ℝ) (s : St X V W G) : Prop where
  floor : Floor sa m s.ls s.filter
  steps : ∀ a ∈ s.alphas, p.alphaMin < a
  last0 : 0 ≤ s.pregLast
  last : s.pregLast ≤ regStart p

theorem Calm.preg {sa : Strategy} {p : Params} {m : ℝ} {s : St X V W G} (h : Calm sa p m s) (hr : 0 ≤ p.regMin)
    (hd : p.regDec ≤ 1) : 0 ≤ (initializeRegularization p s).preg ∧ (initializeRegularization p s).preg ≤ regStart p := by
  unfold initializeRegularization regStart
  dsimp only
  split
  · exact ⟨hr.trans (le_max_right _ _), le_rfl⟩
  · refine ⟨hr.trans (le_max_left _ _), max_le (le_max_right _ _) ?_⟩
    have h1 := h.last0
    have h2 : s.pregLast * p.regDec ≤ s.pregLast * 1 := mul_le_mul_of_nonneg_left hd h1
    rw [mul_one] at h2
    exact h2.trans h.last

theorem fold_keeps (e : Env X V W D G) (d : D) (l : List ℝ) (s : St X V W G) :
    (l.foldl (forwardPass e d) s).pregLast = s.pregLast ∧ (l.foldl (forwardPass e d) s).preg = s.preg ∧
      (l.foldl (forwardPass e d) s).alphas = s.alphas ∧ (l.foldl (forwardPass e d) s).numIters = s.numIters ∧
      (l.foldl (forwardPass e d) s).alIter = s.alIter := by
  induction l generalizing s with
  | nil => exact ⟨rfl, rfl, rfl, rfl, rfl⟩
  | cons a l ih =>
    obtain ⟨h1, h2, h3, h4, h5⟩ := ih (forwardPass e d s a)
    have : (forwardPass e d s a).pregLast = s.pregLast ∧ (forwardPass e d s a).preg = s.preg ∧
        (forwardPass e d s a).alphas = s.alphas ∧ (forwardPass e d s a).numIters = s.numIters ∧
        (forwardPass e d s a).alIter = s.alIter := by
      unfold forwardPass
      split
      · exact ⟨rfl, rfl, rfl, rfl, rfl⟩
      · split <;> exact ⟨rfl, rfl, rfl, rfl, rfl⟩
    exact ⟨h1.trans this.1, h2.trans this.2.1, h3.trans this.2.2.1, h4.trans this.2.2.2.1, h5.trans this.2.2.2.2⟩

/-- Outcome of an inner loop that never raises the regularisation. -/
def CalmOut (sa : Strategy) (p : Params) (m : ℝ) (k : ℕ) : Out X V W G → Prop
  | .done b t => Calm sa p m t ∧ t.alIter = k ∧ t.numIters ≤ p.maxIters ∧ (b = false → t.numIters = p.maxIters)
  | .raised t => Calm sa p m t
  | .stuck t => Calm sa p m t

theorem innerIter_calm (qr : Linesearch.Solve2) (fuel : ℕ) {sa : Strategy} {p : Params} {m : ℝ} (hm : m ≤ 1) (hp : p.alphaMin < m)
    (hr : 0 ≤ p.regMin) (hd : p.regDec ≤ 1) (e : Env X V W D G) (n : ℕ) (s : St X V W G) (h : Calm sa p m s)
    (hn : s.numIters + n = p.maxIters) : CalmOut sa p m s.alIter (innerIter qr fuel sa p e n s) := by
  induction n generalizing s with
  | zero => exact ⟨h, rfl, hn.le, fun _ => hn⟩
  | succ n ih =>
    unfold innerIter
    dsimp only
    have hc : Calm sa p m { s with crit := e.innerCrit s.x s.ws, dual := e.dualInf s.x } := ⟨h.floor, h.steps, h.last0, h.last⟩
    split
    · exact ⟨hc, rfl, by show s.numIters ≤ _; omega, fun h => by cases h⟩
    · obtain ⟨hp0, hp1⟩ := hc.preg hr hd
      have hi : ∀ s : St X V W G, (initializeRegularization p s).ls = s.ls ∧ (initializeRegularization p s).filter = s.filter ∧
        (initializeRegularization p s).alphas = s.alphas ∧ (initializeRegularization p s).pregLast = s.pregLast ∧
        (initializeRegularization p s).numIters = s.numIters ∧ (initializeRegularization p s).alIter = s.alIter :=
        fun _ => ⟨rfl, rfl, rfl, rfl, rfl, rfl⟩
      have hc' : Calm sa p m (initializeRegularization p { s with crit := e.innerCrit s.x s.ws, dual := e.dualInf s.x }) :=
        ⟨hc.floor, hc.steps, hc.last0, hc.last⟩
      have hni : (initializeRegularization p { s with crit := e.innerCrit s.x s.ws, dual := e.dualInf s.x }).numIters + (n + 1) =
        p.maxIters := hn
      have hal : (initializeRegularization p { s with crit := e.innerCrit s.x s.ws, dual := e.dualInf s.x }).alIter = s.alIter := rfl
      generalize initializeRegularization p { s with crit := e.innerCrit s.x s.ws, dual := e.dualInf s.x } = u at hp0 hp1 hc' hni hal ⊢
      split
      · exact hc'
      · rename_i d g dphi0 _
        have hg : Calm sa p m { u with gains := g, solves := u.solves + 1 } := ⟨hc'.floor, hc'.steps, hc'.last0, hc'.last⟩
        split
        · exact ⟨hg, hal, by show u.numIters ≤ _; omega, fun h => by cases h⟩
        · split
          · exact hg
          · rename_i r hS
            obtain ⟨hf, ha⟩ := search_floor hm hg.floor hS
            obtain ⟨k1, k2, k3, k4, k5⟩ := fold_keeps e d r.calls { u with gains := g, solves := u.solves + 1 }
            generalize r.calls.foldl (forwardPass e d) { u with gains := g, solves := u.solves + 1 } = w at k1 k2 k3 k4 k5 ⊢
            dsimp only at k1 k2 k3 k4 k5
            split
            · exact ⟨hf, by dsimp only; rw [k3]; exact hc'.steps, by dsimp only; rw [k1]; exact hc'.last0, by dsimp only; rw [k1]; exact hc'.last⟩
            · exact ⟨hf, by dsimp only; rw [k3]; exact hc'.steps, by dsimp only; rw [k1]; exact hc'.last0, by dsimp only; rw [k1]; exact hc'.last⟩
            · rename_i a phi hret
              have hlt : p.alphaMin < a := lt_of_lt_of_le hp (ha a phi hret)
              rw [if_neg (not_le.2 hlt)]
              have := ih { w with ls := r.ls, filter := r.filter, x := w.trial, merit := phi, alphas := w.alphas ++ [a]
                                  pregLast := w.preg, numIters := w.numIters + 1 }
                ⟨hf, by
                  intro b hb
                  rcases List.mem_append.1 hb with hb | hb
                  · rw [k3] at hb; exact hc'.steps b hb
                  · rw [List.mem_singleton.1 hb]; exact hlt,
                  by dsimp only; rw [k2]; exact hp0, by dsimp only; rw [k2]; exact hp1⟩
                (by dsimp only; rw [k4]; omega)
              have he : s.alIter = w.alIter := by rw [k5, hal]
              rw [he]
              exact this

theorem tighten_keeps {p : Params} {n : ℕ} {s t : St X V W G} (h : tighten p n s = some t) :
    t.ls = s.ls ∧ t.filter = s.filter ∧ t.alphas = s.alphas ∧ t.pregLast = s.pregLast ∧ t.numIters = s.numIters ∧
      t.alIter = s.alIter := by
  induction n generalizing s with
  | zero => cases h
  | succ n ih =>
    unfold tighten at h
    dsimp only at h
    split at h
    · exact ih (s := updateTolsOnSuccess p s) h
    · injection h with h
      subst h
      exact ⟨rfl, rfl, rfl, rfl, rfl, rfl⟩

theorem outer_calm (qr : Linesearch.Solve2) (fuel : ℕ) {sa : Strategy} {p : Params} {m : ℝ} (hm : m ≤ 1) (hp : p.alphaMin < m)
    (hr : 0 ≤ p.regMin) (hd : p.regDec ≤ 1) (e : Env X V W D G) (n : ℕ) (s : St X V W G) (h : Calm sa p m s)
    (hn : s.alIter + n = p.maxAlIters) (hi : s.numIters ≤ p.maxIters) :
    Calm sa p m (outer qr fuel sa p e n s).state ∧
      ∀ t, outer qr fuel sa p e n s = .done false t → t.numIters = p.maxIters ∨ t.alIter = p.maxAlIters := by
  induction n generalizing s with
  | zero => exact ⟨h, fun t ht => by injection ht with _ ht; subst ht; exact Or.inr hn⟩
  | succ n ih =>
    unfold outer
    split
    · rename_i hlt
      have hE : Calm sa p m (evaluateIterate e s) := by
        unfold evaluateIterate
        split <;> exact ⟨h.floor, h.steps, h.last0, h.last⟩
      have hEn : (evaluateIterate e s).numIters = s.numIters ∧ (evaluateIterate e s).alIter = s.alIter := by
        unfold evaluateIterate
        split <;> exact ⟨rfl, rfl⟩
      have hL : CalmOut sa p m s.alIter (innerLoop qr fuel sa p e s) := by
        have := innerIter_calm qr fuel hm hp hr hd e (p.maxIters - s.numIters) (evaluateIterate e s) hE (by rw [hEn.1]; omega)
        rw [hEn.2] at this
        exact this
      cases hO : innerLoop qr fuel sa p e s with
      | raised t => rw [hO] at hL; exact ⟨hL, fun t ht => by cases ht⟩
      | stuck t => rw [hO] at hL; exact ⟨hL, fun t ht => by cases ht⟩
      | done b t =>
        rw [hO] at hL
        obtain ⟨hc, hk, hLn', hb⟩ := hL
        cases b with
        | false =>
          refine ⟨⟨hc.floor, hc.steps, hc.last0, hc.last⟩, fun t' ht => ?_⟩
          injection ht with _ ht
          subst ht
          exact Or.inl (hb rfl)
        | true =>
          dsimp only
          have hfl : Floor sa m t.ls.reset t.filter := by
            have := hc.floor
            cases sa with
            | filter => exact this
            | armijo => cases hl : t.ls <;> simp only [hl, Floor, LS.reset] at this ⊢ <;> exact this
            | nonmonotone => cases hl : t.ls <;> simp only [hl, Floor, LS.reset] at this ⊢ <;> exact this
          split
          · split
            · exact ⟨⟨hfl, hc.steps, hc.last0, hc.last⟩, fun t ht => by cases ht⟩
            · rename_i u hu
              have hT := tighten_keeps hu
              dsimp only at hT
              have hcu : Calm sa p m u := ⟨by rw [hT.1, hT.2.1]; exact hfl, by rw [hT.2.2.1]; exact hc.steps,
                by rw [hT.2.2.2.1]; exact hc.last0, by rw [hT.2.2.2.1]; exact hc.last⟩
              split
              · exact ⟨⟨hcu.floor, hcu.steps, hcu.last0, hcu.last⟩, fun t ht => by cases ht⟩
              · refine ih _ ⟨hcu.floor, hcu.steps, hcu.last0, hcu.last⟩ ?_ ?_
                · show u.alIter + 1 + n = _
                  rw [hT.2.2.2.2.2, hk]
                  omega
                · show u.numIters ≤ _
                  rw [hT.2.2.2.2.1]
                  exact hLn'
          · have hF : ∀ u : St X V W G, (onFailure p u).ls = u.ls ∧ (onFailure p u).filter = u.filter ∧ (onFailure p u).alphas = u.alphas ∧
                (onFailure p u).pregLast = u.pregLast ∧ (onFailure p u).numIters = u.numIters ∧ (onFailure p u).alIter = u.alIter := by
              intro u
              unfold onFailure
              dsimp only
              split <;> exact ⟨rfl, rfl, rfl, rfl, rfl, rfl⟩
            obtain ⟨f1, f2, f3, f4, f5, f6⟩ := hF { t with ls := t.ls.reset }
            dsimp only at f1 f2 f3 f4 f5 f6
            generalize onFailure p { t with ls := t.ls.reset } = u at f1 f2 f3 f4 f5 f6 ⊢
            refine ih _ ⟨?_, ?_, ?_, ?_⟩ ?_ ?_
            · show Floor sa m u.ls u.filter
              rw [f1, f2]
              exact hfl
            · show ∀ a ∈ u.alphas, _
              rw [f3]
              exact hc.steps
            · show 0 ≤ u.pregLast
              rw [f4]
              exact hc.last0
            · show u.pregLast ≤ _
              rw [f4]
              exact hc.last
            · show u.alIter + 1 + n = _
              rw [f6, hk]
              omega
            · show u.numIters ≤ _
              rw [f5]
              exact hLn'
    · rename_i hge
      exact ⟨h, fun t ht => by injection ht with _ ht; subst ht; exact Or.inl (by omega)⟩

/-- **C69** (negative): a bound `alpha_min` lowered after `setup` is seen by the solver but not by the line search or the
filter.  The searches stop at the old bound, which the solver takes for a successful step: in no run, on any problem, is
the regularisation raised, and a run that does not converge always uses up its iterations. -/
theorem C69_alpha_min_lowered_after_setup (qr : Linesearch.Solve2) (fuel : ℕ) (sa : Strategy) (o : Linesearch.Options) (p : Params)
    (e e0 : Env X V W D G) (g : X) (s : St X V W G) (cs : List (Call X V W D G)) (ho : o.alphaMin ≤ 1) (hp : p.alphaMin < o.alphaMin)
    (hr : 0 ≤ p.regMin) (hd : p.regDec ≤ 1) :
    let r := run qr fuel sa p e g (cs.foldl (Call.after qr fuel sa) (setup sa o e0 s))
    (∀ a ∈ r.state.alphas, p.alphaMin < a) ∧ r.state.pregLast ≤ max p.regInit p.regMin ∧
      ∀ t, r = .done false t → t.numIters = p.maxIters ∨ t.alIter = p.maxAlIters := by
  have hfl : ∀ (cs : List (Call X V W D G)) (u : St X V W G), Floor sa o.alphaMin u.ls u.filter →
      Floor sa o.alphaMin (cs.foldl (Call.after qr fuel sa) u).ls (cs.foldl (Call.after qr fuel sa) u).filter := by
    intro cs
    induction cs with
    | nil => exact fun u h => h
    | cons c cs ih =>
      intro u h
      refine ih _ ?_
      cases c with
      | cycle f => exact h
      | run p e g =>
        refine run_mem (fun l f => Floor sa o.alphaMin l f) qr fuel sa p e ?_ ?_ g u h
        · exact fun s d dphi0 r hs hr => (search_floor ho hs hr).1
        · intro l f hl
          cases sa with
          | filter => exact hl
          | armijo => cases l <;> exact hl
          | nonmonotone => cases l <;> exact hl
  have h0 : Floor sa o.alphaMin (setup sa o e0 s).ls (setup sa o e0 s).filter := by cases sa <;> rfl
  have := outer_calm qr fuel ho hp hr hd e p.maxAlIters (initRun p e g (cs.foldl (Call.after qr fuel sa) (setup sa o e0 s)))
    ⟨hfl cs _ h0, fun a ha => absurd ha List.not_mem_nil, le_rfl, hr.trans (le_max_right _ _)⟩ (by show 0 + _ = _; omega) (Nat.zero_le _)
  exact ⟨this.1.steps, this.1.last, this.2⟩

/-! ## Tolerances -/

theorem apply_run_sync {s : Tols} (h : s.sync = true) : TolOp.apply s .run = { s with dual := s.target } := by
  show (if s.sync = true then _ else _) = _
  rw [if_pos h]

theorem apply_run_manual {s : Tols} (h : s.sync = false) : TolOp.apply s .run = s := by
  show (if s.sync = true then _ else _) = _
  rw [if_neg (by rw [h]; exact Bool.false_ne_true)]

theorem apply_run_target (s : Tols) : (TolOp.apply s .run).target = s.target := by
  cases h : s.sync
  · rw [apply_run_manual h]
  · rw [apply_run_sync h]

theorem tols_fold (s : Tols) (ops : List TolOp) : (ops.foldl TolOp.apply s).target = lastTarget s.target ops := by
  induction ops generalizing s with
  | nil => rfl
  | cons c ops ih =>
    rw [List.foldl_cons, ih]
    cases c with
    | setTarget t => rfl
    | setDual t => rfl
    | run => rw [apply_run_target]; rfl

theorem tols_manual (d : ℝ) (s : Tols) (hs : s.sync = false) (hd : s.dual = d) (ops : List TolOp) :
    (ops.foldl TolOp.apply s).sync = false ∧ some (ops.foldl TolOp.apply s).dual = lastDual (some d) ops := by
  induction ops generalizing s d with
  | nil => exact ⟨hs, congrArg some hd⟩
  | cons c ops ih =>
    rw [List.foldl_cons]
    cases c with
    | setTarget t => exact ih d _ hs hd
    | setDual t => exact ih t _ rfl rfl
    | run =>
      rw [apply_run_manual hs]
      exact ih d s hs hd

theorem tols_run (s : Tols) (hs : s.sync = true) (ops : List TolOp) :
    (TolOp.apply (ops.foldl TolOp.apply s) .run).dual = (lastDual none ops).getD (lastTarget s.target ops) := by
  induction ops generalizing s with
  | nil =>
    show (TolOp.apply s .run).dual = s.target
    rw [apply_run_sync hs]
  | cons c ops ih =>
    rw [List.foldl_cons]
    cases c with
    | setTarget t => exact ih _ hs
    | setDual t =>
      obtain ⟨h1, h2⟩ := tols_manual t (TolOp.apply s (.setDual t)) rfl rfl ops
      rw [apply_run_manual h1]
      have h4 : lastDual none (.setDual t :: ops) = lastDual (some t) ops := rfl
      rw [h4, ← h2]
      rfl
    | run =>
      have := ih (TolOp.apply s .run) (by rw [apply_run_sync hs]; exact hs)
      rw [apply_run_target] at this
      exact this

/-- **C16**: whatever was done with the tolerances of a solver, a run that returns true has reached the value last
assigned to `target_tol_` and, for the gradient of the Lagrangian, the value last given to `setDualTolerance`, or
`target_tol_` if there was none. -/
theorem C16_requested_tolerances_partial (qr : Linesearch.Solve2) (fuel : ℕ) (sa : Strategy) (p : Params) (tol : ℝ) (ops : List TolOp)
    (e : Env X V W D G) (hT : Total e) (g : X) (viol : X → ℝ)
    (hv : ∀ mu v x w r, e.mult mu v x = some (w, r) → viol x ≤ r) (s t : St X V W G)
    (h : run qr fuel sa ((ops.foldl TolOp.apply (.ctor tol)).params p) e g s = .done true t) :
    viol t.x ≤ lastTarget tol ops ∧ e.dualInf t.x ≤ (lastDual none ops).getD (lastTarget tol ops) := by
  have := (C16_used_solver_partial qr fuel sa _ e hT g viol hv s true t h).1 rfl
  have e1 : ((ops.foldl TolOp.apply (.ctor tol)).params p).targetTol = lastTarget tol ops := by
    show (TolOp.apply (ops.foldl TolOp.apply (.ctor tol)) .run).target = _
    rw [apply_run_target]
    exact tols_fold (.ctor tol) ops
  have e2 : ((ops.foldl TolOp.apply (.ctor tol)).params p).targetDual = (lastDual none ops).getD (lastTarget tol ops) :=
    tols_run (.ctor tol) rfl ops
  rw [e1, e2] at this
  exact this

/-- **C16** (negative): until the next run `getDualTolerance` reports a value that no run will use; and once
`setDualTolerance` was called no assignment to `target_tol_` changes the tolerance of the gradient any more. -/
theorem C16_dual_tolerance_settings :
    (∃ tol t, (TolOp.apply (.ctor tol) (.setTarget t)).getDual ≠
      (TolOp.apply (TolOp.apply (.ctor tol) (.setTarget t)) .run).getDual) ∧
    ∀ (s : Tols) (d : ℝ) (ops : List TolOp), (∀ c ∈ ops, ∀ t, c ≠ .setDual t) →
      (TolOp.apply (ops.foldl TolOp.apply (TolOp.apply s (.setDual d))) .run).getDual = d := by
  refine ⟨⟨1, 2, ?_⟩, ?_⟩
  · show (1 : ℝ) ≠ 2
    norm_num
  · intro s d ops ho
    obtain ⟨h1, h2⟩ := tols_manual d (TolOp.apply s (.setDual d)) rfl rfl ops
    have h3 : ∀ ops : List TolOp, (∀ c ∈ ops, ∀ t, c ≠ .setDual t) → lastDual (some d) ops = some d := by
      intro ops
      induction ops with
      | nil => exact fun _ => rfl
      | cons c ops ih =>
        intro h
        have := ih fun c hc => h c (List.mem_cons_of_mem _ hc)
        cases c with
        | setTarget t => exact this
        | run => exact this
        | setDual t => exact absurd rfl (h _ List.mem_cons_self t)
    rw [h3 ops ho] at h2
    rw [apply_run_manual h1]
    exact Option.some.inj h2

/-! ## Concrete runs -/

namespace Witness

/-- `alpha_min = 1/4` when the solver is set up. -/
noncomputable def coarse : Linesearch.Options := { opts with alphaMin := 1 / 4 }

/-- Settings of the run, `alpha_min = m`. -/
noncomputable def parA (m : ℝ) : Params := { par 1 with alphaMin := m }

/-- `quad` with a step along which the merit function increases. -/
noncomputable def uphill : Env ℝ Unit Unit ℝ Unit := { quad with lin := fun _ _ _ _ => some (1, (), -1) }

theorem uphill_first (m : ℝ) : FirstStep (parA m) uphill 1 () 0 1 () (-1) :=
  ⟨Nat.one_pos, Nat.one_pos, rfl, (quad_first 1 Nat.one_pos).busy, rfl, by show (1 / 10000000000000 : ℝ) < |-1|; norm_num⟩

theorem uphill_search (qr : Linesearch.Solve2) (fuel : ℕ) (m : ℝ) (s : St ℝ Unit Unit Unit) (h1 : s.x = 1) (h2 : s.merit = 1 / 2)
    (h3 : s.ls = .nonmonotone coarse .reset) :
    ∃ phi l f, search qr (fuel + 3) .nonmonotone uphill s 1 (-1) = some ⟨[1, 1 / 2, 1 / 4], .ok (1 / 4) phi, l, f⟩ := by
  have hphi : ∀ a : ℝ, (uphill.pair s 1 a).map Prod.fst = some ((1 + a) ^ 2 / 2) := by
    intro a
    show some ((s.x + a * 1) ^ 2 / 2) = _
    rw [h1, mul_one]
  have hmv : (Linesearch.NMSt.reset.update (17 / 20) s.merit).movAvg = 1 / 2 := by
    rw [h2]
    norm_num [Linesearch.NMSt.update, Linesearch.NMSt.reset]
  unfold search
  simp only [h3]
  rw [hmv, funext hphi]
  have c1 : coarse.alphaMin = 1 / 4 := rfl
  have c2 : coarse.armijoC1 = 1 / 10000 := rfl
  have hn : nmCalls coarse (1 / 2) (fun a => some ((1 + a) ^ 2 / 2)) (-1) (fuel + 3) 1 =
      some ([1, 1 / 2, 1 / 4], .ok (1 / 4) ((1 + 1 / 4) ^ 2 / 2)) := by
    unfold nmCalls
    dsimp only
    rw [c1, c2, if_pos (by norm_num), if_neg (by norm_num)]
    unfold nmCalls
    dsimp only
    rw [c1, c2, if_pos (by norm_num), if_neg (by norm_num)]
    unfold nmCalls
    dsimp only
    rw [c1, if_neg (by norm_num)]
    norm_num
  rw [hn]
  exact ⟨_, _, _, rfl⟩

/-- On `uphill` the regularisation is raised a hundredfold when `alpha_min` is what it was in `setup`, and stays if it was
lowered in between. -/
theorem C69_alpha_min_example (qr : Linesearch.Solve2) (fuel : ℕ) (s : St ℝ Unit Unit Unit) :
    (∃ t, run qr (fuel + 3) .nonmonotone (parA (1 / 4)) uphill 1 (setup .nonmonotone coarse quad s) = .done false t ∧
      t.pregLast = 100 / 7) ∧
    ∃ t, run qr (fuel + 3) .nonmonotone (parA (1 / 8)) uphill 1 (setup .nonmonotone coarse quad s) = .done false t ∧
      t.pregLast = 1 / 7 := by
  have key : ∀ m : ℝ, ∃ t, run qr (fuel + 3) .nonmonotone (parA m) uphill 1 (setup .nonmonotone coarse quad s) = .done false t ∧
      t.pregLast = if 1 / 4 ≤ m then 100 / 7 else 1 / 7 := by
    intro m
    have hL := innerLoop_first (uphill_first m) qr (fuel + 3) .nonmonotone (setup .nonmonotone coarse quad s)
    obtain ⟨phi, l, f, hS⟩ := uphill_search qr fuel m
      (searchState (parA m) uphill () 0 () (initRun (parA m) uphill 1 (setup .nonmonotone coarse quad s))) rfl
      (by show (1 : ℝ) ^ 2 / 2 = _; norm_num) rfl
    rw [hS] at hL
    have hp : ∀ u : St ℝ Unit Unit Unit, ([1, 1 / 2, 1 / 4] : List ℝ).foldl (forwardPass uphill 1) u =
        { u with trial := u.x + 1 / 4 * 1, ws := (), prim := 0 } := fun u => rfl
    have hpr : (searchState (parA m) uphill () 0 () (initRun (parA m) uphill 1 (setup .nonmonotone coarse quad s))).preg = 1 / 7 := by
      show max (1 / 7 : ℝ) (1 / 1000) = _
      norm_num
    have hpl : (searchState (parA m) uphill () 0 () (initRun (parA m) uphill 1 (setup .nonmonotone coarse quad s))).pregLast = 0 := rfl
    unfold run
    show ∃ t, outer qr (fuel + 3) .nonmonotone (parA m) uphill 1 _ = _ ∧ _
    unfold outer
    rw [if_pos (by show 0 < 1; exact Nat.one_pos), hL]
    unfold afterSearch
    dsimp only
    rw [hp]
    have hz : (parA m).maxIters - 1 = 0 := rfl
    have ham : (parA m).alphaMin = m := rfl
    rw [hz, ham]
    by_cases hm : 1 / 4 ≤ m
    · rw [if_pos hm, if_pos hm, if_neg (fun hh => by
        have hh' : (1000000000 : ℝ) ≤ 1 / 7 := le_trans hh (le_of_eq hpr)
        norm_num at hh')]
      refine ⟨_, rfl, ?_⟩
      unfold increaseRegularization
      dsimp only
      rw [if_pos hpl, hpr]
      show (1 / 7 : ℝ) * 100 = _
      norm_num
    · rw [if_neg hm, if_neg hm]
      exact ⟨_, rfl, hpr⟩
  refine ⟨?_, ?_⟩
  · obtain ⟨t, h1, h2⟩ := key (1 / 4)
    exact ⟨t, h1, by rw [h2, if_pos le_rfl]⟩
  · obtain ⟨t, h1, h2⟩ := key (1 / 8)
    exact ⟨t, h1, by rw [h2, if_neg (by norm_num)]⟩

/-- The hypotheses of `C69_alpha_min_lowered_after_setup` hold in this example. -/
example (qr : Linesearch.Solve2) (fuel : ℕ) (s : St ℝ Unit Unit Unit) :
    (run qr fuel .nonmonotone (parA (1 / 8)) uphill 1 (setup .nonmonotone coarse quad s)).state.pregLast ≤ max (1 / 7) (1 / 1000) :=
  (C69_alpha_min_lowered_after_setup qr fuel .nonmonotone coarse (parA (1 / 8)) uphill quad 1 s []
    (by show (1 / 4 : ℝ) ≤ 1; norm_num) (by show (1 / 8 : ℝ) < 1 / 4; norm_num) (by show (0 : ℝ) ≤ 1 / 1000; norm_num)
    (by show (1 / 3 : ℝ) ≤ 1; norm_num)).2.1

/-- The hypotheses of `C16_requested_tolerances_partial` hold: tolerances `1/4`, set after construction with `1`. -/
example (qr : Linesearch.Solve2) (n : ℕ) (s : St ℝ Unit Unit Unit) :
    ∃ t, run qr 20 .filter (([TolOp.setTarget (1 / 4)].foldl TolOp.apply (.ctor 1)).params (par 2)) quad 1 (setup .filter opts quad s) =
        .done true t ∧ |t.x| ≤ 1 / 4 := by
  have e1 : (([TolOp.setTarget (1 / 4)].foldl TolOp.apply (.ctor 1)).params (par 2)) = par 2 := rfl
  rw [e1]
  obtain ⟨t, h1, -⟩ := first_run qr 17 0 (setup .filter opts quad s) rfl
  exact ⟨t, h1, (C16_requested_tolerances_partial qr 20 .filter (par 2) 1 [.setTarget (1 / 4)] quad quad_total 1 (fun _ => 0)
    (fun mu v x w r h => by
      have : some ((), (0 : ℝ)) = some (w, r) := h
      simp only [Option.some.injEq, Prod.mk.injEq] at this
      exact this.2.le) _ t h1).2⟩

/-- A problem whose multipliers decide about convergence: the gradient of the Lagrangian at `(x, v)` is `x + v`. -/
noncomputable def held : Env (ℝ × ℝ × Unit) Unit Unit Unit Unit where
  vs _ := ()
  mult _ _ _ := some ((), 0)
  multNaN _ _ _ _ := ()
  merit _ _ _ := 0
  dualInf x := |x.1 + x.2.1|
  innerCrit x _ := |x.1 + x.2.1|
  nextV _ _ := ()
  lin _ _ _ _ := some ((), (), 0)
  point x _ _ := .ok x
  prime t := t
  fresh := ((0, 0, ()), (0, 0, ()), (), (), ())

theorem held_tols (g : ℝ × ℝ × Unit) (s : St (ℝ × ℝ × Unit) Unit Unit Unit) :
    (initRun (par 1) held g s).innerTol = 1 / 2 ∧ (initRun (par 1) held g s).primTol = 1 / 2 ∧ (initRun (par 1) held g s).mu = 1 / 2 := by
  refine ⟨?_, ?_, ?_⟩
  · show max ((1 : ℝ) * (min (max (1 / 2) (1 / 16)) 0.99) ^ (1 : ℝ)) (1 / 4) = 1 / 2
    norm_num
  · show max ((1 : ℝ) * (min (max (1 / 2) (1 / 16)) 0.99) ^ (1 : ℝ)) (1 / 4) = 1 / 2
    norm_num
  · show max (1 / 2 : ℝ) (1 / 16) = 1 / 2
    norm_num

theorem held_inner (qr : Linesearch.Solve2) (fuel : ℕ) (sa : Strategy) (v : ℝ) (s : St (ℝ × ℝ × Unit) Unit Unit Unit)
    (hv : v = 0 ∨ v = 5) :
    ∃ t, innerLoop qr fuel sa (par 1) held (initRun (par 1) held (1 / 8, v, ()) s) = .done true t ∧ t.x = (1 / 8, v, ()) ∧
      t.crit = 1 / 8 + v ∧ t.dual = 1 / 8 + v ∧ t.prim = 0 ∧ t.innerTol = 1 / 2 ∧ t.primTol = 1 / 2 ∧ t.mu = 1 / 2 := by
  obtain ⟨h1, h2, h3⟩ := held_tols (1 / 8, v, ()) s
  have hx : (initRun (par 1) held (1 / 8, v, ()) s).x = (1 / 8, v, ()) := rfl
  have hn : (initRun (par 1) held (1 / 8, v, ()) s).numIters = 0 := rfl
  generalize initRun (par 1) held (1 / 8, v, ()) s = u at h1 h2 h3 hx hn ⊢
  have hE : evaluateIterate held u = { u with ws := (), prim := 0, merit := 0 } := rfl
  have hk : (par 1).maxIters - u.numIters = 1 := by rw [hn]; rfl
  have habs : |(1 / 8 : ℝ) + v| = 1 / 8 + v := abs_of_nonneg (by rcases hv with h | h <;> rw [h] <;> norm_num)
  have hd : held.dualInf u.x = 1 / 8 + v := by rw [hx]; exact habs
  have hc : held.innerCrit u.x () = 1 / 8 + v := by rw [hx]; exact habs
  unfold innerLoop
  rw [hk, hE]
  unfold innerIter
  dsimp only
  rw [hd, hc]
  split
  · exact ⟨_, rfl, hx, rfl, rfl, rfl, h1, h2, h3⟩
  · have hl : ∀ x w a b, held.lin x w a b = some ((), (), 0) := fun _ _ _ _ => rfl
    rw [hl]
    dsimp only
    rw [if_pos (by show |(0 : ℝ)| ≤ 1 / 10000000000000; norm_num)]
    exact ⟨_, rfl, hx, rfl, rfl, rfl, h1, h2, h3⟩

theorem held_tighten (k : ℕ) (u : St (ℝ × ℝ × Unit) Unit Unit Unit) (hu : u.mu = 1 / 2) : tighten (par 1) (k + 1) u =
    if u.crit < u.innerTol * (1 / 2) then
      tighten (par 1) k { u with primTol := u.primTol * (1 / 2), innerTol := u.innerTol * (1 / 2) }
    else some { u with primTol := u.primTol * (1 / 2), innerTol := u.innerTol * (1 / 2) } := by
  have hp2 : (min (1 / 2 : ℝ) 0.99) ^ (1 : ℝ) = 1 / 2 := by norm_num
  conv_lhs => unfold tighten
  unfold updateTolsOnSuccess
  have e1 : (par 1).primBeta = 1 := rfl
  have e2 : (par 1).dualBeta = 1 := rfl
  rw [hu, e1, e2, hp2]

/-- A run on `held` from `x = 1/8`: it converges if the multiplier is 0 and fails if it is 5; the multiplier stays in the
results. -/
theorem held_run (qr : Linesearch.Solve2) (fuel : ℕ) (sa : Strategy) (s : St (ℝ × ℝ × Unit) Unit Unit Unit) :
    (∃ t, run qr (fuel + 2) sa (par 1) held (1 / 8, 0, ()) s = .done true t) ∧
    ∃ t, run qr (fuel + 2) sa (par 1) held (1 / 8, 5, ()) s = .done false t ∧ t.x = (1 / 8, 5, ()) := by
  have h1 : (par 1).targetDual = 1 / 4 := rfl
  have h2 : (par 1).targetTol = 1 / 4 := rfl
  refine ⟨?_, ?_⟩
  · obtain ⟨t, hL, e1, e2, e3, e4, e5, e6, e7⟩ := held_inner qr (fuel + 2) sa 0 s (Or.inl rfl)
    show ∃ t, outer qr (fuel + 2) sa (par 1) held 1 (initRun (par 1) held (1 / 8, 0, ()) s) = .done true t
    unfold outer
    rw [if_pos (by show 0 < 1; exact Nat.one_pos), hL]
    dsimp only
    rw [if_pos (by rw [e4, e6]; norm_num), held_tighten _ _ (by exact e7)]
    dsimp only
    rw [if_pos (by rw [e2, e5]; norm_num), held_tighten _ _ (by exact e7)]
    dsimp only
    rw [if_neg (by rw [e2, e5]; norm_num)]
    dsimp only
    rw [if_pos (by rw [e3, e4, h1, h2]; norm_num)]
    exact ⟨_, rfl⟩
  · obtain ⟨t, hL, e1, e2, e3, e4, e5, e6, e7⟩ := held_inner qr (fuel + 2) sa 5 s (Or.inr rfl)
    show ∃ t, outer qr (fuel + 2) sa (par 1) held 1 (initRun (par 1) held (1 / 8, 5, ()) s) = .done false t ∧ _
    unfold outer
    rw [if_pos (by show 0 < 1; exact Nat.one_pos), hL]
    dsimp only
    rw [if_pos (by rw [e4, e6]; norm_num), held_tighten _ _ (by exact e7)]
    dsimp only
    rw [if_neg (by rw [e2, e5]; norm_num)]
    dsimp only
    rw [if_neg (by rw [e3, h1]; norm_num)]
    exact ⟨_, rfl, e1⟩

/-- **C69** (negative): multipliers that are not given are those left in the results, with every strategy: the same call
with the same guesses for states and controls converges on a new solver and fails after a run with other
multipliers. -/
theorem C69_omitted_multipliers_are_stale (qr : Linesearch.Solve2) (fuel : ℕ) (sa : Strategy) (s : St (ℝ × ℝ × Unit) Unit Unit Unit) :
    (∃ t, runGiven qr (fuel + 2) sa (par 1) held (1 / 8) none none (setup sa opts held s) = .done true t) ∧
    ∃ t, runGiven qr (fuel + 2) sa (par 1) held (1 / 8) (some 5) none (setup sa opts held s) = .done false t ∧
      ∃ t', runGiven qr (fuel + 2) sa (par 1) held (1 / 8) none none t = .done false t' := by
  refine ⟨(held_run qr fuel sa _).1, ?_⟩
  obtain ⟨t, h1, h2⟩ := (held_run qr fuel sa (setup sa opts held s)).2
  refine ⟨t, h1, ?_⟩
  obtain ⟨t', h3, -⟩ := (held_run qr fuel sa t).2
  refine ⟨t', ?_⟩
  have : ((1 / 8 : ℝ), (none : Option ℝ).getD t.x.2.1, (none : Option Unit).getD t.x.2.2) = (1 / 8, 5, ()) := by rw [h2]; rfl
  unfold runGiven
  rw [this]
  exact h3

end Witness

/-- If both multiplier guesses are given, a run after any calls reports what it reports directly after `setup` (Armijo
search). -/
theorem C69_given_multipliers {P M L : Type} (qr : Linesearch.Solve2) (fuel : ℕ) (o : Linesearch.Options) (p : Params)
    (e e0 : Env (P × M × L) V W D G) (hT : Total e) (hi : 0 < p.maxIters) (ha : 0 < p.maxAlIters) (pg : P) (vs : M) (lams : L)
    (s : St (P × M × L) V W G) (cs : List (Call (P × M × L) V W D G)) :
    SameReport (runGiven qr fuel .armijo p e pg (some vs) (some lams) (cs.foldl (Call.after qr fuel .armijo) (setup .armijo o e0 s)))
      (runGiven qr fuel .armijo p e pg (some vs) (some lams) (setup .armijo o e0 s)) :=
  C69_armijo qr fuel o p e e0 hT hi ha (pg, vs, lams) s cs

/-- `held` meets the hypotheses. -/
example : Total Witness.held ∧ 0 < (Witness.par 1).maxIters ∧ 0 < (Witness.par 1).maxAlIters :=
  ⟨⟨fun _ _ _ => ⟨_, rfl⟩, fun _ _ _ => ⟨_, rfl⟩⟩, Nat.one_pos, Nat.one_pos⟩

end Aligator.Reuse
