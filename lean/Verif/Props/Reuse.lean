import Verif.Lemmas.Reuse
import Mathlib.Tactic.NormNum
import Mathlib.Tactic.Linarith
import Mathlib.Tactic.Positivity
import Mathlib.Tactic.FieldSimp

/-!
# C69: a run depends on the problem, the guesses and the settings, not on earlier runs
-/

namespace Aligator.Reuse

open ProxDDP (Params)

variable {X V W D G : Type}

/-! ## After `setup` -/

theorem memRel_setup (sa : Strategy) (o : Linesearch.Options) (e : Env X V W D G) (s s' : St X V W G) :
    MemRel sa (setup sa o e s).ls (setup sa o e s).filter (setup sa o e s').ls (setup sa o e s').filter := by
  cases sa
  · exact ⟨rfl, fun h => by cases h⟩
  · exact ⟨rfl, fun h => by cases h⟩
  · rfl

/-- After `setup`, a run on a problem whose functions neither throw nor produce NaN reports the same whatever the solver
was used for before: every strategy, every guess, every problem. -/
theorem C69_after_setup_partial (qr : Linesearch.Solve2) (fuel : ℕ) (sa : Strategy) (o : Linesearch.Options) (p : Params)
    (e e0 : Env X V W D G) (hT : Total e) (hi : 0 < p.maxIters) (ha : 0 < p.maxAlIters) (g : X) (s s' : St X V W G) :
    SameReport (run qr fuel sa p e g (setup sa o e0 s)) (run qr fuel sa p e g (setup sa o e0 s')) :=
  run_rel qr fuel sa p hT hi ha g _ _ (memRel_setup sa o e0 s s')

/-! ## Line searches -/

/-- With the Armijo search nothing is remembered: after any calls whatsoever, on any problems, a run reports what it
reports directly after `setup`. -/
theorem C69_armijo (qr : Linesearch.Solve2) (fuel : ℕ) (o : Linesearch.Options) (p : Params)
    (e e0 : Env X V W D G) (hT : Total e) (hi : 0 < p.maxIters) (ha : 0 < p.maxAlIters) (g : X) (s : St X V W G)
    (cs : List (Call X V W D G)) :
    SameReport (run qr fuel .armijo p e g (cs.foldl (Call.after qr fuel .armijo) (setup .armijo o e0 s)))
      (run qr fuel .armijo p e g (setup .armijo o e0 s)) := by
  have key : ∀ (t : St X V W G), t.ls = .armijo o → (cs.foldl (Call.after qr fuel .armijo) t).ls = .armijo o := by
    induction cs with
    | nil => exact fun t h => h
    | cons c cs ih =>
      intro t h
      refine ih _ ?_
      cases c with
      | cycle f => exact h
      | run p e g =>
        refine run_mem (fun l _ => l = .armijo o) qr fuel .armijo p e ?_ ?_ g t h
        · intro s d dphi0 r hs hr
          unfold search at hr
          simp only [hs] at hr
          split at hr
          · cases hr
          · injection hr with hr; subst hr; rfl
        · intro l f hl
          rw [hl]
          rfl
  exact run_rel qr fuel .armijo p hT hi ha g _ _ ⟨key _ rfl, by rw [key _ rfl]; exact fun h => by cases h⟩

/-- A call that is a shift of the horizon or a run that reported convergence. -/
def Converged (qr : Linesearch.Solve2) (fuel : ℕ) (sa : Strategy) (s : St X V W G) : Call X V W D G → Prop
  | .run p e g => ∃ t, run qr fuel sa p e g s = .done true t
  | .cycle _ => True

/-- Every run of a history reported convergence. -/
def AllConverged (qr : Linesearch.Solve2) (fuel : ℕ) (sa : Strategy) : St X V W G → List (Call X V W D G) → Prop
  | _, [] => True
  | s, c :: cs => Converged qr fuel sa s c ∧ AllConverged qr fuel sa (c.after qr fuel sa s) cs

theorem search_nonmonotone {qr : Linesearch.Solve2} {fuel : ℕ} {e : Env X V W D G} {o : Linesearch.Options} {s : St X V W G}
    {d : D} {dphi0 : ℝ} {r : Search} (hs : ∃ st, s.ls = .nonmonotone o st)
    (hr : search qr fuel .nonmonotone e s d dphi0 = some r) : ∃ st, r.ls = .nonmonotone o st := by
  obtain ⟨st, hs⟩ := hs
  unfold search at hr
  simp only [hs] at hr
  split at hr
  · cases hr
  · injection hr with hr; subst hr; exact ⟨_, rfl⟩

/-- With the nonmonotone search, a run after any history of runs that all reported convergence (and shifts of the
horizon) reports what it reports directly after `setup`. -/
theorem C69_nonmonotone_partial (qr : Linesearch.Solve2) (fuel : ℕ) (o : Linesearch.Options) (p : Params)
    (e e0 : Env X V W D G) (hT : Total e) (hi : 0 < p.maxIters) (ha : 0 < p.maxAlIters) (g : X) (s : St X V W G)
    (cs : List (Call X V W D G)) (hc : AllConverged qr fuel .nonmonotone (setup .nonmonotone o e0 s) cs) :
    SameReport (run qr fuel .nonmonotone p e g (cs.foldl (Call.after qr fuel .nonmonotone) (setup .nonmonotone o e0 s)))
      (run qr fuel .nonmonotone p e g (setup .nonmonotone o e0 s)) := by
  have key : ∀ (t : St X V W G), t.ls = .nonmonotone o .reset → AllConverged qr fuel .nonmonotone t cs →
      (cs.foldl (Call.after qr fuel .nonmonotone) t).ls = .nonmonotone o .reset := by
    clear hc
    induction cs with
    | nil => exact fun t h _ => h
    | cons c cs ih =>
      intro t h hc
      refine ih _ ?_ hc.2
      cases c with
      | cycle f => exact h
      | run p e g =>
        obtain ⟨t', ht'⟩ := hc.1
        have h1 := run_mem (fun l _ => ∃ st, l = .nonmonotone o st) qr fuel .nonmonotone p e
          (fun s d dphi0 r hs hr => search_nonmonotone hs hr)
          (fun l f hl => by obtain ⟨st, rfl⟩ := hl; exact ⟨_, rfl⟩) g t ⟨_, h⟩
        obtain ⟨l, hl⟩ := outer_converged_reset qr fuel .nonmonotone p e _ _ _ ht'
        show (run qr fuel .nonmonotone p e g t).state.ls = _
        rw [ht'] at h1 ⊢
        obtain ⟨st, hst⟩ := h1
        change t'.ls = _ at hst
        show t'.ls = _
        rw [hl] at hst ⊢
        cases l with
        | unset => cases hst
        | armijo o' => cases hst
        | nonmonotone o' st' =>
          unfold LS.reset at hst ⊢
          injection hst with h1 h2
          rw [h1]
  exact run_rel qr fuel .nonmonotone p hT hi ha g _ _
    ⟨key _ rfl hc, by rw [key _ rfl hc]; exact fun h => by cases h⟩

/-! ## The filter -/

/-- Rejected once, rejected for ever: a pair that the filter rejects is rejected after any further calls. -/
theorem C69_filter_never_forgets (qr : Linesearch.Solve2) (fuel : ℕ) (sa : Strategy) (s : St X V W G)
    (cs : List (Call X V W D G)) (q : ℝ × ℝ) (hb : s.filter.beta = 0) (h : (Filter.acceptPair s.filter q).2 = false) :
    (Filter.acceptPair (cs.foldl (Call.after qr fuel sa) s).filter q).2 = false := by
  refine Blocked.reject (history_filter_inv (fun f => Blocked f q) (fun f c h => h.accept c) qr fuel sa cs s ?_)
  refine ⟨hb, ?_⟩
  unfold Filter.acceptPair at h
  split at h
  · rename_i hany
    rw [List.any_eq_true] at hany
    obtain ⟨e, he, h1⟩ := hany
    rw [hb] at h1
    exact ⟨e, he, (Filter.blocks_zero e q).1 h1⟩
  · cases h

theorem pair_full {p : Params} {e : Env X V W D G} {g : X} {d : D} {q : ℝ × ℝ} (h : FullStep p e g d q) (w : W) (pr : ℝ) (gn : G)
    (s : St X V W G) : e.pair (searchState p e w pr gn (initRun p e g s)) d 1 = some q := by
  obtain ⟨t, w', h1, h2, h3⟩ := h.point
  have hx : (searchState p e w pr gn (initRun p e g s)).x = g := rfl
  have hm : (searchState p e w pr gn (initRun p e g s)).mu = mu0 p := rfl
  have hv : (searchState p e w pr gn (initRun p e g s)).prevV = e.vs g := rfl
  unfold Env.pair
  rw [hx, hm, hv, h1]
  simp only [h2, h3]

theorem pair_total {e : Env X V W D G} (hT : Total e) (s : St X V W G) (d : D) (a : ℝ) : ∃ q, e.pair s d a = some q := by
  obtain ⟨t, ht⟩ := hT.point s.x d a
  obtain ⟨r, hr⟩ := hT.mult s.mu s.prevV t
  exact ⟨(e.merit s.mu t r.1, r.2), by unfold Env.pair; rw [ht]; simp only [hr]⟩

theorem filterLoop_le {phi : ℝ → Option (ℝ × ℝ)} (hphi : ∀ a, ∃ q, phi a = some q) (n : ℕ) (f : Filter.State ℝ) (a : ℝ)
    (q : ℝ × ℝ) (h0 : 0 < a) : ∃ b v, (filterLoop phi n f a q).2.2 = .ok b v ∧ b ≤ max a f.alphaMin := by
  induction n generalizing a q with
  | zero => exact ⟨_, _, rfl, le_max_left _ _⟩
  | succ n ih =>
    unfold filterLoop
    split
    · exact ⟨_, _, rfl, le_max_left _ _⟩
    · split
      · obtain ⟨q', hq'⟩ := hphi f.alphaMin
        rw [hq']
        exact ⟨_, _, rfl, le_max_right _ _⟩
      · obtain ⟨q', hq'⟩ := hphi (a * (1 / 2))
        rw [hq']
        obtain ⟨b, v, h1, h2⟩ := ih (a * (1 / 2)) q' (by positivity)
        exact ⟨b, v, h1, h2.trans (max_le_max (by linarith) le_rfl)⟩

/-- The first step of a run with an empty filter is the full step. -/
theorem filter_fresh {qr : Linesearch.Solve2} {fuel : ℕ} {p : Params} {e : Env X V W D G} {g : X} {w : W} {pr : ℝ} {d : D}
    {gn : G} {dphi0 : ℝ} (h : FirstStep p e g w pr d gn dphi0) {q : ℝ × ℝ} (hq : FullStep p e g d q) (hf : 0 < fuel)
    (s : St X V W G) (he : s.filter.pairs = []) (hn : 0 < s.filter.maxNumSteps) (hb : s.filter.beta = 0) :
    (run qr fuel .filter p e g s).state.alphas.head? = some 1 ∧
      ∀ q', Filter.Dominates q q' → Blocked (run qr fuel .filter p e g s).state.filter q' := by
  obtain ⟨k, rfl⟩ : ∃ k, fuel = k + 1 := ⟨fuel - 1, by omega⟩
  obtain ⟨n, hn'⟩ : ∃ n, s.filter.maxNumSteps = n + 1 := ⟨s.filter.maxNumSteps - 1, by omega⟩
  have hacc : Filter.acceptPair s.filter q = ({ s.filter with pairs := [q] }, true) := by
    unfold Filter.acceptPair
    rw [he]
    rfl
  have hs : search qr (k + 1) .filter e (searchState p e w pr gn (initRun p e g s)) d dphi0 =
      some ⟨[1] ++ [], .ok 1 q.1, s.ls, { s.filter with pairs := [q] }⟩ := by
    have hfil : (searchState p e w pr gn (initRun p e g s)).filter = s.filter := rfl
    have hls : (searchState p e w pr gn (initRun p e g s)).ls = s.ls := rfl
    unfold search
    dsimp only
    unfold filterFirst
    rw [pair_full hq, hfil, hn', hls]
    dsimp only
    unfold filterLoop
    rw [hacc]
    simp only [if_true, hn']
  obtain ⟨h1, h2⟩ := run_first h qr (k + 1) .filter s _ hs
  refine ⟨h1 1 q.1 rfl, fun q' hd => ?_⟩
  refine h2 (fun _ f => Blocked f q') ?_ (fun _ _ h => h) ?_
  · intro s d dphi0 r hP hr
    exact search_filter_inv (fun f => Blocked f q') (fun f c h => h.accept c) qr (k + 1) .filter e s d dphi0 r hP hr
  · exact ⟨hb, q, by simp, hd⟩

/-- The first step of a run whose full step the filter rejects is shorter. -/
theorem filter_blocked {qr : Linesearch.Solve2} {fuel : ℕ} {p : Params} {e : Env X V W D G} (hT : Total e) {g : X} {w : W}
    {pr : ℝ} {d : D} {gn : G} {dphi0 : ℝ} (h : FirstStep p e g w pr d gn dphi0) {q : ℝ × ℝ} (hq : FullStep p e g d q)
    (hf : 0 < fuel) (s : St X V W G) (hB : Blocked s.filter q) (hn : 0 < s.filter.maxNumSteps) (hm : s.filter.alphaMin < 1) :
    ∃ a < 1, (run qr fuel .filter p e g s).state.alphas.head? = some a := by
  obtain ⟨k, rfl⟩ : ∃ k, fuel = k + 1 := ⟨fuel - 1, by omega⟩
  obtain ⟨n, hn'⟩ : ∃ n, s.filter.maxNumSteps = n + 1 := ⟨s.filter.maxNumSteps - 1, by omega⟩
  have hfil : (searchState p e w pr gn (initRun p e g s)).filter = s.filter := rfl
  have hs : ∃ r a v, search qr (k + 1) .filter e (searchState p e w pr gn (initRun p e g s)) d dphi0 = some r ∧
      r.ret = .ok a v ∧ a < 1 := by
    unfold search
    dsimp only
    unfold filterFirst
    rw [pair_full hq, hfil, hn']
    dsimp only
    unfold filterLoop
    rw [hB.reject]
    simp only [Bool.false_eq_true, if_false]
    split
    · obtain ⟨q', hq'⟩ := pair_total hT (searchState p e w pr gn (initRun p e g s)) d s.filter.alphaMin
      rw [hq']
      exact ⟨_, _, _, rfl, rfl, hm⟩
    · obtain ⟨q', hq'⟩ := pair_total hT (searchState p e w pr gn (initRun p e g s)) d (1 * (1 / 2))
      rw [hq']
      obtain ⟨b, v, h1, h2⟩ := filterLoop_le (pair_total hT (searchState p e w pr gn (initRun p e g s)) d) n s.filter
        (1 * (1 / 2)) q' (by norm_num)
      exact ⟨_, b, v, rfl, h1, lt_of_le_of_lt h2 (max_lt (by norm_num) hm)⟩
  obtain ⟨r, a, v, h1, h2, h3⟩ := hs
  exact ⟨a, h3, (run_first h qr (k + 1) .filter s r h1).1 a v h2⟩

/-- With the filter, earlier runs always count: directly after `setup` the first step of a run is the full step; once
that run was made, then after any further calls no run whose full step is not strictly better than that one in merit
or infeasibility takes its full step. -/
theorem C69_filter_rerun_step (qr : Linesearch.Solve2) (fuel : ℕ) (hf : 0 < fuel) (o : Linesearch.Options)
    (hn : 0 < o.maxNumSteps) (hm : o.alphaMin < 1) (e0 : Env X V W D G) (s : St X V W G)
    (p : Params) (e : Env X V W D G) (g : X) (w : W) (pr : ℝ) (d : D) (gn : G) (dphi0 : ℝ) (q : ℝ × ℝ)
    (h : FirstStep p e g w pr d gn dphi0) (hq : FullStep p e g d q) (cs : List (Call X V W D G))
    (p' : Params) (e' : Env X V W D G) (hT : Total e') (g' : X) (w' : W) (pr' : ℝ) (d' : D) (gn' : G) (dphi0' : ℝ)
    (q' : ℝ × ℝ) (h' : FirstStep p' e' g' w' pr' d' gn' dphi0') (hq' : FullStep p' e' g' d' q')
    (hdom : q.1 ≤ q'.1 ∧ q.2 ≤ q'.2) :
    (run qr fuel .filter p e g (setup .filter o e0 s)).state.alphas.head? = some 1 ∧
      ∃ a < 1, (run qr fuel .filter p' e' g'
        (cs.foldl (Call.after qr fuel .filter) (run qr fuel .filter p e g (setup .filter o e0 s)).state)).state.alphas.head? =
          some a := by
  obtain ⟨h1, h2⟩ := filter_fresh (qr := qr) h hq hf (setup .filter o e0 s) rfl hn rfl
  refine ⟨h1, ?_⟩
  have hpar := run_mem (fun _ f => f.maxNumSteps = o.maxNumSteps ∧ f.alphaMin = o.alphaMin) qr fuel .filter p e
    (fun s d dphi0 r hs hr => search_filter_inv (fun f => f.maxNumSteps = o.maxNumSteps ∧ f.alphaMin = o.alphaMin)
      (fun f c h => ⟨(accept_params f c).2.2.trans h.1, (accept_params f c).2.1.trans h.2⟩) qr fuel .filter e s d dphi0 r hs hr)
    (fun _ _ h => h) g (setup .filter o e0 s) ⟨rfl, rfl⟩
  have hP := history_filter_inv (fun f => Blocked f q' ∧ f.maxNumSteps = o.maxNumSteps ∧ f.alphaMin = o.alphaMin)
    (fun f c h => ⟨h.1.accept c, (accept_params f c).2.2.trans h.2.1, (accept_params f c).2.1.trans h.2.2⟩) qr fuel
    .filter cs (run qr fuel .filter p e g (setup .filter o e0 s)).state ⟨h2 q' hdom, hpar⟩
  exact filter_blocked hT h' hq' hf _ hP.1 (by rw [hP.2.1]; exact hn) (by rw [hP.2.2]; exact hm)

/-- With the filter, the same run made a second time on the same solver never reports the same. -/
theorem C69_filter_rerun_differs (qr : Linesearch.Solve2) (fuel : ℕ) (hf : 0 < fuel) (o : Linesearch.Options)
    (hn : 0 < o.maxNumSteps) (hm : o.alphaMin < 1) (e0 : Env X V W D G) (s : St X V W G)
    (p : Params) (e : Env X V W D G) (hT : Total e) (g : X) (w : W) (pr : ℝ) (d : D) (gn : G) (dphi0 : ℝ) (q : ℝ × ℝ)
    (h : FirstStep p e g w pr d gn dphi0) (hq : FullStep p e g d q) (cs : List (Call X V W D G)) :
    ¬ SameReport (run qr fuel .filter p e g (setup .filter o e0 s))
      (run qr fuel .filter p e g
        (cs.foldl (Call.after qr fuel .filter) (run qr fuel .filter p e g (setup .filter o e0 s)).state)) := by
  obtain ⟨h1, a, ha, h2⟩ := C69_filter_rerun_step qr fuel hf o hn hm e0 s p e g w pr d gn dphi0 q h hq cs p e hT g w pr d gn
    dphi0 q h hq ⟨le_rfl, le_rfl⟩
  intro hS
  have : (run qr fuel .filter p e g (setup .filter o e0 s)).state.alphas =
      (run qr fuel .filter p e g
        (cs.foldl (Call.after qr fuel .filter) (run qr fuel .filter p e g (setup .filter o e0 s)).state)).state.alphas := by
    revert hS
    generalize run qr fuel .filter p e g (setup .filter o e0 s) = A
    generalize run qr fuel .filter p e g _ = B
    intro hS
    cases A <;> cases B <;> first | exact hS.elim | exact hS.steps | exact hS.2.steps
  rw [← this, h1] at h2
  injection h2 with h2
  exact absurd ha (by rw [← h2]; exact lt_irrefl _)

/-! ## Changing the strategy without `setup` -/

/-- Changing `sa_strategy_` between the two line searches has no effect before the next `setup`. -/
theorem C69_strategy_change_ignored (qr : Linesearch.Solve2) (fuel : ℕ) (p : Params) (e : Env X V W D G) (g : X)
    (s : St X V W G) : run qr fuel .nonmonotone p e g s = run qr fuel .armijo p e g s := by
  have h1 : ∀ (n : ℕ) (s : St X V W G), innerIter qr fuel .nonmonotone p e n s = innerIter qr fuel .armijo p e n s := by
    intro n
    induction n with
    | zero => intro s; rfl
    | succ n ih =>
      intro s
      have hsr : ∀ (s : St X V W G) d dphi0, search qr fuel .nonmonotone e s d dphi0 = search qr fuel .armijo e s d dphi0 :=
        fun _ _ _ => rfl
      unfold innerIter
      simp only [hsr, ih]
  have h2 : ∀ (n : ℕ) (s : St X V W G), outer qr fuel .nonmonotone p e n s = outer qr fuel .armijo p e n s := by
    intro n
    induction n with
    | zero => intro s; rfl
    | succ n ih =>
      intro s
      unfold outer innerLoop
      simp only [h1, ih]
  exact h2 _ _

/-- A solver set up with the filter and then switched to a line search fails at the first step (the log says that the
search returned NaN). -/
theorem C69_switch_from_filter_raises (qr : Linesearch.Solve2) (fuel : ℕ) (sa : Strategy) (hsa : sa ≠ .filter)
    (o : Linesearch.Options) (e0 : Env X V W D G) (s : St X V W G) (hs : s.ls = .unset)
    (p : Params) (e : Env X V W D G) (g : X) (w : W) (pr : ℝ) (d : D) (gn : G) (dphi0 : ℝ)
    (h : FirstStep p e g w pr d gn dphi0) :
    ∃ t, run qr fuel sa p e g (setup .filter o e0 s) = .raised t := by
  have hL := innerLoop_first h qr fuel sa (setup .filter o e0 s)
  have hu : (searchState p e w pr gn (initRun p e g (setup .filter o e0 s))).ls = .unset := hs
  have hse : ∃ l f, search qr fuel sa e (searchState p e w pr gn (initRun p e g (setup .filter o e0 s))) d dphi0 =
      some ⟨[], .nan, l, f⟩ := by
    cases sa with
    | filter => exact absurd rfl hsa
    | armijo => unfold search; simp only [hu]; exact ⟨_, _, rfl⟩
    | nonmonotone => unfold search; simp only [hu]; exact ⟨_, _, rfl⟩
  obtain ⟨l, f, hse⟩ := hse
  rw [hse] at hL
  obtain ⟨n, hn⟩ : ∃ n, p.maxAlIters = n + 1 := ⟨p.maxAlIters - 1, by have := h.alIters; omega⟩
  unfold run
  rw [hn]
  unfold outer
  rw [if_pos (by exact h.iters), hL]
  exact ⟨_, rfl⟩

end Aligator.Reuse
