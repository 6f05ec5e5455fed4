import Verif.Lemmas.Settings

/-!
# C86: a solver uses the linear solver it was set up with
-/

namespace Aligator.Settings
open Spec

variable {D : Type}

/-- **C86** Whatever was done with the solver before, `setup` accepts exactly the problems that can be allocated under
supported settings. -/
theorem C86_setup_decides (mt : Bool) (p : Prob D) (s : St D) :
    (setup mt p s).2 = true ↔ Allocates p ∧ Supported mt s.cfg := by
  constructor
  · intro h
    have hp : Allocates p := by
      unfold setup at h
      refine ⟨?_, ?_, ?_⟩ <;> by_contra hn <;> simp only [Bool.not_eq_true] at hn
      · simp [hn] at h
      · cases hi : p.integrity <;> simp [hn, hi] at h
      · cases hi : p.integrity <;> cases hr : p.resultsOk <;> simp [hn, hi, hr] at h
    refine ⟨hp, ?_⟩
    by_contra hc
    rw [setup_rejects hp hc] at h
    cases h
  · rintro ⟨hp, hc⟩
    rw [setup_ok hp hc]

/-- **C86** After an accepted `setup`, on a solver with any past (also rejected setups), and any changes of settings,
shifts and runs after it: a run uses the linear solver chosen, with the threads set, when `setup` was called; it was
made for the sizes of the subproblem; evaluations use the threads, the trial points the rollout, set last; steps are
accepted by the line search of the `setup` or by the filter, whichever family is selected now. -/
theorem C86_after_accepted_setup_partial (mt : Bool) (p : Prob D) (s : St D) (hs : (setup mt p s).2 = true)
    (h : List (Op D)) (hc : Continues h) (hsh : Shiftable p.sizes h) :
    ∃ t a, exec mt (setup mt p s).1 h = some t ∧ t.ws = some (shifted p.sizes h) ∧
      run t = .uses s.cfg.choice (linThreads s.cfg) (settings s.cfg h).threads (settings s.cfg h).rollout a ∧
      ((settings s.cfg h).strategy ≠ .filter → s.cfg.strategy ≠ .filter → a = .search s.cfg.strategy) ∧
      ((settings s.cfg h).strategy = .filter → ∃ e, a = .filter e ∧ ((∀ o ∈ h, o ≠ .run) → e = true)) := by
  obtain ⟨hp, hc'⟩ := (C86_setup_decides mt p s).1 hs
  rw [setup_ok hp hc']
  obtain ⟨t, h1, h2, h3⟩ := inv_exec (mt := mt) h
    (s := { s with
      ls := lineSearch s.cfg.strategy s.ls
      res := some p.sizes
      ws := some p.sizes
      lin := some ⟨s.cfg.choice, linThreads s.cfg, p.sizes⟩
      filterEmpty := true })
    ⟨rfl, rfl, rfl, rfl, rfl⟩ hc hsh
  refine ⟨t, accept t, h1, h2.ws, inv_run h2, fun hf ha => ?_, fun hf => ⟨t.filterEmpty, ?_, h3⟩⟩
  · have hl := h2.ls
    simp only [lineSearch, if_neg ha] at hl
    unfold accept
    rw [h2.cfg, hl]
    cases hq : (settings s.cfg h).strategy with
    | filter => exact absurd hq hf
    | _ => rfl
  · unfold accept
    rw [h2.cfg, hf]

/-- **C86** Settings that are not supported together are never in use together, as long as rollout and number of
threads are not changed after the `setup`. -/
theorem C86_unsupported_not_used_partial (mt : Bool) (p : Prob D) (s : St D) (hs : (setup mt p s).2 = true)
    (h : List (Op D)) (hc : Continues h) (hsh : Shiftable p.sizes h)
    (hr : ∀ o ∈ h, (∀ r, o ≠ .setRollout r) ∧ ∀ n, o ≠ .setThreads n) :
    ∃ t k n m r a, exec mt (setup mt p s).1 h = some t ∧ run t = .uses k n m r a ∧
      (k = .parallel → r = .linear ∧ 2 ≤ n ∧ n = m % 2 ^ 32) := by
  obtain ⟨t, a, h1, -, h2, -⟩ := C86_after_accepted_setup_partial mt p s hs h hc hsh
  have e1 : (settings s.cfg h).rollout = s.cfg.rollout := by
    have : h.filterMap rollout? = [] := by
      rw [List.filterMap_eq_nil_iff]
      intro o ho
      cases o with
      | setRollout r => exact absurd rfl ((hr _ ho).1 r)
      | _ => rfl
    simp only [settings, this, List.getLastD_nil]
  have e2 : (settings s.cfg h).threads = s.cfg.threads := by
    have : h.filterMap threads? = [] := by
      rw [List.filterMap_eq_nil_iff]
      intro o ho
      cases o with
      | setThreads r => exact absurd rfl ((hr _ ho).2 r)
      | _ => rfl
    simp only [settings, this, List.getLastD_nil]
  refine ⟨t, _, _, _, _, a, h1, h2, fun hk => ?_⟩
  obtain ⟨hl, -, hn⟩ := ((C86_setup_decides mt p s).1 hs).2 hk
  rw [e1, e2]
  have hlt : linThreads s.cfg = s.cfg.threads % 2 ^ 32 := if_pos hk
  exact ⟨hl, hlt ▸ hn, hlt⟩

/-- **C86** A problem that fails its integrity check is rejected without any effect on the solver. -/
theorem C86_integrity_failure_harmless (mt : Bool) (p : Prob D) (s : St D) (hp : p.integrity = false) :
    setup mt p s = (s, false) := by
  simp [setup, hp]

/-! ## Rejected setups -/

/-- **C86 (negation)** A first `setup` under settings that are not supported throws, but the results and the workspace are
already allocated; a run that follows passes the test of the allocation and calls through a null pointer. -/
theorem C86_rejected_first_setup (mt : Bool) (p : Prob D) (s : St D) (hp : Allocates p) (hc : ¬Supported mt s.cfg)
    (h0 : s.lin = none) :
    (setup mt p s).2 = false ∧ run (setup mt p s).1 = .nullSolver := by
  rw [setup_rejects hp hc]
  exact ⟨rfl, by simp [run, h0]⟩

/-- **C86 (negation)** On a solver that was set up for another problem, the `setup` throws too and leaves the linear
solver of the other problem in charge of the new subproblem, also when the settings are put right afterwards. -/
theorem C86_rejected_later_setup (mt : Bool) (p q : Prob D) (s : St D) (hq : (setup mt q s).2 = true)
    (g h : List (Op D)) (hg : ∀ o ∈ g, ∃ c r n a, o = .setChoice c ∨ o = .setRollout r ∨ o = .setThreads n ∨
      o = .setStrategy a) (hp : Allocates p) (hc : ¬Supported mt (settings s.cfg g)) (hne : p.sizes ≠ q.sizes)
    (hh : ∀ o ∈ h, ∃ c r n a, o = .setChoice c ∨ o = .setRollout r ∨ o = .setThreads n ∨ o = .setStrategy a) :
    ∃ t, exec mt (setup mt q s).1 g = some t ∧ (setup mt p t).2 = false ∧
      ∃ u, exec mt (setup mt p t).1 h = some u ∧ run u = .mismatched := by
  obtain ⟨hq1, hq2⟩ := (C86_setup_decides mt q s).1 hq
  have cont : ∀ {k : List (Op D)}, (∀ o ∈ k, ∃ c r n a, o = .setChoice c ∨ o = .setRollout r ∨ o = .setThreads n ∨
      o = .setStrategy a) → ∀ (s : St D), ∃ t, exec mt s k = some t ∧ t.cfg = settings s.cfg k ∧ t.ls = s.ls ∧
        t.res = s.res ∧ t.ws = s.ws ∧ t.lin = s.lin := by
    intro k
    induction k with
    | nil => intro _ s; exact ⟨s, rfl, by simp [settings], rfl, rfl, rfl, rfl⟩
    | cons o k ih =>
      intro hk s
      have h1 : ∃ t, step mt s o = some t ∧ t.cfg = put s.cfg o ∧ t.ls = s.ls ∧ t.res = s.res ∧ t.ws = s.ws ∧
          t.lin = s.lin := by
        obtain ⟨c, r, n, a, e | e | e | e⟩ := hk o (by simp) <;> subst e <;> exact ⟨_, rfl, rfl, rfl, rfl, rfl, rfl⟩
      obtain ⟨t, h1, e1, e2, e3, e4, e5⟩ := h1
      obtain ⟨u, h2, f1, f2, f3, f4, f5⟩ := ih (fun q hq => hk q (List.mem_cons_of_mem _ hq)) t
      exact ⟨u, by simp [exec, h1, h2], by rw [settings_cons, ← e1]; exact f1, f2.trans e2, f3.trans e3, f4.trans e4,
        f5.trans e5⟩
  rw [setup_ok hq1 hq2]
  obtain ⟨t, h1, e1, e2, e3, e4, e5⟩ := cont hg { s with
      ls := lineSearch s.cfg.strategy s.ls
      res := some q.sizes
      ws := some q.sizes
      lin := some ⟨s.cfg.choice, linThreads s.cfg, q.sizes⟩
      filterEmpty := true }
  refine ⟨t, h1, ?_⟩
  have hct : ¬Supported mt t.cfg := by rw [e1]; exact hc
  rw [setup_rejects hp hct]
  refine ⟨rfl, ?_⟩
  obtain ⟨u, h2, f1, f2, f3, f4, f5⟩ := cont hh { t with
      ls := lineSearch t.cfg.strategy t.ls
      res := some p.sizes
      ws := some p.sizes }
  refine ⟨u, h2, ?_⟩
  unfold run
  simp only [f3, f4, f5, e5, true_and]
  exact if_neg fun e => hne e.2.symm

/-- **C86 (negation)** The same when a function of the user throws while the workspace is made: results of the new
problem, workspace and linear solver of the old one. -/
theorem C86_throwing_workspace (mt : Bool) (p q : Prob D) (s : St D) (hq : (setup mt q s).2 = true)
    (h1 : p.integrity = true) (h2 : p.resultsOk = true) (h3 : p.workspaceOk = false) (hne : p.sizes ≠ q.sizes) :
    (setup mt p (setup mt q s).1).2 = false ∧ run (setup mt p (setup mt q s).1).1 = .mismatched := by
  obtain ⟨hq1, hq2⟩ := (C86_setup_decides mt q s).1 hq
  rw [setup_ok hq1 hq2]
  simp [setup, h1, h2, h3, run, hne]

/-- **C86 (negation)** A shift to a problem that fails its integrity check throws after the results were shifted. -/
theorem C86_rejected_shift (mt : Bool) (q : Prob D) (s : St D) (hq : (setup mt q s).2 = true) (d : D)
    (hne : q.sizes.stages ≠ []) (hd : q.sizes.shift d ≠ q.sizes) :
    ∃ t, cycle d false (setup mt q s).1 = .raised t ∧ run t = .mismatched := by
  obtain ⟨hq1, hq2⟩ := (C86_setup_decides mt q s).1 hq
  rw [setup_ok hq1 hq2]
  refine ⟨_, by simp [cycle, hne]; rfl, ?_⟩
  simp [run, hd]

/-- **C86** A `setup` that is accepted later repairs all this: it leaves the same solver whatever was done before with
the same settings (but for the line search of an earlier `setup` when the filter is selected). -/
theorem C86_accepted_setup_repairs (mt : Bool) (p : Prob D) (s s' : St D) (hc : s.cfg = s'.cfg)
    (hl : s.cfg.strategy = .filter → s.ls = s'.ls) (hs : (setup mt p s).2 = true) :
    (setup mt p s).1 = (setup mt p s').1 := by
  obtain ⟨hp, hq⟩ := (C86_setup_decides mt p s).1 hs
  rw [setup_ok hp hq, setup_ok hp (hc ▸ hq)]
  have : lineSearch s.cfg.strategy s.ls = lineSearch s'.cfg.strategy s'.ls := by
    unfold lineSearch
    rw [← hc]
    split
    · rename_i h; exact hl h
    · rfl
  rw [this, hc]

/-! ## Settings changed after `setup` -/

/-- **C86 (negation)** The combination that `setup` refuses is used without a word when the rollout is changed
afterwards: nonlinear rollouts with the gains of the parallel solver (which are not the optimal ones,
`C68_parallel_gains_wrong`). -/
theorem C86_parallel_nonlinear_unchecked (p : Prob D) (s : St D) (hs : (setup true p s).2 = true)
    (hk : s.cfg.choice = .parallel) :
    (∀ t, t.cfg = { s.cfg with rollout := .nonlinear } → (setup true p t).2 = false) ∧
    ∃ t n m a, exec true (setup true p s).1 [.setRollout .nonlinear] = some t ∧ run t = .uses .parallel n m .nonlinear a := by
  refine ⟨fun t ht => ?_, ?_⟩
  · by_contra hn
    have := ((C86_setup_decides true p t).1 (by simpa using hn)).2 (by rw [ht]; exact hk)
    rw [ht] at this
    cases this.1
  · obtain ⟨t, a, h1, -, h2, -⟩ := C86_after_accepted_setup_partial true p s hs [.setRollout .nonlinear]
      (by intro o ho; simp only [List.mem_singleton] at ho; subst ho; exact ⟨(fun _ e => by cases e), (fun _ e => by cases e)⟩)
      (by intro _ o ho d i; simp only [List.mem_singleton] at ho; subst ho; intro e; cases e)
    exact ⟨t, _, _, a, h1, by rw [h2, hk]; rfl⟩

/-- **C86 (negation)** A number of threads set after `setup` is reported and used for the evaluations, not by the linear
solver (there is a warning). -/
theorem C86_threads_after_setup (mt : Bool) (p : Prob D) (s : St D) (hs : (setup mt p s).2 = true) (n : ℕ) :
    ∃ t k r a, exec mt (setup mt p s).1 [.setThreads n] = some t ∧ t.cfg.threads = n ∧
      run t = .uses k (linThreads s.cfg) n r a := by
  obtain ⟨hp, hq⟩ := (C86_setup_decides mt p s).1 hs
  obtain ⟨t, a, h1, -, h2, -⟩ := C86_after_accepted_setup_partial mt p s hs [.setThreads n]
    (by intro o ho; simp only [List.mem_singleton] at ho; subst ho; exact ⟨(fun _ e => by cases e), (fun _ e => by cases e)⟩)
    (by intro _ o ho d i; simp only [List.mem_singleton] at ho; subst ho; intro e; cases e)
  refine ⟨t, _, _, a, h1, ?_, h2⟩
  rw [setup_ok hp hq] at h1
  simp only [exec, step, Option.bind_some, Option.some.injEq] at h1
  rw [← h1]

/-- **C86** A new solver with the parallel linear solver selected and nothing else is refused, for every problem and in
every build: the default number of threads is one. -/
theorem C86_parallel_needs_threads (mt : Bool) (p : Prob D) (sa : Strategy) :
    ∃ s, exec mt (init sa) [.setChoice .parallel] = some s ∧ (setup mt p s).2 = false := by
  refine ⟨_, rfl, ?_⟩
  by_contra hn
  obtain ⟨-, -, h⟩ := ((C86_setup_decides mt p _).1 (by simpa using hn)).2 rfl
  simp [init, Cfg.default] at h

/-! ## Non-vacuity -/

/-- A problem with two stages. -/
def exP : Prob (ℕ × ℕ) := ⟨⟨[(4, 2), (4, 1)], (4, 0)⟩, true, true, true⟩
/-- A longer one. -/
def exQ : Prob (ℕ × ℕ) := ⟨⟨[(4, 2), (4, 2), (4, 1)], (4, 0)⟩, true, true, true⟩

/-- Four threads, parallel, set up, shifted, run, another rollout set: parallel solver with four threads. -/
example : ∃ s, exec true (init .nonmonotone) [.setChoice .parallel, .setThreads 4] = some s ∧
    (setup true exP s).2 = true ∧
    ∃ t, exec true (setup true exP s).1 [.shift (4, 3) true, .run, .setThreads 2] = some t ∧
      t.ws = some ⟨[(4, 1), (4, 3)], (4, 0)⟩ ∧ run t = .uses .parallel 4 2 .linear (.search .nonmonotone) := by
  refine ⟨_, rfl, rfl, ?_⟩
  obtain ⟨t, a, h1, h2, h3, h4, -⟩ := C86_after_accepted_setup_partial true exP
    ⟨⟨.parallel, .linear, 4, .nonmonotone⟩, none, none, none, none, true⟩ rfl
    [.shift (4, 3) true, .run, .setThreads 2]
    (by intro o ho; simp only [List.mem_cons, List.not_mem_nil, or_false] at ho
        rcases ho with rfl | rfl | rfl <;> exact ⟨(fun _ e => by cases e), (fun _ e => by cases e)⟩)
    (fun e => by cases e)
  refine ⟨t, h1, h2, ?_⟩
  rw [h3, h4 (by decide) (by decide)]
  rfl

/-- A first setup refused because of the threads, then a run: null pointer. -/
example : ∃ s, exec true (init .filter) [.setChoice .parallel] = some s ∧ (setup true exP s).2 = false ∧
    run (setup true exP s).1 = .nullSolver :=
  ⟨_, rfl, C86_rejected_first_setup true exP _ ⟨rfl, rfl, rfl⟩ (fun h => by have := (h rfl).2.2; simp [init, Cfg.default] at this) rfl⟩

/-- Serial solver for `exP`; `setup` for `exQ` with one thread and the parallel solver throws; serial selected again:
solver for two stages on three. -/
example : ∃ t u, exec true (setup true exP (init .armijo)).1 [.setChoice .parallel] = some t ∧
    (setup true exQ t).2 = false ∧ exec true (setup true exQ t).1 [.setChoice .serial] = some u ∧ run u = .mismatched := by
  obtain ⟨t, h1, h2, u, h3, h4⟩ := C86_rejected_later_setup true exQ exP (init .armijo) rfl [.setChoice .parallel]
    [.setChoice .serial]
    (by intro o ho; simp only [List.mem_singleton] at ho; exact ⟨_, .linear, 0, .filter, Or.inl ho⟩)
    ⟨rfl, rfl, rfl⟩ (fun h => by have := (h rfl).2.2; simp [settings, threads?, init, Cfg.default] at this)
    (by simp [exP, exQ])
    (by intro o ho; simp only [List.mem_singleton] at ho; exact ⟨_, .linear, 0, .filter, Or.inl ho⟩)
  exact ⟨t, u, h1, h2, h3, h4⟩

end Aligator.Settings
