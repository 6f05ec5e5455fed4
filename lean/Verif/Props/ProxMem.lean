import Verif.Lemmas.ProxMem

/-!
# C74: the memory of the ProxDDP solver fits the problem, also after shifts
-/

namespace Aligator.PMem

open Cycle (rotateLeft frontFromBack)

/-- **C74** A run of a solver that has been set up, with at least one trial step, is defined *exactly* for the problems all of
whose tangent spaces have one size (states, costs, constraints, initial condition) and whose state sizes fit together, with a
non-empty horizon; and then any number of inner loops, turns and trials with either rollout leaves every buffer with the size
that `setup` gave it.  Controls and constraints may have any size at any stage. -/
theorem C74_runs_exactly_in_uniform_tangent_spaces (P : Prob) (m : Mem) (hm : setup P = some m) (c : Cfg)
    (hf : c.forced = true → P.x0 ≠ none) :
    (∀ loops, run c P loops m = some m) ↔ ∃ ndx, Fits ndx P := by
  constructor
  · intro h
    exact ⟨_, run_needs hm (h [([.step 1], .newton)])⟩
  · rintro ⟨ndx, h⟩ loops
    rw [setup_uni h] at hm
    obtain rfl := Option.some.inj hm
    exact run_uni h c hf loops

/-- **C74** Any problem outside this class that `setup` accepts meets undefined behaviour at the latest in the first trial of
the first inner loop, whatever the options and the number of trials. -/
theorem C74_other_problems_undefined (P : Prob) (m : Mem) (hm : setup P = some m) (hP : ∀ ndx, ¬Fits ndx P) (c : Cfg) (n : ℕ)
    (u : Upd) : run c P [([.step (n + 1)], u)] m = none := by
  cases h : run c P [([.step (n + 1)], u)] m with
  | none => rfl
  | some r => exact absurd (run_needs hm h) (hP _)

/-- **C74** Problems of the class are accepted by `setup`. -/
theorem C74_setup_accepts (P : Prob) (ndx : ℕ) (h : Fits ndx P) : ∃ m, setup P = some m := ⟨_, setup_uni h⟩

/-- **C74** The criterion is computed exactly when all the entries it reads exist: gradients of the states and of the
multipliers at every node, gradients of the controls and gaps at every stage. -/
theorem C74_criterion_reads (m : Mem) : criterion m = some () ↔
    (∀ i ≤ m.nsteps, (m.Lxs[i]?).isSome ∧ (m.Lvs[i]?).isSome) ∧
    ∀ i < m.nsteps, (m.Lus[i]?).isSome ∧ (m.ws.dyn_slacks[i]?).isSome := by
  have e : criterion m = some () ↔ (m.nsteps < m.Lxs.length ∧ m.nsteps ≤ m.Lus.length ∧
      m.nsteps ≤ m.ws.dyn_slacks.length ∧ m.nsteps < m.Lvs.length) := by
    simp [criterion, guard]
  rw [e]
  have hs (l : List ℕ) (i : ℕ) : (l[i]?).isSome = true ↔ i < l.length := by simp
  simp only [hs]
  constructor
  · rintro ⟨h1, h2, h3, h4⟩
    exact ⟨fun i hi => ⟨by omega, by omega⟩, fun i hi => ⟨by omega, by omega⟩⟩
  · rintro ⟨h1, h2⟩
    refine ⟨(h1 _ le_rfl).1, ?_, ?_, (h1 _ le_rfl).2⟩
    · by_contra hc
      have := (h2 (m.nsteps - 1) (by omega)).1
      omega
    · by_contra hc
      have := (h2 (m.nsteps - 1) (by omega)).2
      omega

/-- **C74** A linear step that is executed adds vectors of equal sizes at every node and stage, writes states and controls of the
sizes that the trial buffers have, and the trial multipliers get the sizes of the multipliers. -/
theorem C74_linear_step_reads (P : Prob) (m m' : Mem) (h : linearStep P m = some m') :
    (∀ i ≤ m.nsteps, (∃ k, m.lams[i]? = some k ∧ m.ws.dlams[i]? = some k ∧ m'.ws.trial_lams[i]? = some k ∧
        (m.ws.trial_lams[i]?).isSome) ∧
      (∃ k, m.vs[i]? = some k ∧ m.ws.dvs[i]? = some k ∧ m'.ws.trial_vs[i]? = some k ∧ (m.ws.trial_vs[i]?).isSome) ∧
      (∃ k, m.xs[i]? = some k ∧ m.ws.trial_xs[i]? = some k) ∧ (m.ws.dxs[i]?).isSome) ∧
    ∀ i < m.nsteps, ∃ s, P.stages[i]? = some s ∧ m.us[i]? = some s.nu ∧ m.ws.dus[i]? = some s.nu ∧
      m.ws.trial_us[i]? = some s.nu ∧ m.xs[i]? = some s.nx1 ∧ m.ws.dxs[i]? = some s.ndx1 ∧
      (i + 1 = m.nsteps → m.xs[i + 1]? = some s.nx2 ∧ m.ws.dxs[i + 1]? = some s.ndx2) := by
  have hg (p : Prop) [Decidable p] : ((guard p : Option Unit) = some ()) ↔ p := by by_cases hp : p <;> simp [guard, hp]
  have ge (l : List ℕ) {i : ℕ} (hi : i < l.length) : ∃ k, l[i]? = some k := ⟨_, List.getElem?_eq_getElem hi⟩
  simp only [linearStep, Option.bind_eq_bind, Option.bind_eq_some_iff, hg, exists_const, Option.some.injEq] at h
  obtain ⟨⟨hx, hu, hl, hv⟩, ⟨el, el'⟩, ⟨ev, ev'⟩, u, ha, hN, s, hs, ⟨h1, h2, h3⟩, -, -, rfl⟩ := h
  have ha := allM_get ha
  simp only [Option.bind_eq_some_iff, hg, exists_const] at ha
  refine ⟨fun i hi => ⟨?_, ?_, ?_⟩, fun i hi => ?_⟩
  · obtain ⟨k, hk⟩ := ge m.lams (i := i) (by omega)
    obtain ⟨k', hk'⟩ := ge m.ws.trial_lams (i := i) (by omega)
    exact ⟨k, hk, el ▸ hk, hk, by rw [hk']; rfl⟩
  · obtain ⟨k, hk⟩ := ge m.vs (i := i) (by omega)
    obtain ⟨k', hk'⟩ := ge m.ws.trial_vs (i := i) (by omega)
    exact ⟨k, hk, ev ▸ hk, hk, by rw [hk']; rfl⟩
  · rcases Nat.lt_or_ge i m.nsteps with h | h
    · obtain ⟨s, hs, ⟨a, -⟩, ⟨b, c⟩, -⟩ := ha i h
      exact ⟨⟨_, b, c⟩, by rw [a]; rfl⟩
    · obtain rfl : i = m.nsteps := by omega
      exact ⟨⟨_, h2, h3⟩, by rw [h1]; rfl⟩
  · obtain ⟨s', hs', ⟨a, a'⟩, ⟨b, c⟩, d, d'⟩ := ha i hi
    refine ⟨s', hs', d, a', d', b, a, fun e => ?_⟩
    have : m.nsteps - 1 = i := by omega
    rw [this, hs'] at hs
    cases hs
    rw [e]
    exact ⟨h2, h1⟩

/-- **C74** A nonlinear rollout that is executed: at every stage the gains have the size of the displacement they multiply and the
rows of control, multipliers and next costate together, all vectors it reads and writes exist and have the sizes of the stage. -/
theorem C74_rollout_reads (P : Prob) (m m' : Mem) (h : nonlinearStep P m = some m') :
    (∃ s0, P.stages[0]? = some s0 ∧ m.ws.dxs[0]? = some s0.ndx1 ∧ m.xs[0]? = some s0.nx1 ∧ m.ws.trial_xs[0]? = some s0.nx1) ∧
    (∃ k, m.lams[0]? = some k ∧ m.ws.dlams[0]? = some k) ∧
    (∀ t ≤ m.nsteps, (m.ws.trial_lams[t]?).isSome ∧ (m.ws.trial_vs[t]?).isSome ∧ (m.ws.trial_xs[t]?).isSome ∧
      (m.ws.dvs[t]?).isSome) ∧
    ∀ t < m.nsteps, ∃ s d g, P.stages[t]? = some s ∧ m.sd[t]? = some d ∧ m.solver.datas[t]? = some g ∧
      gainRows g = s.nu + s.nc + s.ndx2 ∧ g.1 = s.ndx1 ∧ m.ws.dxs[t]? = some s.ndx1 ∧ m.us[t]? = some s.nu ∧
      m.ws.trial_us[t]? = some s.nu ∧ (m.ws.dus[t]?).isSome ∧ m.vs[t]? = some s.nc ∧ trialXAt m t = some s.nx1 ∧
      d.xnext = s.nx2 ∧ m.xs[t + 1]? = some s.nx2 ∧ m.ws.dxs[t + 1]? = some s.ndx2 ∧
      ∃ k, m.lams[t + 1]? = some k ∧ m.ws.dlams[t + 1]? = some k := by
  have ge (l : List ℕ) {i : ℕ} (hi : i < l.length) : (l[i]?).isSome = true := by simp [hi]
  simp only [nonlinearStep, Option.bind_eq_bind, Option.bind_eq_some_iff, gd, exists_const] at h
  obtain ⟨s0, hs0, ⟨a1, a2, a3⟩, ⟨b1, b2⟩, ⟨c1, c2, c3⟩, ⟨d1, d2⟩, u, ha, -⟩ := h
  have ha := allM_get ha
  simp only [Option.bind_eq_some_iff, gd, exists_const] at ha
  refine ⟨⟨s0, hs0, a1, a2, a3⟩, ?_, fun t ht => ⟨ge _ (by omega), ge _ (by omega), ge _ (by omega), ge _ (by omega)⟩,
    fun t ht => ?_⟩
  · obtain ⟨k, hk⟩ := Option.isSome_iff_exists.1 b1
    exact ⟨k, hk, b2 ▸ hk⟩
  · obtain ⟨s, hs, d, hd, g, hg, ⟨e1, e2⟩, e3, ⟨e4, e5⟩, e6, ⟨e7, -⟩, ⟨e8, -⟩, ⟨e9, e10⟩, e11, e12⟩ := ha t ht
    obtain ⟨k, hk⟩ := Option.isSome_iff_exists.1 e11
    exact ⟨s, d, g, hs, hd, hg, e1, e2, e3, e4, e5, ge _ (by omega), e6, e7, e8, e9, e10, k, hk, e12 ▸ hk⟩

/-- **C74** A forward pass of the linear solver that is executed: every factor has the sizes of its knot; at every node the state
step that the gains multiply has the size of the knot's state, the step of the multipliers that of its constraints, the step of
the controls that of its controls unless it has none; at every stage the step of the next costate has the size of the gap, and
matrix and gradient of the next cost-to-go have the size of the next state step. -/
theorem C74_forward_reads (m m' : Mem) (h : forward m = some m') :
    (m.ws.dxs[0]? = some m.solver.kkt0.1 ∧ m.ws.dlams[0]? = some m.solver.kkt0.2) ∧
    ∀ t < m.solver.datas.length, ∃ k, m.ws.knots[t]? = some k ∧ m.solver.datas[t]? = some k ∧
      (if t = 0 then m.ws.dxs[0]? = some k.1 else ∃ d, m.solver.datas[t - 1]? = some d ∧ d.2.2.2 = k.1) ∧
      m.ws.dvs[t]? = some k.2.2.1 ∧ (k.2.1 ≠ 0 → m.ws.dus[t]? = some k.2.1) ∧
      (t < m.nsteps → ∃ q, m.ws.dyn_slacks[t + 1]? = some q ∧ m.ws.dlams[t + 1]? = some q ∧ (m.ws.dxs[t + 1]?).isSome ∧
        m.Lxs[t + 1]? = some k.2.2.2 ∧
        (t + 1 = m.nsteps → m.termData = k.2.2.2) ∧
        (t + 1 ≠ m.nsteps → ∃ d, m.sd[t + 1]? = some d ∧ d.cost.1 = k.2.2.2)) := by
  simp only [forward, Option.bind_eq_bind, Option.bind_eq_some_iff, gd, exists_const] at h
  obtain ⟨h0, u, ha, -⟩ := h
  refine ⟨h0, fun t ht => ?_⟩
  have ha := allM_get ha t ht
  simp only [forwardStage, Option.bind_eq_bind, Option.bind_eq_some_iff, gd, exists_const] at ha
  obtain ⟨d, hd, k, hk, rfl, dx, hdx, ⟨rfl, hv⟩, hu, hn⟩ := ha
  refine ⟨d, hk, hd, ?_, hv, fun h => hu (Nat.pos_of_ne_zero h), fun hlt => ?_⟩
  · unfold dxAt at hdx
    split at hdx
    · rename_i h; rw [if_pos h]; exact hdx
    · rename_i h; rw [if_neg h]; simpa [Option.map_eq_some_iff] using hdx
  · rw [if_pos hlt] at hn
    simp only [Option.bind_eq_some_iff, gd, exists_const] at hn
    obtain ⟨q, hq, hl, v, hv, ⟨e1, e2⟩, hx⟩ := hn
    refine ⟨q, hq, hl, by simp [hx], ?_⟩
    unfold valueAt at hv
    split at hv
    · rename_i h
      obtain ⟨a, b, rfl⟩ := Option.map_eq_some_iff.1 hv
      exact ⟨by rw [b, ← e2, ← e1], fun _ => e2, fun h' => absurd h h'⟩
    · rename_i h
      split at hv
      · rename_i d' a hd' hb
        cases hv
        exact ⟨by rw [hb, ← e2, ← e1], fun h' => absurd h' h, fun _ => ⟨d', hd', e2⟩⟩
      · cases hv

/-- **C74** A backward pass of the linear solver that is executed, with exact or approximate Hessians: at every stage the blocks of
the knot agree with each other and with the factor that receives them (derivatives of the dynamics and of the cost, gap, gradients,
projected Jacobians, gradients of the multipliers), the next cost-to-go has the size of the next state; the terminal knot has no
control and the sizes of the terminal cost and constraints; the initial system has the sizes of the initial condition. -/
theorem C74_backward_reads (exact : Bool) (m : Mem) (h : backward exact m = some ()) :
    (∀ t < m.nsteps, ∃ k sd j, m.ws.knots[t]? = some k ∧ m.solver.datas[t]? = some k ∧ m.sd[t]? = some sd ∧
      m.ws.proj_jacs[t]? = some j ∧ sd.jac = (k.2.2.2, k.1, k.2.1) ∧ sd.cost = (k.1, k.2.1) ∧
      (j.1.sum = k.2.2.1 ∧ j.2 = (k.1, k.2.1)) ∧ m.ws.dyn_slacks[t + 1]? = some k.2.2.2 ∧ m.Lxs[t]? = some k.1 ∧
      m.Lus[t]? = some k.2.1 ∧ m.Lvs[t]? = some k.2.2.1 ∧ m.lxCorr[t]? = some k.1 ∧ m.luCorr[t]? = some k.2.1 ∧
      m.Lxs[t + 1]? = some k.2.2.2) ∧
    (∃ k j, m.ws.knots[m.nsteps]? = some k ∧ m.solver.datas[m.nsteps]? = some k ∧ m.ws.proj_jacs[m.nsteps]? = some j ∧
      k.2.1 = 0 ∧ m.termData = k.1 ∧ j.1.sum = k.2.2.1 ∧ j.2.1 = k.1 ∧ m.Lxs[m.nsteps]? = some k.1 ∧
      m.Lvs[m.nsteps]? = some k.2.2.1 ∧ m.lxCorr[m.nsteps]? = some k.1) ∧
    m.solver.kkt0 = (m.initData.2, m.initData.1) ∧ m.Lxs[0]? = some m.initData.2 := by
  have hval : ∀ t v, valueAt m t = some v → m.Lxs[t]? = some v.2 := by
    intro t v hv
    unfold valueAt at hv
    split at hv
    · obtain ⟨a, b, rfl⟩ := Option.map_eq_some_iff.1 hv
      exact b
    · split at hv
      · rename_i d' a hd' hb
        cases hv
        exact hb
      · cases hv
  simp only [backward, Option.bind_eq_bind, Option.bind_eq_some_iff, gd, exists_const] at h
  obtain ⟨-, v, hv, h1, u, ht, u', ha, ⟨h2, h3⟩, h4⟩ := h
  refine ⟨fun t hlt => ?_, ?_, h4, by rw [hval 0 v hv, ← h3, h2, h1]⟩
  · have hs := allM_get ha t hlt
    simp only [backwardStage, stageLQ, Option.bind_eq_bind, Option.bind_eq_some_iff, gd, exists_const, Option.some.injEq] at hs
    obtain ⟨l, ⟨sd, hsd, k, hk, f, hf, q, hq, r, hr, j, hj, -, ⟨a1, a2, a3, a4⟩, ⟨a5, a6, a7, a8⟩, rfl⟩, k', hk', d, hd, rfl, v, hv,
      ⟨b1, b2⟩, b3, ⟨c1, c2, c3, c4, c5⟩, ⟨d1, d2⟩, ⟨e1, e2⟩, ⟨f1, f2⟩, ⟨g1, g2, g3⟩, -⟩ := hs
    rw [hk] at hk'
    cases hk'
    dsimp only at *
    have x1 : sd.jac = (k.2.2.2, k.1, k.2.1) := by
      rw [Prod.ext_iff] at g2 g3 ⊢
      exact ⟨g2.1, Prod.ext g3.2 g2.2⟩
    have x2 := hval _ v hv
    rw [b2, ← b1, ← g1] at x2
    refine ⟨k, sd, j, hk, hd, hsd, hj, x1, f1, ⟨a1.symm, Prod.ext a2.symm a3.symm⟩, by rw [hf, g1], ?_, by rw [hr, e1], a4, a6, a8, x2⟩
    rw [hq, c4, x1]
  · simp only [backwardTerm, termLQ, Option.bind_eq_bind, Option.bind_eq_some_iff, gd, exists_const, Option.some.injEq] at ht
    obtain ⟨l, ⟨q, hq, j, hj, d, hd, a1, rfl⟩, k, hk, d', hd', ⟨rfl, b1⟩, ⟨c1, c2⟩, e1, e2⟩ := ht
    dsimp only at *
    rw [Prod.ext_iff] at c1
    have z : m.termData = d'.1 := by rw [← e1]; exact c1.2
    exact ⟨d', j, hk, hd', hj, b1, z, c1.1, c1.2, by rw [hq, e2, z], by rw [hd, c2], by rw [a1, e2, z]⟩

/-- **C74** The gains are copied into the results exactly when every block of the results has one row for each control, constraint
and next state of the factor, one column for each state and one for the feedforward. -/
theorem C74_gains_reads (m : Mem) : copyGains m = some () ↔ ∀ t ≤ m.nsteps, ∃ d, m.solver.datas[t]? = some d ∧
    m.gains[t]? = some (d.2.1 + d.2.2.1 + d.2.2.2, d.1 + 1) := by
  constructor
  · intro h t ht
    have h := allM_get h t (by omega)
    simp only [Option.bind_eq_bind, Option.bind_eq_some_iff, gd] at h
    exact h
  · intro h
    refine allM_some fun t ht => ?_
    obtain ⟨d, h1, h2⟩ := h t (by omega)
    simp [h1, h2, guard, gainRows]

/-- **C74** An evaluation of the problem is executed exactly when: states and controls are as many as the horizon asks, the first
state and the target of the initial condition have the size of its space, every stage is called with a state and a control of
its sizes and writes into data of its sizes, and so do terminal cost and constraints, which take the empty control of the
terminal cost. -/
theorem C74_evaluation_reads (P : Prob) (m : Mem) (xs us : List ℕ) : problemCall P m xs us = some () ↔
    (xs.length = P.stages.length + 1 ∧ us.length = P.stages.length) ∧
    (xs[0]? = some P.initNx ∧ (∀ k, P.x0 = some k → k = P.initNx) ∧ m.initData = (P.initNr, P.initNdx)) ∧
    (∀ (i : ℕ) (s : Stage), P.stages[i]? = some s → xs[i]? = some s.nx1 ∧ us[i]? = some s.nu ∧ s.cnx = s.nx1 ∧
      ∃ d, m.sd[i]? = some d ∧ d.xnext = s.nx2 ∧ d.jac = (s.ndx2, s.ndx1, s.nu) ∧ d.cost = (s.cndx, s.nu) ∧ d.cstrs = s.cstrs) ∧
    xs[P.stages.length]? = some P.termNx ∧ m.termData = P.termNdx ∧
    (m.termCstrs = P.termCstrs.map fun c => (c.1, c.2.1)) ∧
    ∀ c ∈ P.termCstrs, ∀ k, c.2.2 = some k → k = P.termNu := by
  have ho (o : Option ℕ) (n : ℕ) : o.all (· == n) = true ↔ ∀ k, o = some k → k = n := by cases o <;> simp
  constructor
  · intro h
    simp only [problemCall, Option.bind_eq_bind, Option.bind_eq_some_iff, gd, exists_const] at h
    obtain ⟨h1, ⟨h2, h3, h4⟩, u, ha, ⟨h5, h6⟩, h7, h8⟩ := h
    refine ⟨h1, ⟨h2, (ho _ _).1 h3, h4⟩, fun i s hs => ?_, h5, h6, h7, fun c hc => (ho _ _).1 (List.all_eq_true.1 h8 c hc)⟩
    have ha := allM_get ha i (List.getElem?_eq_some_iff.1 hs).1
    simp only [Option.bind_eq_some_iff, gd, exists_const] at ha
    obtain ⟨s', hs', d, hd, ⟨a1, a2, a3⟩, a4⟩ := ha
    rw [hs] at hs'
    cases hs'
    exact ⟨a1, a2, a3, d, hd, a4⟩
  · rintro ⟨h1, ⟨h2, h3, h4⟩, ha, h5, h6, h7, h8⟩
    simp only [problemCall, Option.bind_eq_bind, Option.bind_eq_some_iff, gd, exists_const]
    refine ⟨h1, ⟨h2, (ho _ _).2 h3, h4⟩, (), allM_some fun i hi => ?_, ⟨h5, h6⟩, h7,
      List.all_eq_true.2 fun c hc => (ho _ _).2 (h8 c hc)⟩
    have hs : P.stages[i]? = some P.stages[i] := List.getElem?_eq_getElem hi
    obtain ⟨a1, a2, a3, d, hd, a4⟩ := ha i _ hs
    simp only [Option.bind_eq_some_iff, gd, exists_const]
    exact ⟨_, hs, d, hd, ⟨a1, a2, a3⟩, a4⟩

/-- **C74** Multiplier estimates that are computed: at every stage the multipliers, their estimates, the shifted constraints and the
active set have the size of the stage's constraints, the product of sets has their blocks, the costate and the gap have the size
of the next tangent space, the next state fits the dynamics; the same at the end if there are terminal constraints; afterwards
gradients of the multipliers and estimates of the costates have the sizes of constraints and gaps. -/
theorem C74_multipliers_read (P : Prob) (m m' : Mem) (xs lams vs : List ℕ) (h : multipliers P m xs lams vs = some m')
    (hN : m.nsteps = P.stages.length) :
    lams[0]? = some m.initData.1 ∧ m'.ws.dyn_slacks[0]? = some m.initData.1 ∧ m'.ws.lams_plus[0]? = some m.initData.1 ∧
    (∀ (i : ℕ) (s : Stage), P.stages[i]? = some s → vs[i]? = some s.nc ∧ lams[i + 1]? = some s.ndx2 ∧ xs[i + 1]? = some s.nx2 ∧
      (∃ d, m.sd[i]? = some d ∧ d.xnext = s.nx2 ∧ d.cstrs.map (·.1) = s.cstrs.map (·.1)) ∧
      m.ws.dyn_slacks[i + 1]? = some s.ndx2 ∧ m.ws.shifted_constraints[i]? = some s.nc ∧ m.ws.prev_vs[i]? = some s.nc ∧
      m.ws.vs_plus[i]? = some s.nc ∧ m.ws.active[i]? = some s.nc ∧ m.ws.product_sets[i]? = some (s.cstrs.map (·.1)) ∧
      m'.Lvs[i]? = some s.nc ∧ m'.ws.stage_infeasibilities[i]? = some s.nc ∧ m'.ws.lams_plus[i + 1]? = some s.ndx2) ∧
    (P.termCstrs ≠ [] → vs[m.nsteps]? = some P.termNc ∧ m.ws.shifted_constraints[m.nsteps]? = some P.termNc ∧
      m.termCstrs.map (·.1) = P.termCstrs.map (·.1) ∧ m.ws.prev_vs[m.nsteps]? = some P.termNc ∧
      m.ws.vs_plus[m.nsteps]? = some P.termNc ∧ m.ws.active[m.nsteps]? = some P.termNc ∧
      m.ws.product_sets[m.nsteps]? = some (P.termCstrs.map (·.1)) ∧ m'.Lvs[m.nsteps]? = some P.termNc) := by
  simp only [multipliers, Option.bind_eq_bind, Option.bind_eq_some_iff, gd, exists_const] at h
  obtain ⟨h1, h2, h3, u, ha, h⟩ := h
  have ht : (P.termCstrs ≠ [] → vs[m.nsteps]? = some P.termNc ∧ m.ws.shifted_constraints[m.nsteps]? = some P.termNc ∧
      m.termCstrs.map (·.1) = P.termCstrs.map (·.1) ∧ m.ws.prev_vs[m.nsteps]? = some P.termNc ∧
      m.ws.vs_plus[m.nsteps]? = some P.termNc ∧ m.ws.active[m.nsteps]? = some P.termNc ∧
      m.ws.product_sets[m.nsteps]? = some (P.termCstrs.map (·.1))) ∧
      m' = { m with
        Lvs := setPre m.Lvs (P.stages.map Stage.nc ++ if P.termCstrs = [] then [] else [P.termNc])
        ws := { m.ws with
          dyn_slacks := setPre m.ws.dyn_slacks [m.initData.1]
          lams_plus := setPre m.ws.lams_plus (m.initData.1 :: P.stages.map (·.ndx2))
          stage_infeasibilities := setPre m.ws.stage_infeasibilities
            (P.stages.map Stage.nc ++ if P.termCstrs = [] then [] else [P.termNc]) } } := by
    by_cases hc : P.termCstrs = []
    · simp only [hc, ne_eq, not_true, if_false, Option.some.injEq] at h
      refine ⟨fun h => absurd hc h, ?_⟩
      rw [hc]
      simpa using h.symm
    · simp only [hc, ne_eq, not_false_eq_true, if_true, Option.bind_eq_some_iff, gd, exists_const, Option.some.injEq] at h
      obtain ⟨a1, ⟨a2, a3⟩, ⟨a4, a5, a6⟩, a7, rfl⟩ := h
      refine ⟨fun _ => ⟨a1, a2, a3, a4, a5, a6, a7⟩, ?_⟩
      simp only [hc, if_false]
  obtain ⟨ht, rfl⟩ := ht
  refine ⟨h2, by simp [setPre], by simp [setPre], fun i s hs => ?_, fun hc => ?_⟩
  · have hi := (List.getElem?_eq_some_iff.1 hs).1
    have ha := allM_get ha i (by omega)
    simp only [Option.bind_eq_some_iff, gd, exists_const] at ha
    obtain ⟨s', hs', d, hd, ⟨a1, a2⟩, ⟨a3, a4, a5⟩, ⟨a6, a7⟩, ⟨a8, a9, a10⟩, a11⟩ := ha
    rw [hs] at hs'
    cases hs'
    have e : ∀ (l : List ℕ) (t : List ℕ), (setPre l (P.stages.map Stage.nc ++ t))[i]? = some s.nc := by
      intro l t
      unfold setPre
      rw [List.append_assoc, List.getElem?_append_left (by simpa using hi), List.getElem?_map, hs]
      rfl
    refine ⟨a1, a2, a3, ⟨d, hd, a4, a7⟩, a5, a6, a8, a9, a10, a11, e _ _, e _ _, ?_⟩
    show (setPre _ _)[i + 1]? = _
    unfold setPre
    rw [List.cons_append, List.getElem?_cons_succ, List.getElem?_append_left (by simpa using hi), List.getElem?_map, hs]
    rfl
  · obtain ⟨a1, a2, a3, a4, a5, a6, a7⟩ := ht hc
    refine ⟨a1, a2, a3, a4, a5, a6, a7, ?_⟩
    show (setPre _ _)[m.nsteps]? = _
    unfold setPre
    rw [if_neg hc, hN, List.append_assoc, List.getElem?_append_right (by simp)]
    simp

/-- **C74** Derivatives of the Lagrangian that are computed: at every stage the gradient of the cost, the transposed derivatives of
dynamics and constraints and the costate have the size of the node's gradient, which is that of the node's costate (of the
initial condition at node 0); so have terminal cost and constraints; afterwards the gradients have these sizes. -/
theorem C74_lagrangian_reads (P : Prob) (m m' : Mem) (lams vs : List ℕ) (h : lagrangian P m lams vs = some m') :
    lams[0]? = some m.initData.1 ∧ m'.Lxs[0]? = some m.initData.2 ∧
    (∀ (i : ℕ) (s : Stage), P.stages[i]? = some s → ∃ d lx, m.sd[i]? = some d ∧ m'.Lxs[i]? = some lx ∧ m'.Lus[i]? = some d.cost.2 ∧
      (i ≠ 0 → lams[i]? = some lx) ∧ d.cost.1 = lx ∧ d.jac.2 = d.cost ∧ lams[i + 1]? = some d.jac.1 ∧ vs[i]? = some s.nc ∧
      d.cstrs.map (·.1) = s.cstrs.map (·.1) ∧ ∀ c ∈ d.cstrs, c.2 = lx) ∧
    m'.Lxs[P.stages.length]? = some m.termData ∧ vs[P.stages.length]? = some P.termNc ∧
    m.termCstrs.map (·.1) = P.termCstrs.map (·.1) ∧ ∀ c ∈ m.termCstrs, c.2 = m.termData := by
  simp only [lagrangian, Option.bind_eq_bind, Option.bind_eq_some_iff, gd, exists_const, Option.some.injEq] at h
  obtain ⟨⟨h0, h0'⟩, h1, u, ha, lx, hlx, ⟨rfl, h3⟩, ⟨h4, h5⟩, rfl⟩ := h
  have hX : ∀ i k, i ≤ P.stages.length → lxAt m lams i = some k →
      (setPre m.Lxs (m.initData.2 :: (lams.drop 1).take P.stages.length))[i]? = some k := by
    intro i k hi hk
    unfold lxAt at hk
    unfold setPre
    cases i with
    | zero => simpa using hk
    | succ i =>
      rw [if_neg (by omega)] at hk
      have hl := (List.getElem?_eq_some_iff.1 hk).1
      rw [List.cons_append, List.getElem?_cons_succ, List.getElem?_append_left (by simp; omega),
        List.getElem?_take_of_lt (by omega), List.getElem?_drop, Nat.add_comm 1, hk]
  refine ⟨h1, by simp [setPre], fun i s hs => ?_, hX _ _ le_rfl hlx, h3, h4, fun c hc => by simpa using List.all_eq_true.1 h5 c hc⟩
  have hi := (List.getElem?_eq_some_iff.1 hs).1
  have ha := allM_get ha i hi
  simp only [Option.bind_eq_some_iff, gd, exists_const] at ha
  obtain ⟨s', hs', d, hd, lx, hlx', rfl, ⟨a1, a2, a3⟩, ⟨a4, a5⟩, a6⟩ := ha
  rw [hs] at hs'
  cases hs'
  refine ⟨d, _, hd, hX i _ hi.le hlx', ?_, fun hne => ?_, rfl, Prod.ext a2 a3, a1, a4, a5, fun c hc => by simpa using List.all_eq_true.1 a6 c hc⟩
  · have hl := (List.getElem?_eq_some_iff.1 hd).1
    show (setPre _ _)[i]? = _
    unfold setPre
    rw [List.getElem?_append_left (by simp; omega), List.getElem?_map, List.getElem?_take_of_lt hi, hd]
    rfl
  · unfold lxAt at hlx'
    rwa [if_neg hne] at hlx'

/-- **C74** Projected Jacobians that are computed: at every stage constraint derivatives, blocks of the projected Jacobian, product of
sets, gradients of the multipliers and shifted constraints have the same blocks and sizes; so have those at the end if there are
terminal constraints; afterwards the corrections of the gradients have the columns of the projected Jacobians. -/
theorem C74_projection_reads (P : Prob) (m m' : Mem) (h : projectedJacobians P m = some m') :
    (∀ i < m.nsteps, ∃ s d j, P.stages[i]? = some s ∧ m.sd[i]? = some d ∧ m.ws.proj_jacs[i]? = some j ∧ d.cstrs.map (·.1) = j.1 ∧
      (∀ c ∈ d.cstrs, c.2 = j.2.1) ∧ (s.cstrs ≠ [] → s.nu = j.2.2) ∧ m.Lvs[i]? = some j.1.sum ∧
      m.ws.shifted_constraints[i]? = some j.1.sum ∧ m.ws.product_sets[i]? = some j.1 ∧ m'.lxCorr[i]? = some j.2.1 ∧
      m'.luCorr[i]? = some j.2.2) ∧
    (P.termCstrs ≠ [] → ∃ j, m.ws.proj_jacs[m.nsteps]? = some j ∧ m.termCstrs.map (·.1) = j.1 ∧ (∀ c ∈ m.termCstrs, c.2 = j.2.1) ∧
      m.Lvs[m.nsteps]? = some j.1.sum ∧ m.ws.shifted_constraints[m.nsteps]? = some j.1.sum ∧
      m.ws.product_sets[m.nsteps]? = some j.1 ∧ m'.lxCorr[m.nsteps]? = some j.2.1) ∧
    (m.lxCorr[m.nsteps]?).isSome := by
  simp only [projectedJacobians, Option.bind_eq_bind, Option.bind_eq_some_iff, gd, exists_const] at h
  obtain ⟨⟨h1, h2⟩, u, ha, h⟩ := h
  have ha := allM_get ha
  simp only [Option.bind_eq_some_iff, gd, exists_const] at ha
  have ht : (P.termCstrs ≠ [] → ∃ j, m.ws.proj_jacs[m.nsteps]? = some j ∧ (m.termCstrs.map (·.1) = j.1 ∧
      m.termCstrs.all (fun c => c.2 == j.2.1) = true) ∧ (m.Lvs[m.nsteps]? = some j.1.sum ∧
      m.ws.shifted_constraints[m.nsteps]? = some j.1.sum) ∧ m.ws.product_sets[m.nsteps]? = some j.1) ∧
      m' = { m with
        lxCorr := setPre m.lxCorr ((m.ws.proj_jacs.take (if P.termCstrs = [] then m.nsteps else m.nsteps + 1)).map fun j => j.2.1)
        luCorr := setPre m.luCorr ((m.ws.proj_jacs.take m.nsteps).map fun j => j.2.2) } := by
    by_cases hc : P.termCstrs = []
    · simp only [hc, ne_eq, not_true, if_false, Option.some.injEq] at h
      refine ⟨fun h => absurd hc h, ?_⟩
      rw [hc]
      simpa using h.symm
    · simp only [hc, ne_eq, not_false_eq_true, if_true, Option.bind_eq_some_iff, gd, exists_const, Option.some.injEq] at h
      obtain ⟨j, hj, a1, a2, a3, rfl⟩ := h
      refine ⟨fun _ => ⟨j, hj, a1, a2, a3⟩, ?_⟩
      simp only [hc, if_false]
  obtain ⟨ht, rfl⟩ := ht
  have e : ∀ (l : List ℕ) (n i : ℕ) (g : List ℕ × ℕ × ℕ → ℕ) (j : List ℕ × ℕ × ℕ), i < n → m.ws.proj_jacs[i]? = some j →
      (setPre l ((m.ws.proj_jacs.take n).map g))[i]? = some (g j) := by
    intro l n i g j hi hj
    have hl := (List.getElem?_eq_some_iff.1 hj).1
    unfold setPre
    rw [List.getElem?_append_left (by simp; omega), List.getElem?_map, List.getElem?_take_of_lt hi, hj]
    rfl
  refine ⟨fun i hi => ?_, fun hc => ?_, by simp [h1]⟩
  · obtain ⟨s, hs, d, hd, j, hj, ⟨a1, a2, a3⟩, ⟨a4, a5⟩, a6⟩ := ha i hi
    exact ⟨s, d, j, hs, hd, hj, a1, fun c hc => by simpa using List.all_eq_true.1 a2 c hc, a3, a4, a5, a6,
      e _ _ _ _ j (by split <;> omega) hj, e _ _ _ _ j hi hj⟩
  · obtain ⟨j, hj, ⟨a1, a2⟩, ⟨a4, a5⟩, a6⟩ := ht hc
    exact ⟨j, hj, a1, fun c hc => by simpa using List.all_eq_true.1 a2 c hc, a4, a5, a6, e _ _ _ _ j (by rw [if_neg hc]; omega) hj⟩

/-- **C74** A directional derivative that is computed pairs vectors of equal sizes: gradient and step of the state at every node,
gradient and step of the control at every stage. -/
theorem C74_slope_reads (P : Prob) (m m' : Mem) (h : directional P m = some m') :
    lagrangian P m m.ws.lams_plus m.ws.vs_plus = some m' ∧
    (∀ i ≤ m'.nsteps, ∃ k, m'.Lxs[i]? = some k ∧ m'.ws.dxs[i]? = some k) ∧
    ∀ i < m'.nsteps, ∃ k, m'.Lus[i]? = some k ∧ m'.ws.dus[i]? = some k := by
  simp only [directional, Option.bind_eq_bind, Option.bind_eq_some_iff, gd, exists_const, Option.some.injEq] at h
  obtain ⟨m1, h1, -, ⟨h2, h3⟩, u, ha, rfl⟩ := h
  have ha := allM_get ha
  refine ⟨h1, fun i hi => ?_, fun i hi => ?_⟩
  · cases i with
    | zero =>
      obtain ⟨k, hk⟩ := Option.isSome_iff_exists.1 h2
      exact ⟨k, hk, h3 ▸ hk⟩
    | succ i =>
      have h := ha i hi
      simp only [Option.bind_eq_some_iff, gd, exists_const] at h
      obtain ⟨k, hk⟩ := Option.isSome_iff_exists.1 h.1.1
      exact ⟨k, hk, h.1.2 ▸ hk⟩
  · have h := ha i hi
    simp only [Option.bind_eq_some_iff, gd, exists_const] at h
    obtain ⟨k, hk⟩ := Option.isSome_iff_exists.1 h.2.1
    exact ⟨k, hk, h.2.2 ▸ hk⟩

/-- A problem with two stages, one control and two controls, constraints at the second stage and at the end. -/
def exP : Prob :=
  { stages := [⟨7, 6, 1, 7, 6, 7, 6, false, []⟩, ⟨7, 6, 2, 7, 6, 7, 6, false, [(3, 6), (1, 6)]⟩]
    x0 := some 7, initNr := 6, initNx := 7, initNdx := 6, termNx := 7, termNdx := 6, termNu := 0
    termCstrs := [(2, 6, none)] }

/-- The example fits: state size 7, tangent size 6. -/
theorem exP_fits : Fits 6 exP := by
  refine ⟨by simp [exP], ?_, ?_, ?_, ?_, ?_, rfl, rfl, ?_⟩
  · intro s hs
    simp only [exP, List.mem_cons, List.not_mem_nil, or_false] at hs
    rcases hs with rfl | rfl <;> constructor <;> simp
  · intro s hs; simp [exP] at hs; subst hs; rfl
  · intro i s s' hs hs'
    match i with
    | 0 => simp [exP] at hs hs'; subst hs; subst hs'; rfl
    | i + 1 => simp [exP] at hs'
  · intro s hs; simp [exP] at hs; subst hs; rfl
  · intro x hx; simp [exP] at hx; subst hx; rfl
  · intro c hc; simp [exP] at hc; subst hc; simp

example : ∃ m, linearStep exP m = some m := ⟨_, linearStep_uni exP_fits⟩

example : ∃ m, problemCall exP m m.xs m.us = some () ∧ multipliers exP m m.xs m.lams m.vs = some m ∧
    lagrangian exP m m.lams m.vs = some m ∧ projectedJacobians exP m = some m ∧ directional exP m = some m :=
  ⟨_, problemCall_uni exP_fits, multipliers_uni exP_fits, lagrangian_uni exP_fits, projectedJacobians_uni exP_fits,
    directional_uni exP_fits⟩

example : ∃ m, (∀ e, backward e m = some ()) ∧ forward m = some m ∧ copyGains m = some () :=
  ⟨_, fun e => backward_uni exP_fits e, forward_uni exP_fits, copyGains_uni exP_fits⟩

example : ∃ m, nonlinearStep exP m = some m := ⟨_, nonlinearStep_uni exP_fits⟩

example : ∃ m, setup exP = some m ∧ run ⟨false, true, true⟩ exP [([.converged], .primal), ([.step 3, .step 1], .newton)] m = some m := by
  obtain ⟨m, hm⟩ := C74_setup_accepts exP 6 exP_fits
  exact ⟨m, hm, (C74_runs_exactly_in_uniform_tangent_spaces exP m hm _ (by simp [exP])).2 ⟨6, exP_fits⟩ _⟩

/-- **C74** A problem whose dynamics lead to a tangent space of another size passes the integrity check and is accepted by
`setup`, and the first iteration is undefined: the workspace builds its knots with the state size as the size of the next
state. -/
theorem C74_setup_accepts_other_sizes : ∃ P m, setup P = some m ∧
    (∀ s ∈ P.stages, s.cnx = s.nx1 ∧ s.cndx = s.ndx1 ∧ s.cstrs = []) ∧
    ∀ c n u, run c P [([.step (n + 1)], u)] m = none := by
  let P : Prob := { stages := [⟨2, 2, 1, 3, 3, 2, 2, true, []⟩], x0 := some 2, initNr := 2, initNx := 2, initNdx := 2
                    termNx := 3, termNdx := 3, termNu := 0, termCstrs := [] }
  refine ⟨P, _, rfl, by simp [P], fun c n u => C74_other_problems_undefined P _ rfl ?_ c n u⟩
  intro ndx h
  have h1 := h.stages ⟨2, 2, 1, 3, 3, 2, 2, true, []⟩ (by simp [P])
  have a := h1.ndx1
  have b := h1.ndx2
  simp at a b
  omega

/-- **C74** A problem without stages is accepted by `setup`, and the first trial is undefined. -/
theorem C74_empty_horizon : ∃ P m, P.stages = [] ∧ setup P = some m ∧
    ∀ c n u, run c P [([.step (n + 1)], u)] m = none := by
  let P : Prob := { stages := [], x0 := some 2, initNr := 2, initNx := 2, initNdx := 2, termNx := 2, termNdx := 2
                    termNu := 0, termCstrs := [] }
  exact ⟨P, _, rfl, rfl, fun c n u => C74_other_problems_undefined P _ rfl (fun ndx h => h.ne rfl) c n u⟩

/-- **C74** With a forced initial condition a problem whose initial condition is no state error cannot be run. -/
theorem C74_forced_needs_initial_state (P : Prob) (m : Mem) (c : Cfg) (hf : c.forced = true) (hx : P.x0 = none)
    (loops : List (List Turn × Upd)) : run c P loops m = none := by
  simp only [run, start, hf, hx, if_true]
  rfl

/-- The memory that `setup` gives is determined by the problem. -/
def Fresh (P : Prob) (m : Mem) : Prop := setup P = some m

/-- The new stages of a sequence of commands. -/
def newStages : List Cmd → List Stage
  | [] => []
  | .solve _ _ :: cs => newStages cs
  | .shift s :: cs => s :: newStages cs

/-- **C74** (part) A controller that, in any order and any number, solves with any options and shifts by new stages never
meets undefined behaviour, if all stages have the same state, tangent and control sizes, the horizon has at least two stages
and the initial condition is a state error; afterwards the memory is the one a fresh `setup` for the current problem gives,
and the problem consists of the last stages given.
Missing: other sizes of the controls (`C74_other_control_size_undefined`), horizon one (`C74_shift_horizon_one_undefined`). -/
theorem C74_controller_partial (nx ndx k : ℕ) (cmds : List Cmd) (P : Prob) (m : Mem) (hP : Fits ndx P)
    (hs : ∀ s ∈ P.stages, Same nx k s) (hN : 2 ≤ P.stages.length) (hx : P.x0 = some nx)
    (hc : ∀ s ∈ newStages cmds, StageFits ndx s ∧ Same nx k s) (hm : Fresh P m) :
    ∃ P' m', control P m cmds = some (P', m') ∧ Fresh P' m' ∧ Fits ndx P' ∧
      P'.stages = (P.stages ++ newStages cmds).drop (newStages cmds).length := by
  induction cmds generalizing P m with
  | nil => exact ⟨P, m, rfl, hm, hP, by simp [newStages]⟩
  | cons cmd cmds ih =>
    have hu : m = uni ndx P := by
      have := setup_uni hP
      rw [Fresh, this] at hm
      exact (Option.some.inj hm).symm
    have hin : P.initNx = nx := (hP.x0 nx hx).symm
    cases cmd with
    | solve c loops =>
      have hr : exec P m (.solve c loops) = some (P, m) := by
        rw [hu]
        simp only [exec, run_uni hP c (fun _ => by rw [hx]; simp) loops, Option.map_some]
      simp only [control, hr]
      exact ih P m hP hs hN hx hc hm
    | shift s =>
      obtain ⟨hsf, hss⟩ := hc s (by simp [newStages])
      have hr : exec P m (.shift s) = some (P.shift s, uni ndx (P.shift s)) := by
        rw [hu]
        simp only [exec, cycle_uni hP hs hin hN hx s hsf hss, Option.map_some]
      obtain ⟨h1, h2, h3⟩ := shift_fits hP hs hin hsf hss
      simp only [control, hr]
      obtain ⟨P', m', e1, e2, e3, e4⟩ := ih (P.shift s) (uni ndx (P.shift s)) h1 h2 (by omega) hx
        (fun t ht => hc t (by simp [newStages, ht])) (setup_uni h1)
      refine ⟨P', m', e1, e2, e3, ?_⟩
      rw [e4]
      obtain ⟨a, ss, hst⟩ := List.exists_cons_of_ne_nil hP.ne
      simp [newStages, Prob.shift, hst]

/-- A problem with three equal stages. -/
def exQ : Prob := { exP with stages := List.replicate 3 ⟨7, 6, 2, 7, 6, 7, 6, false, [(3, 6)]⟩ }

theorem exQ_fits : Fits 6 exQ ∧ ∀ s ∈ exQ.stages, Same 7 2 s := by
  have key : ∀ s ∈ exQ.stages, s = ⟨7, 6, 2, 7, 6, 7, 6, false, [(3, 6)]⟩ := by
    intro s hs; exact List.eq_of_mem_replicate hs
  refine ⟨⟨by simp [exQ], ?_, ?_, ?_, ?_, ?_, rfl, rfl, ?_⟩, ?_⟩
  · intro s hs; rw [key s hs]; constructor <;> simp
  · intro s hs; rw [key s (List.mem_of_getElem? hs)]; rfl
  · intro i s s' hs hs'; rw [key s (List.mem_of_getElem? hs), key s' (List.mem_of_getElem? hs')]
  · intro s hs; rw [key s (List.mem_of_getElem? hs)]; rfl
  · intro x hx; simp [exQ, exP] at hx; subst hx; rfl
  · intro c hc; simp [exQ, exP] at hc; subst hc; simp
  · intro s hs; rw [key s hs]; constructor <;> rfl

/-- Solve, shift twice (a stage with other constraints first), solve again. -/
example : ∃ m P' m', setup exQ = some m ∧
    control exQ m [.solve ⟨true, false, true⟩ [([.step 2], .newton)], .shift ⟨7, 6, 2, 7, 6, 7, 6, false, []⟩,
      .shift ⟨7, 6, 2, 7, 6, 7, 6, true, [(1, 6), (4, 6)]⟩, .solve ⟨false, false, true⟩ [([.flat], .failed)]] = some (P', m') ∧
    setup P' = some m' := by
  obtain ⟨m, hm⟩ := C74_setup_accepts exQ 6 exQ_fits.1
  obtain ⟨P', m', h1, h2, -⟩ := C74_controller_partial 7 6 2 [.solve ⟨true, false, true⟩ [([.step 2], .newton)],
      .shift ⟨7, 6, 2, 7, 6, 7, 6, false, []⟩,
      .shift ⟨7, 6, 2, 7, 6, 7, 6, true, [(1, 6), (4, 6)]⟩, .solve ⟨false, false, true⟩ [([.flat], .failed)]] exQ m
    exQ_fits.1 exQ_fits.2 (by simp [exQ]) rfl
    (by
      intro s hs
      simp only [newStages, List.mem_cons, List.not_mem_nil, or_false] at hs
      rcases hs with rfl | rfl <;> refine ⟨⟨rfl, ?_, rfl, rfl, rfl, ?_⟩, ⟨rfl, rfl, rfl⟩⟩ <;> simp) hm
  exact ⟨m, P', m', hm, h1, h2⟩

/-- **C74** A shift of a solver set up for a horizon of one stage is undefined. -/
theorem C74_shift_horizon_one_undefined (P : Prob) (m : Mem) (hm : Fresh P m) (h1 : P.stages.length = 1) (s : Stage) :
    control P m [.shift s] = none := by
  obtain ⟨x, rfl⟩ := setup_create hm
  have hr : rotateLeft (Mem.create P x).ws.trial_us 1 0 = none := by
    obtain ⟨a, ha⟩ := List.length_eq_one_iff.1 h1
    simp [Mem.create, Cycle.Workspace.create, Prob.toCycle, ha, rotateLeft]
  have : cycle (Mem.create P x) (P.shift s) (SData.create s) = none := by
    cases hc : cycle (Mem.create P x) (P.shift s) (SData.create s) with
    | none => rfl
    | some m' =>
      simp only [cycle, Option.bind_eq_bind, Option.bind_eq_some_iff] at hc
      obtain ⟨_, _, _, _, _, _, _, _, w, hw, ws, rfl, _⟩ := hc
      unfold Cycle.Workspace.cycleAppend at hw
      obtain ⟨t, _, hw⟩ := Option.bind_eq_some_iff.1 hw
      split_ifs at hw
      · cases hw
      · obtain ⟨_, _, hw⟩ := Option.bind_eq_some_iff.1 hw
        obtain ⟨_, h2, _⟩ := Option.bind_eq_some_iff.1 hw
        rw [hr] at h2; cases h2
  simp only [control, exec, this, Option.map_none]

/-- Such a problem is set up. -/
example : ∃ m, Fresh { exP with stages := exP.stages.take 1 } m := ⟨_, rfl⟩

/-- **C74** A shift by a stage whose control size differs from that of the present last stage leaves controls of a wrong size
in the results, and the next run is undefined, for every problem that `setup` accepts. -/
theorem C74_other_control_size_undefined (P : Prob) (m : Mem) (hm : Fresh P m) (l s : Stage)
    (hl : P.stages.getLast? = some l) (hs : s.nu ≠ l.nu) (c : Cfg) (loops : List (List Turn × Upd)) (hne : loops ≠ []) :
    control P m [.shift s, .solve c loops] = none := by
  obtain ⟨x, rfl⟩ := setup_create hm
  cases hc : cycle (Mem.create P x) (P.shift s) (SData.create s) with
  | none => simp only [control, exec, hc, Option.map_none]
  | some m' =>
    have hN : P.stages ≠ [] := by intro e; rw [e] at hl; cases hl
    have hus : m'.us[P.stages.length - 1]? = some l.nu := by
      obtain ⟨a, ss, hst⟩ := List.exists_cons_of_ne_nil hN
      simp only [cycle, Option.bind_eq_bind, Option.bind_eq_some_iff, Option.some.injEq] at hc
      obtain ⟨x0, _, r, hr, _, _, _, _, _, _, _, _, _, _, _, _, rfl⟩ := hc
      unfold resultsCycle at hr
      obtain ⟨x1, _, hr⟩ := Option.bind_eq_some_iff.1 hr
      obtain ⟨u1, hu1, hr⟩ := Option.bind_eq_some_iff.1 hr
      obtain ⟨x2, _, hr⟩ := Option.bind_eq_some_iff.1 hr
      obtain ⟨u2, hu2, hr⟩ := Option.bind_eq_some_iff.1 hr
      have hu0 : (Mem.create P x).us = a.nu :: ss.map (·.nu) := by
        simp [Mem.create, Cycle.Workspace.create, Prob.toCycle, hst, Function.comp_def, Stage.toCycle]
      rw [hu0, frontFromBack] at hu1
      obtain rfl := Option.some.inj hu1
      rw [Cycle.rotateLeft_all] at hu2
      obtain rfl := Option.some.inj hu2
      have e : r.2.1 = ss.map (·.nu) ++ [(a.nu :: ss.map (·.nu)).getLast (by simp)] := by
        obtain ⟨_, _, hr⟩ := Option.bind_eq_some_iff.1 hr
        obtain ⟨_, _, hr⟩ := Option.bind_eq_some_iff.1 hr
        obtain ⟨_, _, hr⟩ := Option.bind_eq_some_iff.1 hr
        obtain ⟨_, _, hr⟩ := Option.bind_eq_some_iff.1 hr
        obtain ⟨_, _, hr⟩ := Option.bind_eq_some_iff.1 hr
        obtain ⟨_, _, hr⟩ := Option.bind_eq_some_iff.1 hr
        obtain ⟨_, _, hr⟩ := Option.bind_eq_some_iff.1 hr
        obtain ⟨_, _, hr⟩ := Option.bind_eq_some_iff.1 hr
        obtain ⟨_, _, hr⟩ := Option.bind_eq_some_iff.1 hr
        split_ifs at hr
        · rw [← Option.some.inj hr]
        · obtain ⟨_, _, hr⟩ := Option.bind_eq_some_iff.1 hr
          obtain ⟨_, _, hr⟩ := Option.bind_eq_some_iff.1 hr
          rw [← Option.some.inj hr]
      dsimp only
      rw [e]
      have hl' : (a.nu :: ss.map (·.nu)).getLast? = some l.nu := by
        rw [hst] at hl
        have := congrArg (Option.map (·.nu)) hl
        rw [← List.getLast?_map] at this
        exact this
      rw [List.getLast?_eq_getLast_of_ne_nil (by simp)] at hl'
      rw [Option.some.inj hl', hst]
      simp
    have hlen : (P.shift s).stages.length = P.stages.length := by
      have := List.length_pos_iff.2 hN
      simp [Prob.shift]; omega
    have hst : (P.shift s).stages[P.stages.length - 1]? = some s := by
      rw [Prob.shift]
      rw [List.getElem?_append_right (by simp)]; simp
    have hcall : ∀ m1 : Mem, m1.us = m'.us → problemCall (P.shift s) m1 m1.xs m1.us = none := by
      intro m1 e
      cases hp : problemCall (P.shift s) m1 m1.xs m1.us with
      | none => rfl
      | some _ =>
        simp only [problemCall, Option.bind_eq_bind, Option.bind_eq_some_iff] at hp
        obtain ⟨_, _, _, _, _, hall, _⟩ := hp
        have := allM_get hall (P.stages.length - 1) (by have := List.length_pos_iff.2 hN; omega)
        rw [hst] at this
        simp only [Option.bind_eq_some_iff, gd, Option.some.injEq, exists_eq_left'] at this
        obtain ⟨_, _, _, ⟨_, h2, _⟩, _⟩ := this
        rw [e, hus] at h2
        exact absurd (Option.some.inj h2).symm hs
    have hrun : run c (P.shift s) loops m' = none := by
      unfold run
      cases hs' : start c (P.shift s) m' with
      | none => rfl
      | some m1 =>
        have k := start_keeps hs'
        have : ∀ loops : List (List Turn × Upd), loops ≠ [] → outerLoop c (P.shift s) m1 loops = none := by
          intro loops
          induction loops with
          | nil => intro h; exact absurd rfl h
          | cons t ts ih =>
            intro _
            obtain ⟨ts', u⟩ := t
            cases ts with
            | nil => simp only [outerLoop, innerLoop, hcall m1 k.us]; rfl
            | cons t2 ts => simp only [outerLoop] at ih ⊢; rw [ih (by simp)]
        exact this loops hne
    simp only [control, exec, hc, Option.map_some, hrun, Option.map_none]

example : ∃ m, Fresh exQ m ∧ control exQ m [.shift ⟨7, 6, 3, 7, 6, 7, 6, false, []⟩, .solve ⟨true, true, true⟩ [([], .newton)]] =
    none := by
  obtain ⟨m, hm⟩ := C74_setup_accepts exQ 6 exQ_fits.1
  exact ⟨m, hm, C74_other_control_size_undefined exQ m hm _ _ rfl (by decide) _ _ (by simp)⟩

end Aligator.PMem
