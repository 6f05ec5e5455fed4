import Verif.Lemmas.FDDPMem

/-!
# C72: the memory of the FDDP solver fits the problem, also after shifts
-/

namespace Aligator.FMem

open Cycle (rotateLeft)

/-- A solver set up for a problem with uniform states and a matching terminal cost runs any number of iterations, with
any number of trials each, without an access of a wrong size, and no buffer changes its size. -/
theorem C72_runs_in_its_memory {P : Prob} (h : Solvable P) :
    ∃ w r, Workspace.create P = some w ∧ Results.create P = some r ∧ ∀ ns, run P w r ns = some (w, r) := by
  obtain ⟨⟨nx, ndx, hu⟩, s, hl, ht⟩ := h
  have hN : P.stages ≠ [] := by rintro e; simp [e] at hl
  obtain ⟨cw, cr⟩ := create_uniform hu hN
  refine ⟨_, _, cw, cr, fun ns => ?_⟩
  induction ns with
  | nil =>
    have := problemCall_uniform hu
    simp [run, this]
    exact ⟨rfl, rfl⟩
  | cons n ns ih => rw [run, ih]; exact iteration_uniform hu hl ht n

/-- Conversely one iteration with one trial already needs all of that, although set up accepts more problems. -/
theorem C72_needs_uniform_states {P : Prob} {w : Workspace} {r : Results} {n : ℕ} (hN : P.stages ≠ [])
    (cw : Workspace.create P = some w) (cr : Results.create P = some r)
    (h : run P w r [some (n + 1)] ≠ none) : Solvable P := by
  have ic : P.checkIntegrity = true := by
    by_contra hc
    simp [Results.create, hc] at cr
  obtain ⟨o, ho⟩ : ∃ o, iteration P (some (n + 1)) w r = some o := by
    rw [run, run] at h
    split at h
    · simp at h
    · rename_i heq
      split at heq
      · cases heq; exact Option.ne_none_iff_exists'.mp h
      · simp at heq
  obtain ⟨pc, inf, w1, hb, ht⟩ := iteration_parts ho
  obtain ⟨w2, ht⟩ := ht _ rfl
  -- the initial condition is a state error
  obtain ⟨x0, hx0⟩ : ∃ x0, P.x0 = some x0 := by
    cases e : P.x0 with
    | some x0 => exact ⟨x0, rfl⟩
    | none =>
      exfalso
      simp only [infeasOk, e, Bool.and_eq_true] at inf
      grind
  obtain ⟨s0, ss, es⟩ := List.exists_cons_of_ne_nil hN
  have hxs : xsInit P = some (x0 :: P.stages.map (·.nx2)) := by simp [xsInit, hx0]
  rw [Results.create, hxs, if_neg (by simp [ic])] at cr
  rw [Workspace.create, hxs, if_neg (by simp [ic]), es] at cw
  simp only [Option.some.injEq] at cr cw
  rw [← es] at cw
  have wsd : w.stageData = P.stages.map SData.create := by rw [← cw]
  have wq : w.q = P.stages.map fun s => (s.ndx1, s.nu) := by rw [← cw]
  have wn : w.nsteps = P.stages.length := by rw [← cw]
  have wu : w.trialUs = P.stages.map (·.nu) := by rw [← cw]
  have wsl : w.slacks = s0.ndx1 :: P.stages.map (·.ndx2) := by rw [← cw]
  have rx : r.xs = x0 :: P.stages.map (·.nx2) := by rw [← cr]
  have ru : r.us = P.stages.map (·.nu) := by rw [← cr]
  simp only [problemCallOk, Bool.and_eq_true, List.all_eq_true, List.mem_range] at pc
  simp only [infeasOk, Bool.and_eq_true, List.all_eq_true, List.mem_range] at inf
  -- every stage has its own sizes right
  have loc : ∀ t ∈ P.stages, t.nx2 = t.nx1 ∧ t.cnx = t.nx1 ∧ t.ndx2 = t.ndx1 ∧ t.cndx = t.ndx1 := by
    intro t mt
    obtain ⟨i, hi⟩ := List.getElem?_of_mem mt
    have il : i < P.stages.length := (List.getElem?_eq_some_iff.mp hi).1
    have hq := backwardPass_needs hb i (by omega) t (SData.create t) (t.ndx1, t.nu) hi
      (by rw [wsd]; exact map_get _ hi) (by rw [wq]; exact map_get (fun s => (s.ndx1, s.nu)) hi)
    have a := pc.1.2 i il
    have b := inf.2 i il
    rw [hi, wsd, map_get _ hi, ru, map_get _ hi] at a
    rw [hi, wsd, map_get _ hi, rx, wsl, List.getElem?_cons_succ, List.getElem?_cons_succ, map_get _ hi,
      map_get _ hi] at b
    rw [rx] at a
    obtain ⟨x, ex⟩ : ∃ x, (x0 :: P.stages.map (·.nx2))[i]? = some x :=
      ⟨_, List.getElem?_eq_getElem (by simp; omega)⟩
    rw [ex] at a
    simp [stageCallOk, SData.create] at a
    simp [diffOk, SData.create] at b
    have hg : t.cndx + t.nu = t.ndx1 + t.nu := hq.1
    omega
  have z0 := inf.1
  rw [hx0, rx, wsl, es] at z0
  simp [diffOk] at z0
  have zi := pc.1.1.2
  rw [hx0, rx] at zi
  simp at zi
  have ic' := ic
  rw [Prob.checkIntegrity, es] at ic'
  simp only [Bool.and_eq_true, beq_iff_eq] at ic'
  obtain ⟨tx, td, al⟩ := chain_local ss s0 ic'.2 (by rw [← es]; exact loc)
  refine ⟨⟨s0.nx1, s0.ndx1, ?_, by rw [hx0]; simp; omega, by omega, by omega, tx, td⟩, ?_⟩
  · intro t mt
    have l := loc t mt
    have a := al t (by rw [← es]; exact mt)
    omega
  · rw [trials] at ht
    cases ef : forwardPass P (acceptGains w1 r) w1 with
    | none => simp [ef] at ht
    | some w3 =>
      have g := forwardPass_needs ef
      rw [backwardPass_us hb, wu, List.getLast?_map] at g
      cases el : P.stages.getLast? with
      | none => simp [el] at g
      | some s => exact ⟨s, rfl, by simpa [el] using g⟩

/-! ### Sizes relied upon -/

theorem guard_iff {p : Prop} [Decidable p] {u : Unit} : (guard p : Option Unit) = some u ↔ p := by
  unfold guard; split <;> simp_all

theorem hset {α : Type} {l l' : List α} {a : α} {i : ℕ} (h : Cycle.setAt l i a = some l') : l'[i]? = some a := by
  unfold Cycle.setAt at h
  split at h
  · rename_i hi
    cases h
    simp [hi]
  · cases h

/-- **C72** The infeasibility is computed exactly when the initial condition has a target, state, target and gap of node 0 have the
sizes of the space of the first stage, and at every stage the next state of the iterate, the next state of the dynamics and the gap
have the sizes of the space of the *current* state. -/
theorem C72_infeasibility_reads (P : Prob) (w : Workspace) (r : Results) : infeasOk P w r = true ↔
    (∃ s, P.stages[0]? = some s ∧ r.xs[0]? = some s.nx1 ∧ P.x0 = some s.nx1 ∧ w.slacks[0]? = some s.ndx1) ∧
    ∀ (i : ℕ) (s : Stage), P.stages[i]? = some s → r.xs[i + 1]? = some s.nx1 ∧ w.slacks[i + 1]? = some s.ndx1 ∧
      ∃ d, w.stageData[i]? = some d ∧ d.xnext = s.nx1 := by
  unfold infeasOk
  rw [Bool.and_eq_true, List.all_eq_true]
  refine and_congr ⟨fun h => ?_, ?_⟩ ⟨fun h i s hs => ?_, fun h i hi => ?_⟩
  · split at h
    · rename_i s x x0 f h1 h2 h3 h4
      simp only [diffOk, Bool.and_eq_true, beq_iff_eq] at h
      obtain ⟨⟨rfl, rfl⟩, rfl⟩ := h
      exact ⟨s, h1, h2, h3, h4⟩
    · cases h
  · rintro ⟨s, h1, h2, h3, h4⟩
    rw [h1, h2, h3, h4]
    simp [diffOk]
  · have h := h i (List.mem_range.2 (List.getElem?_eq_some_iff.1 hs).1)
    rw [hs] at h
    split at h
    · rename_i s' x d f h1 h2 h3 h4
      cases h1
      simp only [diffOk, Bool.and_eq_true, beq_iff_eq] at h
      obtain ⟨⟨rfl, h5⟩, rfl⟩ := h
      exact ⟨h2, h4, d, h3, h5⟩
    · cases h
  · have hi := List.mem_range.1 hi
    have hs : P.stages[i]? = some P.stages[i] := List.getElem?_eq_getElem hi
    obtain ⟨h1, h2, d, h3, h4⟩ := h i _ hs
    rw [hs, h1, h2, h3]
    simp [diffOk, h4]

/-- **C72** A stage of the backward pass that is executed: derivatives of the dynamics have the rows of the next value function and
enough columns, gradient, Hessian, gap and right-hand side have the sizes of the Q-function, whose state and control sizes are
those of the stage; the value function gets its size. -/
theorem C72_backward_stage_reads (P : Prob) (i : ℕ) (w w' : Workspace) (h : backwardStage P i w = some w') :
    ∃ s d c vn, P.stages[i]? = some s ∧ w.stageData[i]? = some d ∧ w.q[i]? = some (s.ndx1, s.nu) ∧ w.value[i + 1]? = some vn ∧
      d.jac.1 = vn ∧ s.ndx1 + s.nu ≤ d.jac.2 ∧ d.grad = s.ndx1 + s.nu ∧ d.hess = s.ndx1 + s.nu ∧
      w.kktRhs[i]? = some (s.nu, c) ∧ 1 ≤ c ∧ s.ndx1 ≤ c ∧ w.slacks[i]? = some s.ndx1 ∧
      w'.value[i]? = some s.ndx1 ∧ w'.ftVxx[i]? = some s.ndx1 ∧ w'.llts[i]? = some s.nu ∧ w'.Quuks[i]? = some s.nu ∧
      w'.JtH[i]? = some (s.ndx1 + s.nu, vn) := by
  simp only [backwardStage, Option.bind_eq_bind, Option.bind_eq_some_iff, guard_iff, exists_const, Option.some.injEq] at h
  obtain ⟨vn, hvn, ⟨qx, qu⟩, hq, s, hs, d, hd, a1, ⟨a2, a3⟩, ⟨a4, a5⟩, jth, e1, ⟨rr, c⟩, hk, ⟨a6, a7⟩, ⟨a8, a9⟩, llts, e2, quuk, e3, f,
    hf, a10, value, e4, ft, e5, rfl⟩ := h
  dsimp only at *
  subst a8 a9 a10
  have a11 : s.nu = rr := by omega
  subst a11
  exact ⟨s, d, c, vn, hs, hd, hq, hvn, a4, a1, a2, a3, hk, a6, a7, hf, hset e4, hset e5, hset e2, hset e3, hset e1⟩

/-- **C72** A stage of the forward pass that is executed: the gains have one column more than the deviation of the state and the rows
of the control; control and trial control have the size of the stage; the stage is called with arguments and data of its sizes;
the gap, the next deviation and the next states have the sizes of the space of the next state *and* of the current state. -/
theorem C72_forward_stage_reads (P : Prob) (r : Results) (i : ℕ) (w w' : Workspace) (h : forwardStage P r i w = some w') :
    ∃ s d dx, P.stages[i]? = some s ∧ w.stageData[i]? = some d ∧ w.dxs[i]? = some dx ∧ r.gains[i]? = some (s.nu, dx + 1) ∧
      r.us[i]? = some s.nu ∧ w.trialUs[i]? = some s.nu ∧ w.trialXs[i]? = some s.nx1 ∧ s.cnx = s.nx1 ∧ d.xnext = s.nx2 ∧
      d.jac = (s.ndx2, s.ndx1 + s.nu) ∧ d.grad = s.cndx + s.nu ∧ d.hess = s.cndx + s.nu ∧ s.nx2 = s.nx1 ∧ s.ndx2 = s.ndx1 ∧
      w.slacks[i + 1]? = some s.ndx2 ∧ w.trialXs[i + 1]? = some s.nx2 ∧ r.xs[i + 1]? = some s.nx1 ∧
      w'.dus[i]? = some s.nu ∧ w'.dxs[i + 1]? = some s.ndx2 := by
  simp only [forwardStage, Option.bind_eq_bind, Option.bind_eq_some_iff, guard_iff, exists_const, Option.some.injEq, integOk, diffOk,
    stageCallOk, Bool.and_eq_true, beq_iff_eq] at h
  obtain ⟨s, hs, d, hd, ⟨g1, g2⟩, hg, a1, dx, hdx, a2, dus, e1, u, hu, ut, hut, ⟨⟨b1, b2⟩, b3⟩, xt, hxt,
    ⟨⟨⟨⟨⟨⟨c1, c2⟩, c3⟩, c4⟩, c5⟩, c6⟩, c7⟩, f, hf, dxs, e2, xt', hxt', ⟨⟨d1, d2⟩, d3⟩, x', hx', ⟨⟨f1, f2⟩, f3⟩, rfl⟩ := h
  dsimp only at *
  subst b1 b2 b3 c1 d2 d3 f1
  have hg' : g2 = dx + 1 := by omega
  subst hg'
  exact ⟨s, d, dx, hs, hd, hdx, hg, hu, hut, hxt, c5.symm, d1, c4, c6, c7, f2, f3, hf, hxt', hx', hset e1, hset e2⟩

/-- **C72** The two parts of the expected improvement are computed exactly when they pair vectors of equal sizes: gradient of the
controls, feedforward (first column of the gains) and its image at every stage; gradient of the value function, gap and image
of the gap, and deviation and image of the gap, at every node. -/
theorem C72_improvement_reads (w : Workspace) (r : Results) :
    (updateImprovementOk w r = true ↔ (∀ i < w.nsteps, ∃ q g, w.q[i]? = some q ∧ r.gains[i]? = some g ∧ g.2 ≠ 0 ∧ q.2 = g.1 ∧
        w.Quuks[i]? = some g.1) ∧
      ∀ i ≤ w.nsteps, ∃ f, w.value[i]? = some f ∧ w.slacks[i]? = some f ∧ w.ftVxx[i]? = some f) ∧
    (improvementOk w = true ↔ ∀ i ≤ w.nsteps, ∃ f, w.dxs[i]? = some f ∧ w.ftVxx[i]? = some f) := by
  unfold updateImprovementOk improvementOk
  rw [Bool.and_eq_true, List.all_eq_true, List.all_eq_true, List.all_eq_true]
  refine ⟨and_congr ⟨fun h i hi => ?_, fun h i hi => ?_⟩ ⟨fun h i hi => ?_, fun h i hi => ?_⟩, fun h i hi => ?_, fun h i hi => ?_⟩
  · have h := h i (List.mem_range.2 hi)
    split at h
    · rename_i q g k h1 h2 h3
      simp only [Bool.and_eq_true, beq_iff_eq, decide_eq_true_eq] at h
      exact ⟨q, g, h1, h2, by omega, h.1.2, by rw [h3, h.2]⟩
    · cases h
  · obtain ⟨q, g, h1, h2, h3, h4, h5⟩ := h i (List.mem_range.1 hi)
    rw [h1, h2, h5]
    simp [h4]
    omega
  · have h := h i (List.mem_range.2 (by omega))
    split at h
    · rename_i v f t h1 h2 h3
      simp only [Bool.and_eq_true, beq_iff_eq] at h
      obtain ⟨rfl, rfl⟩ := h
      exact ⟨_, h1, h2, h3⟩
    · cases h
  · obtain ⟨f, h1, h2, h3⟩ := h i (by have := List.mem_range.1 hi; omega)
    rw [h1, h2, h3]
    simp
  · have h := h i (List.mem_range.2 (by omega))
    split at h
    · rename_i v t h1 h2
      simp only [beq_iff_eq] at h
      subst h
      exact ⟨_, h1, h2⟩
    · cases h
  · obtain ⟨f, h1, h2⟩ := h i (by have := List.mem_range.1 hi; omega)
    rw [h1, h2]
    simp

/-! ### Shifts -/

/-- In C++, after the first stage has been moved out and a stage appended, rotating the workspace gives the workspace a
new set up would give, exactly if the new stage has a control of the size of the old one. -/
theorem C72_cycleLeft_iff {nx ndx : ℕ} {P : Prob} {s0 s : Stage} {ss : List Stage} {w : Workspace}
    (hP : Uniform nx ndx P) (es : P.stages = s0 :: ss) (hs : Uniform nx ndx (P.shift s))
    (cw : Workspace.create P = some w) :
    w.cycleLeft = Workspace.create (P.shift s) ↔ s.nu = s0.nu := by
  have e' : (P.shift s).stages = ss ++ [s] := by simp [Prob.shift, es]
  rw [(create_uniform hP (by simp [es])).1, Option.some.injEq] at cw
  rw [(create_uniform hs (by simp [e'])).1, ← cw]
  obtain ⟨u1, u2, u3, u4, u5, u6⟩ := hP.1 s0 (by simp [es])
  obtain ⟨v1, v2, v3, v4, v5, v6⟩ := hs.1 s (by simp [e'])
  have r0 : ∀ a : ℕ, rotateLeft (List.replicate (ss.length + 1 + 1) a) 0 0
      = some (List.replicate (ss.length + 1 + 1) a) := fun a => by
    rw [List.replicate_succ, rotate_cons, ← List.replicate_succ', ← List.replicate_succ]
  have r1 : ∀ a : ℕ, rotateLeft (List.replicate (ss.length + 1 + 1) a) 1 0
      = some (List.replicate (ss.length + 1 + 1) a) := fun a => by
    rw [List.replicate_succ, List.replicate_succ, rotate_cons1, ← List.replicate_succ', ← List.replicate_succ]; rfl
  have hc : SData.create s = SData.create s0 ↔ s.nu = s0.nu := by
    simp [SData.create]; omega
  simp only [Workspace.cycleLeft, Workspace.baseCycleLeft, uniW, es, e', List.map_cons, List.length_cons,
    List.length_append, List.length_nil, Nat.zero_add, r0, r1, rotate_cons, Option.bind_eq_bind, Option.bind_some,
    List.map_append, List.map_nil, Option.some.injEq, Workspace.mk.injEq, List.append_cancel_left_eq,
    List.cons.injEq, Prod.mk.injEq, and_true, true_and]
  constructor
  · intro h; simp_all
  · intro h; simp [h, hc.mpr h]

/-- `cycleAppend`, in C++ and in Python, rotates the members of the base class only.  The result is the workspace of a new
set up exactly if all controls have the same size. -/
theorem C72_cycleAppend_iff {nx ndx : ℕ} {P : Prob} {s0 s : Stage} {ss : List Stage} {w : Workspace}
    (hP : Uniform nx ndx P) (es : P.stages = s0 :: ss) (hs : Uniform nx ndx (P.shift s))
    (cw : Workspace.create P = some w) :
    w.cycleAppend (SData.create s) = Workspace.create (P.shift s) ↔ ∀ t ∈ ss ++ [s], t.nu = s0.nu := by
  have e' : (P.shift s).stages = ss ++ [s] := by simp [Prob.shift, es]
  rw [(create_uniform hP (by simp [es])).1, Option.some.injEq] at cw
  rw [(create_uniform hs (by simp [e'])).1, ← cw]
  have r0 : ∀ a : ℕ, rotateLeft (List.replicate (ss.length + 1 + 1) a) 0 0
      = some (List.replicate (ss.length + 1 + 1) a) := fun a => by
    rw [List.replicate_succ, rotate_cons, ← List.replicate_succ', ← List.replicate_succ]
  have r1 : ∀ a : ℕ, rotateLeft (List.replicate (ss.length + 1 + 1) a) 1 0
      = some (List.replicate (ss.length + 1 + 1) a) := fun a => by
    rw [List.replicate_succ, List.replicate_succ, rotate_cons1, ← List.replicate_succ', ← List.replicate_succ]; rfl
  simp only [Workspace.cycleAppend, Workspace.baseCycleLeft, uniW, es, e', List.length_cons, List.map_cons,
    List.cons_append, List.length_append, List.length_nil, Nat.zero_add, r0, r1, rotate_cons, Option.bind_eq_bind,
    Option.bind_some]
  rw [if_neg (by simp)]
  simp only [List.dropLast_concat, Option.some.injEq, Workspace.mk.injEq, List.map_append, List.map_cons,
    List.map_nil, true_and]
  constructor
  · rintro h t ht
    have hd : ss.map (·.nu) ++ [s.nu] = s0.nu :: ss.map (·.nu) := h.2.1.symm
    exact shifted_const _ _ _ hd t.nu (by
      have := List.mem_map_of_mem (f := fun x : Stage => x.nu) ht
      simpa using this)
  · intro h
    have k : ∀ (β : Type) (g : ℕ → β), g s0.nu :: ss.map (fun t => g t.nu) = ss.map (fun t => g t.nu) ++ [g s.nu] :=
      fun β g => const_shifted ss s0 s (fun t => g t.nu) fun c hc => by rw [h c hc]
    have hl : s.nu = s0.nu := h s (by simp)
    exact ⟨by rw [hl], k _ id, k _ id, k _ fun m => (m, ndx + 1), k _ id, k _ fun m => (ndx + m, ndx),
      k _ fun m => (ndx, m)⟩

/-- If they do not, the next iteration leaves the memory, whatever the results hold. -/
theorem C72_cycleAppend_varying {nx ndx : ℕ} {P : Prob} {s0 s : Stage} {ss : List Stage} {w w' : Workspace}
    {r : Results} {n : Option ℕ} (hP : Uniform nx ndx P) (es : P.stages = s0 :: ss)
    (cw : Workspace.create P = some w) (ca : w.cycleAppend (SData.create s) = some w')
    (hv : ∃ t ∈ ss ++ [s], t.nu ≠ s0.nu) : iteration (P.shift s) n w' r = none := by
  have e' : (P.shift s).stages = ss ++ [s] := by simp [Prob.shift, es]
  rw [(create_uniform hP (by simp [es])).1, Option.some.injEq] at cw
  subst cw
  obtain ⟨wq, wn, wd⟩ : w'.q = (s0 :: ss).map (fun t => (ndx, t.nu)) ∧ w'.nsteps = ss.length + 1 ∧
      w'.stageData = (ss ++ [s]).map SData.create := by
    simp only [Workspace.cycleAppend, Workspace.baseCycleLeft, Option.bind_eq_bind, Option.bind_eq_some_iff] at ca
    obtain ⟨w1, ⟨sd, hsd, _, -, _, -, _, -, e1⟩, e2⟩ := ca
    simp only [Option.some.injEq] at e1
    simp only [uniW, es, List.map_cons, List.cons_append, rotate_cons, Option.some.injEq] at hsd
    subst e1 hsd
    rw [if_neg (by simp)] at e2
    simp only [Option.some.injEq] at e2
    subst e2
    simp [uniW, es]
  cases e : iteration (P.shift s) n w' r with
  | none => rfl
  | some o =>
    exfalso
    obtain ⟨-, -, w1, hb, -⟩ := iteration_parts e
    have key : (ss ++ [s]).map (·.nu) = (s0 :: ss).map (·.nu) := by
      apply List.ext_getElem (by simp)
      intro i h1 h2
      simp only [List.length_map, List.length_append, List.length_cons, List.length_nil] at h1
      have l1 : i < (ss ++ [s]).length := by simp; omega
      have l2 : i < (s0 :: ss).length := by simp; omega
      have g1 : (ss ++ [s])[i]? = some (ss ++ [s])[i] := List.getElem?_eq_getElem l1
      have g2 : (s0 :: ss)[i]? = some (s0 :: ss)[i] := List.getElem?_eq_getElem l2
      have := backwardPass_needs hb i (by omega) (ss ++ [s])[i] (SData.create (ss ++ [s])[i]) (ndx, (s0 :: ss)[i].nu)
        (by rw [e']; exact g1) (by rw [wd, List.getElem?_map, g1]; rfl) (by rw [wq, List.getElem?_map, g2]; rfl)
      rw [List.getElem_map, List.getElem_map]
      have a := this.2.1
      have b := this.2.2
      dsimp only at a b
      omega
    obtain ⟨t, ht, hn⟩ := hv
    exact hn (shifted_const (ss.map (·.nu)) s0.nu s.nu (by simpa using key) t.nu (by
      have := List.mem_map_of_mem (f := fun x : Stage => x.nu) ht
      simpa using this))

/-! ### Concrete problems -/

/-- Two stages on a manifold of sizes 7, 6, with 2 and 3 controls. -/
def demo : Prob :=
  { stages := [⟨7, 6, 2, 7, 6, 7, 6⟩, ⟨7, 6, 3, 7, 6, 7, 6⟩], x0 := some 7, initNx := 7, initNdx := 6
    termNx := 7, termNdx := 6, termNu := 3 }

example : Uniform 7 6 demo ∧ Solvable demo := by
  have : Uniform 7 6 demo := by simp [Uniform, demo]
  exact ⟨this, ⟨7, 6, this⟩, by simp [demo]⟩

/-- The passes run on it. -/
example : ∃ w r, backwardStage demo 0 w = some w ∧ forwardStage demo r 0 w = some w ∧ infeasOk demo w r = true ∧
    updateImprovementOk w r = true ∧ improvementOk w = true := by
  have : Uniform 7 6 demo := by simp [Uniform, demo]
  exact ⟨_, _, backwardStage_uniform this (by simp [demo]), forwardStage_uniform this (by simp [demo]),
    infeas_uniform this (by simp [demo]), updateImprovement_uniform, improvement_uniform⟩

example : Uniform 7 6 (demo.shift ⟨7, 6, 2, 7, 6, 7, 6⟩) := by simp [Uniform, demo, Prob.shift]

/-- `C72_cycleAppend_varying` applies to it. -/
example : ∃ w w', Workspace.create demo = some w ∧ w.cycleAppend (SData.create ⟨7, 6, 2, 7, 6, 7, 6⟩) = some w' := by
  refine ⟨_, _, rfl, rfl⟩

/-- What set up accepts and `C72_needs_uniform_states` rejects: a cost written for a smaller space, a terminal cost
without control, an initial state of a wrong size. -/
theorem C72_setup_accepts_more :
    (∃ P : Prob, (∃ s ∈ P.stages, s.cndx ≠ s.ndx1) ∧ (Workspace.create P).isSome ∧ (Results.create P).isSome ∧
      ¬ Solvable P) ∧
    (∃ P : Prob, P.termNu = 0 ∧ (∃ nx ndx, Uniform nx ndx P) ∧ (Workspace.create P).isSome ∧
      (Results.create P).isSome ∧ ¬ Solvable P) ∧
    (∃ P : Prob, P.x0 = some 5 ∧ P.initNx = 7 ∧ (Workspace.create P).isSome ∧ (Results.create P).isSome ∧
      ¬ Solvable P) := by
  refine ⟨⟨{ demo with stages := [⟨7, 6, 3, 7, 6, 4, 4⟩] }, by simp, rfl, rfl, ?_⟩,
    ⟨{ demo with termNu := 0 }, rfl, ⟨7, 6, by simp [Uniform, demo]⟩, rfl, rfl, ?_⟩,
    ⟨{ demo with x0 := some 5 }, rfl, rfl, rfl, rfl, ?_⟩⟩
  · rintro ⟨⟨nx, ndx, h, -⟩, -⟩
    have := h _ (by simp; rfl)
    simp at this; omega
  · rintro ⟨-, s, h, k⟩
    simp [demo] at h; subst h; simp at k
  · rintro ⟨⟨nx, ndx, -, h1, h2, -⟩, -⟩
    simp [demo] at h1 h2; omega

end Aligator.FMem
