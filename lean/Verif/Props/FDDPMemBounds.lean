import Verif.Props.FDDPMem

/-!
# C72: an iteration of FDDP, in any memory

The other theorems start from the memory of `setup`.  Here the workspace and the results are arbitrary (after shifts,
or set up for another problem): if an iteration with a trial is defined, every buffer it reads has an entry of the size
of the stage.
-/

namespace Aligator.FMem

/-- The buffers of a stage that `forwardPass` reads and writes have its sizes. -/
def StageFits (P : Prob) (w : Workspace) (r : Results) (i : ℕ) : Prop :=
  ∃ s d, P.stages[i]? = some s ∧ w.stageData[i]? = some d ∧
    (∃ g, r.gains[i]? = some g ∧ g.1 = s.nu ∧ 1 ≤ g.2) ∧ r.us[i]? = some s.nu ∧ w.trialUs[i]? = some s.nu ∧
    w.trialXs[i]? = some s.nx1 ∧ s.cnx = s.nx1 ∧ d.xnext = s.nx2 ∧ d.jac = (s.ndx2, s.ndx1 + s.nu) ∧
    d.grad = s.cndx + s.nu ∧ d.hess = s.cndx + s.nu ∧
    w.slacks[i + 1]? = some s.ndx2 ∧ w.trialXs[i + 1]? = some s.nx2 ∧ r.xs[i + 1]? = some s.nx1 ∧ s.nx2 = s.nx1 ∧
    s.ndx2 = s.ndx1

/-- The members `forwardPass` does not write. -/
def SameRead (w' w : Workspace) : Prop :=
  w'.nsteps = w.nsteps ∧ w'.stageData = w.stageData ∧ w'.trialUs = w.trialUs ∧ w'.trialXs = w.trialXs ∧
    w'.slacks = w.slacks

theorem SameRead.fits {P : Prob} {w' w : Workspace} {r : Results} {i : ℕ} (h : SameRead w' w)
    (f : StageFits P w' r i) : StageFits P w r i := by
  obtain ⟨-, a, b, c, d⟩ := h
  unfold StageFits at f ⊢
  rw [a, b, c, d] at f
  exact f

theorem forwardStage_fits {P : Prob} {r : Results} {i : ℕ} {w w' : Workspace} (h : forwardStage P r i w = some w') :
    StageFits P w r i ∧ SameRead w' w := by
  unfold forwardStage at h
  simp only [Option.bind_eq_bind, Option.bind_eq_some_iff, guard, Option.pure_def] at h
  obtain ⟨s, hs, d, hd, g, hg, _, h1, dx, hdx, _, h2, dus, hdus, u, hu, ut, hut, _, h3, xt, hxt, _, h4, f, hf, dxs,
    hdxs, xt', hxt', _, h5, x', hx', _, h6, e⟩ := h
  simp only [Option.some.injEq] at e
  have g1 : 1 ≤ g.2 := by by_contra hh; simp [hh] at h1
  have g3 : integOk s.nu s.nu u g.1 ut = true := by by_contra hh; simp [hh] at h3
  have g4 : stageCallOk s xt ut d = true := by by_contra hh; simp [hh] at h4
  have g5 : integOk s.nx2 s.ndx2 d.xnext f xt' = true := by by_contra hh; simp [hh] at h5
  have g6 : diffOk s.nx1 s.ndx1 x' xt' f = true := by by_contra hh; simp [hh] at h6
  simp only [integOk, diffOk, stageCallOk, Bool.and_eq_true, beq_iff_eq] at g3 g4 g5 g6
  obtain ⟨⟨a1, a2⟩, a3⟩ := g3
  obtain ⟨⟨⟨⟨⟨⟨b1, b2⟩, b3⟩, b4⟩, b5⟩, b6⟩, b7⟩ := g4
  obtain ⟨⟨c1, c2⟩, c3⟩ := g5
  obtain ⟨⟨d1, d2⟩, d3⟩ := g6
  refine ⟨⟨s, d, hs, hd, ⟨g, hg, a2, g1⟩, by rw [hu, a1], by rw [hut, a3], by rw [hxt, b1], by omega, c1, b4, b6, b7,
    by rw [hf, c2], by rw [hxt', c3], by rw [hx', d1], by omega, by omega⟩, ?_⟩
  subst e
  exact ⟨rfl, rfl, rfl, rfl, rfl⟩

theorem forwardLoop_fits {P : Prob} {r : Results} {n k : ℕ} {w w' : Workspace}
    (h : forwardLoop P r n k w = some w') : ∀ i, k ≤ i → i < k + n → StageFits P w r i := by
  induction n generalizing w k with
  | zero => intro i h1 h2; omega
  | succ n ih =>
    unfold forwardLoop at h
    cases e : forwardStage P r k w with
    | none => simp [e] at h
    | some w1 =>
      rw [e] at h
      obtain ⟨a, b⟩ := forwardStage_fits e
      intro i h1 h2
      rcases Nat.eq_or_lt_of_le h1 with rfl | h1
      · exact a
      · exact b.fits (ih h i (by omega) (by omega))

/-- **C72**: whatever the workspace and the results are, an iteration with at least one trial is defined only if the
buffers it reads have the sizes of the stages they belong to. -/
theorem C72_defined_iteration_in_bounds {P : Prob} {w : Workspace} {r : Results} {o : Workspace × Results} {n : ℕ}
    (h : iteration P (some (n + 1)) w r = some o) :
    ∃ w1, backwardPass P w = some w1 ∧ w1.kktRhs.length = r.gains.length ∧
      (∀ i < w1.nsteps, ∃ a c, w1.q[i]?.map (·.2) = some a ∧ w1.kktRhs[i]? = some (a, c) ∧ 1 ≤ c ∧
        w1.Quuks[i]? = some a) ∧
      (∀ i ≤ w1.nsteps, ∃ a, w1.value[i]? = some a ∧ w1.slacks[i]? = some a ∧ w1.ftVxx[i]? = some a) ∧
      (∃ s, P.stages[0]? = some s ∧ r.xs[0]? = some s.nx1 ∧ w1.slacks[0]? = some s.ndx1 ∧
        w1.trialXs[0]? = some s.nx1) ∧
      ∀ i < w1.nsteps, StageFits P w1 (acceptGains w1 r) i := by
  obtain ⟨-, -, w1, hb, ht⟩ := iteration_parts h
  obtain ⟨w2, ht⟩ := ht _ rfl
  unfold iteration at h
  rw [hb] at h
  dsimp only at h
  have hl : w1.kktRhs.length = r.gains.length := by
    by_contra hh
    simp [hh] at h
  have hu : updateImprovementOk w1 (acceptGains w1 r) = true := by
    by_contra hh
    simp [hh] at h
  refine ⟨w1, hb, hl, ?_, ?_, ?_⟩
  · intro i hi
    simp only [updateImprovementOk, Bool.and_eq_true, List.all_eq_true, List.mem_range] at hu
    have := hu.1 i hi
    split at this
    · rename_i q g k e1 e2 e3
      simp only [Bool.and_eq_true, decide_eq_true_eq, beq_iff_eq] at this
      refine ⟨q.2, g.2, by rw [e1]; rfl, ?_, this.1.1, by rw [e3, ← this.2, this.1.2]⟩
      have e2' : w1.kktRhs[i]? = some g := e2
      rw [e2', this.1.2]
    · cases this
  · intro i hi
    simp only [updateImprovementOk, Bool.and_eq_true, List.all_eq_true, List.mem_range] at hu
    have := hu.2 i (by omega)
    split at this
    · rename_i v f t e1 e2 e3
      simp only [Bool.and_eq_true, beq_iff_eq] at this
      exact ⟨v, e1, by rw [e2, this.1], by rw [e3, this.2, this.1]⟩
    · cases this
  · rw [trials] at ht
    cases ef : forwardPass P (acceptGains w1 r) w1 with
    | none => simp [ef] at ht
    | some w3 =>
      unfold forwardPass at ef
      simp only [Option.bind_eq_bind, Option.bind_eq_some_iff] at ef
      obtain ⟨w4, h4, w5, h5, -⟩ := ef
      unfold forwardStart at h4
      simp only [Option.bind_eq_bind, Option.bind_eq_some_iff, guard, Option.pure_def] at h4
      obtain ⟨s, hs, f, hf, dxs, -, x, hx, t, ht', _, hi, e⟩ := h4
      have gi : integOk s.nx1 s.ndx1 x f t = true := by by_contra hh; simp [hh] at hi
      simp only [integOk, Bool.and_eq_true, beq_iff_eq] at gi
      simp only [Option.some.injEq] at e
      refine ⟨⟨s, hs, ?_, by rw [hf, gi.1.2], by rw [ht', gi.2]⟩, fun i hi => ?_⟩
      · have hx' : r.xs[0]? = some x := hx
        rw [hx', gi.1.1]
      · have sr : SameRead w4 w1 := by subst e; exact ⟨rfl, rfl, rfl, rfl, rfl⟩
        exact sr.fits (forwardLoop_fits h5 i (by omega) (by rw [sr.1]; omega))

/-- It applies to the memory of `demo`. -/
example : ∃ w r o, iteration demo (some 1) w r = some o := by
  have hd : Solvable demo := ⟨⟨7, 6, by simp [Uniform, demo]⟩, by simp [demo]⟩
  obtain ⟨w, r, -, -, h⟩ := C72_runs_in_its_memory hd
  have := h [some 1]
  rw [run, h []] at this
  exact ⟨w, r, _, this⟩

end Aligator.FMem
