import Verif.Spec.FDDPMem

/-! # Lemmas: sizes of the buffers of FDDP -/

namespace Aligator.FMem

open Cycle (rotateLeft setAt)

theorem setAt_same {α : Type*} {l : List α} {i : ℕ} {a : α} (h : l[i]? = some a) : setAt l i a = some l := by
  obtain ⟨hi, ha⟩ := List.getElem?_eq_some_iff.mp h
  unfold setAt
  rw [if_pos hi]
  subst ha
  simp

theorem rotate_cons {α : Type*} (a : α) (l : List α) : rotateLeft (a :: l) 0 0 = some (l ++ [a]) := by
  simp [rotateLeft]

theorem rotate_cons1 {α : Type*} (b a : α) (l : List α) : rotateLeft (b :: a :: l) 1 0 = some (b :: (l ++ [a])) := by
  simp [rotateLeft]

theorem map_const {α β : Type*} {l : List α} {f : α → β} {c : β} (h : ∀ a ∈ l, f a = c) :
    l.map f = List.replicate l.length c := List.map_eq_replicate_iff.mpr h

theorem chainOk_uniform {nx ndx : ℕ} (ss : List Stage) (s : Stage)
    (h : ∀ t ∈ s :: ss, t.nx1 = nx ∧ t.nx2 = nx ∧ t.cnx = nx ∧ t.ndx1 = ndx ∧ t.ndx2 = ndx ∧ t.cndx = ndx) :
    chainOk nx ndx s ss = true := by
  induction ss generalizing s with
  | nil => simp [chainOk, h s (by simp)]
  | cons t ts ih =>
    have hs := h s (by simp)
    have ht := h t (by simp)
    simp [chainOk, hs, ht, ih t (fun u hu => h u (by simp_all))]

theorem integrity_uniform {nx ndx : ℕ} {P : Prob} (h : Uniform nx ndx P) : P.checkIntegrity = true := by
  obtain ⟨hs, -, -, hi, hx, hd⟩ := h
  unfold Prob.checkIntegrity
  cases e : P.stages with
  | nil => rfl
  | cons s ss =>
    rw [e] at hs
    simp [hi, hx, hd, chainOk_uniform ss s hs, hs s (by simp)]

/-- The workspace of a uniform problem. -/
def uniW (nx ndx : ℕ) (P : Prob) : Workspace :=
  { init := true, nsteps := P.stages.length, stageData := P.stages.map SData.create, termData := ndx
    trialXs := List.replicate (P.stages.length + 1) nx, trialUs := P.stages.map (·.nu)
    slacks := List.replicate (P.stages.length + 1) ndx, dxs := List.replicate (P.stages.length + 1) ndx
    dus := P.stages.map (·.nu), Quuks := P.stages.map (·.nu), ftVxx := List.replicate (P.stages.length + 1) ndx
    kktRhs := P.stages.map fun s => (s.nu, ndx + 1), llts := P.stages.map (·.nu)
    JtH := P.stages.map fun s => (ndx + s.nu, ndx), value := List.replicate (P.stages.length + 1) ndx
    q := P.stages.map fun s => (ndx, s.nu) }

/-- The results of a uniform problem. -/
def uniR (nx ndx : ℕ) (P : Prob) : Results :=
  { init := true, xs := List.replicate (P.stages.length + 1) nx, us := P.stages.map (·.nu)
    gains := P.stages.map fun s => (s.nu, ndx + 1) }

theorem create_uniform {nx ndx : ℕ} {P : Prob} (h : Uniform nx ndx P) (hN : P.stages ≠ []) :
    Workspace.create P = some (uniW nx ndx P) ∧ Results.create P = some (uniR nx ndx P) := by
  have hi := integrity_uniform h
  obtain ⟨hs, hx0, -, -, -, hd⟩ := h
  have a1 : P.stages.map (·.nx2) = List.replicate P.stages.length nx := map_const fun s m => (hs s m).2.1
  have a2 : P.stages.map (·.ndx1) = List.replicate P.stages.length ndx := map_const fun s m => (hs s m).2.2.2.1
  have a3 : P.stages.map (·.ndx2) = List.replicate P.stages.length ndx := map_const fun s m => (hs s m).2.2.2.2.1
  have a4 : (P.stages.map fun s => (s.nu, s.ndx1 + 1)) = P.stages.map fun s => (s.nu, ndx + 1) :=
    List.map_congr_left fun s m => by rw [(hs s m).2.2.2.1]
  have a5 : (P.stages.map fun s => (s.ndx1 + s.nu, s.ndx1)) = P.stages.map fun s => (ndx + s.nu, ndx) :=
    List.map_congr_left fun s m => by rw [(hs s m).2.2.2.1]
  have a6 : (P.stages.map fun s => (s.ndx1, s.nu)) = P.stages.map fun s => (ndx, s.nu) :=
    List.map_congr_left fun s m => by rw [(hs s m).2.2.2.1]
  have hxs : xsInit P = some (List.replicate (P.stages.length + 1) nx) := by
    unfold xsInit; rw [hx0]; simp only [a1, List.replicate_succ]
  constructor
  · unfold Workspace.create
    rw [hxs, if_neg (by simp [hi])]
    cases e : P.stages with
    | nil => exact absurd e hN
    | cons s ss =>
      have h0 := (hs s (by rw [e]; simp)).2.2.2.1
      have b : List.replicate P.stages.length ndx ++ [ndx] = List.replicate (P.stages.length + 1) ndx :=
        List.replicate_succ'.symm
      have b' : ndx :: List.replicate P.stages.length ndx = List.replicate (P.stages.length + 1) ndx :=
        List.replicate_succ.symm
      simp only [uniW, ← e, a2, a3, a4, a5, a6, h0, hd, b, b']
  · unfold Results.create
    rw [hxs, if_neg (by simp [hi])]
    simp only [uniR, a4]

theorem rep_get {α : Type*} {n i : ℕ} (a : α) (h : i < n) : (List.replicate n a)[i]? = some a := by
  simp [h]

theorem map_get {α : Type*} {P : Prob} {i : ℕ} {s : Stage} (f : Stage → α) (h : P.stages[i]? = some s) :
    (P.stages.map f)[i]? = some (f s) := by simp [h]

section Uniform
variable {nx ndx : ℕ} {P : Prob}

theorem stage_uniform (h : Uniform nx ndx P) {i : ℕ} {s : Stage} (e : P.stages[i]? = some s) :
    s.nx1 = nx ∧ s.nx2 = nx ∧ s.cnx = nx ∧ s.ndx1 = ndx ∧ s.ndx2 = ndx ∧ s.cndx = ndx :=
  h.1 s (List.mem_of_getElem? e)

theorem stage_ex {i : ℕ} (hi : i < P.stages.length) : ∃ s, P.stages[i]? = some s := ⟨_, List.getElem?_eq_getElem hi⟩

theorem stageCall_uniform (h : Uniform nx ndx P) {i : ℕ} {s : Stage} (e : P.stages[i]? = some s) :
    stageCallOk s nx s.nu (SData.create s) = true := by
  obtain ⟨a, b, c, d, f, g⟩ := stage_uniform h e
  simp [stageCallOk, SData.create, a, b, c, d, f, g]

theorem problemCall_uniform (h : Uniform nx ndx P) :
    problemCallOk P (uniW nx ndx P) (uniR nx ndx P).xs (uniR nx ndx P).us = true := by
  unfold problemCallOk
  obtain ⟨-, hx0, hin, -, hx, hd⟩ := id h
  simp only [uniR, uniW, Bool.and_eq_true, List.all_eq_true, List.mem_range]
  refine ⟨⟨⟨⟨by simp, by simp⟩, ?_⟩, ?_⟩, ?_⟩
  · rw [rep_get _ (by omega), hx0]; simp [hin]
  · intro i hi
    obtain ⟨s, e⟩ := stage_ex hi
    rw [e, rep_get _ (by omega), map_get _ e, map_get _ e]
    exact stageCall_uniform h e
  · rw [rep_get _ (by omega)]; simp [hx, hd]

theorem infeas_uniform (h : Uniform nx ndx P) (hN : P.stages ≠ []) :
    infeasOk P (uniW nx ndx P) (uniR nx ndx P) = true := by
  unfold infeasOk
  simp only [uniR, uniW, Bool.and_eq_true, List.all_eq_true, List.mem_range]
  constructor
  · obtain ⟨s, e⟩ := stage_ex (P := P) (List.length_pos_iff.mpr hN)
    have u := stage_uniform h e
    rw [e, rep_get _ (by omega), rep_get _ (by omega), h.2.1]
    simp [diffOk, u]
  · intro i hi
    obtain ⟨s, e⟩ := stage_ex hi
    have u := stage_uniform h e
    rw [e, rep_get _ (by omega), rep_get _ (by omega), map_get _ e]
    simp [diffOk, SData.create, u]

theorem backwardStage_uniform (h : Uniform nx ndx P) {i : ℕ} (hi : i < P.stages.length) :
    backwardStage P i (uniW nx ndx P) = some (uniW nx ndx P) := by
  obtain ⟨s, e⟩ := stage_ex hi
  have u := stage_uniform h e
  have c1 : (uniW nx ndx P).value[i + 1]? = some ndx := rep_get _ (by omega)
  have c1' : (uniW nx ndx P).value[i]? = some ndx := rep_get _ (by omega)
  have c2 : (uniW nx ndx P).q[i]? = some (ndx, s.nu) := map_get _ e
  have c3 : (uniW nx ndx P).stageData[i]? = some (SData.create s) := map_get _ e
  have c4 : (uniW nx ndx P).JtH[i]? = some (ndx + s.nu, ndx) := map_get _ e
  have c5 : (uniW nx ndx P).kktRhs[i]? = some (s.nu, ndx + 1) := map_get _ e
  have c6 : (uniW nx ndx P).llts[i]? = some s.nu := map_get _ e
  have c7 : (uniW nx ndx P).Quuks[i]? = some s.nu := map_get _ e
  have c8 : (uniW nx ndx P).slacks[i]? = some ndx := rep_get _ (by omega)
  have c9 : (uniW nx ndx P).ftVxx[i]? = some ndx := rep_get _ (by omega)
  unfold backwardStage
  simp [c1, c2, c3, e, c5, c8, setAt_same c4, setAt_same c6, setAt_same c7, setAt_same c9, setAt_same c1', u,
    SData.create, guard]

theorem backwardLoop_uniform (h : Uniform nx ndx P) (n : ℕ) (hn : n ≤ P.stages.length) :
    backwardLoop P n (uniW nx ndx P) = some (uniW nx ndx P) := by
  induction n with
  | zero => rfl
  | succ n ih => simp only [backwardLoop, backwardStage_uniform h (show n < _ by omega), ih (by omega)]

theorem backwardPass_uniform (h : Uniform nx ndx P) : backwardPass P (uniW nx ndx P) = some (uniW nx ndx P) := by
  have c1 : (uniW nx ndx P).slacks[P.stages.length]? = some ndx := rep_get _ (by omega)
  have c2 : (uniW nx ndx P).value[P.stages.length]? = some ndx := rep_get _ (by omega)
  have c3 : (uniW nx ndx P).ftVxx[P.stages.length]? = some ndx := rep_get _ (by omega)
  have t : backwardTerminal (uniW nx ndx P) = some (uniW nx ndx P) := by
    unfold backwardTerminal
    rw [show (uniW nx ndx P).nsteps = P.stages.length from rfl, show (uniW nx ndx P).termData = ndx from rfl]
    simp [c1, setAt_same c2, setAt_same c3, guard]
    rfl
  unfold backwardPass
  rw [t]
  exact backwardLoop_uniform h _ le_rfl

theorem updateImprovement_uniform : updateImprovementOk (uniW nx ndx P) (uniR nx ndx P) = true := by
  unfold updateImprovementOk
  simp only [uniR, uniW, Bool.and_eq_true, List.all_eq_true, List.mem_range]
  constructor
  · intro i hi
    obtain ⟨s, e⟩ := stage_ex hi
    rw [map_get _ e, map_get _ e, map_get _ e]; simp
  · intro i hi
    rw [rep_get _ hi]; simp

theorem improvement_uniform : improvementOk (uniW nx ndx P) = true := by
  unfold improvementOk
  simp only [uniW, List.all_eq_true, List.mem_range]
  intro i hi
  rw [rep_get _ hi]; simp

theorem forwardStage_uniform (h : Uniform nx ndx P) {i : ℕ} (hi : i < P.stages.length) :
    forwardStage P (uniR nx ndx P) i (uniW nx ndx P) = some (uniW nx ndx P) := by
  obtain ⟨s, e⟩ := stage_ex hi
  have u := stage_uniform h e
  have k := stageCall_uniform h e
  have c1 : (uniW nx ndx P).stageData[i]? = some (SData.create s) := map_get _ e
  have c2 : (uniR nx ndx P).gains[i]? = some (s.nu, ndx + 1) := map_get _ e
  have c3 : (uniW nx ndx P).dxs[i]? = some ndx := rep_get _ (by omega)
  have c3' : (uniW nx ndx P).dxs[i + 1]? = some ndx := rep_get _ (by omega)
  have c4 : (uniW nx ndx P).dus[i]? = some s.nu := map_get _ e
  have c5 : (uniR nx ndx P).us[i]? = some s.nu := map_get _ e
  have c6 : (uniW nx ndx P).trialUs[i]? = some s.nu := map_get _ e
  have c7 : (uniW nx ndx P).trialXs[i]? = some nx := rep_get _ (by omega)
  have c7' : (uniW nx ndx P).trialXs[i + 1]? = some nx := rep_get _ (by omega)
  have c8 : (uniW nx ndx P).slacks[i + 1]? = some ndx := rep_get _ (by omega)
  have c9 : (uniR nx ndx P).xs[i + 1]? = some nx := rep_get _ (by omega)
  have x : (SData.create s).xnext = nx := u.1
  unfold forwardStage
  simp [e, c1, c2, c3, c5, c6, c7, c7', c8, c9, setAt_same c4, setAt_same c3', k, x, u, integOk, diffOk, guard]

theorem forwardLoop_uniform (h : Uniform nx ndx P) (n k : ℕ) (hn : k + n ≤ P.stages.length) :
    forwardLoop P (uniR nx ndx P) n k (uniW nx ndx P) = some (uniW nx ndx P) := by
  induction n generalizing k with
  | zero => rfl
  | succ n ih => simp only [forwardLoop, forwardStage_uniform h (show k < _ by omega), ih (k + 1) (by omega)]

theorem forwardPass_uniform (h : Uniform nx ndx P) {s : Stage} (hl : P.stages.getLast? = some s)
    (hu : s.nu = P.termNu) : forwardPass P (uniR nx ndx P) (uniW nx ndx P) = some (uniW nx ndx P) := by
  have hN : 0 < P.stages.length := by
    rcases List.eq_nil_or_concat P.stages with e | ⟨_, _, e⟩
    · simp [e] at hl
    · simp [e]
  obtain ⟨s0, e⟩ := stage_ex hN
  have u := stage_uniform h e
  have c1 : (uniW nx ndx P).slacks[0]? = some ndx := rep_get _ (by omega)
  have c2 : (uniW nx ndx P).dxs[0]? = some ndx := rep_get _ (by omega)
  have c3 : (uniR nx ndx P).xs[0]? = some nx := rep_get _ (by omega)
  have c4 : (uniW nx ndx P).trialXs[0]? = some nx := rep_get _ (by omega)
  have f : forwardStart P (uniR nx ndx P) (uniW nx ndx P) = some (uniW nx ndx P) := by
    unfold forwardStart
    simp [e, c1, c3, c4, setAt_same c2, u, integOk, guard]
  have l := forwardLoop_uniform h P.stages.length 0 (by omega)
  have d1 : (uniW nx ndx P).trialXs.getLast? = some nx := by simp [uniW, List.getLast?_replicate]
  have d2 : (uniW nx ndx P).trialUs.getLast? = some s.nu := by simp [uniW, hl]
  have d3 : (uniR nx ndx P).xs[P.stages.length]? = some nx := rep_get _ (by omega)
  have d4 : (uniW nx ndx P).trialXs[P.stages.length]? = some nx := rep_get _ (by omega)
  have d5 : (uniW nx ndx P).dxs[P.stages.length]? = some ndx := rep_get _ (by omega)
  have n1 : (uniW nx ndx P).nsteps = P.stages.length := rfl
  have n2 : (uniW nx ndx P).termData = ndx := rfl
  obtain ⟨-, -, -, -, tx, td⟩ := h
  unfold forwardPass
  simp [f, n1, l, d1, d2, d3, d4, d5, n2, tx, td, hu, diffOk, guard]

theorem trials_uniform (h : Uniform nx ndx P) {s : Stage} (hl : P.stages.getLast? = some s) (hu : s.nu = P.termNu)
    (n : ℕ) : trials P (uniR nx ndx P) n (uniW nx ndx P) = some (uniW nx ndx P) := by
  induction n with
  | zero => rfl
  | succ n ih => simp [trials, forwardPass_uniform h hl hu, improvement_uniform, ih]

theorem iteration_uniform (h : Uniform nx ndx P) {s : Stage} (hl : P.stages.getLast? = some s)
    (hu : s.nu = P.termNu) (n : Option ℕ) :
    iteration P n (uniW nx ndx P) (uniR nx ndx P) = some (uniW nx ndx P, uniR nx ndx P) := by
  have hN : P.stages ≠ [] := by rintro e; simp [e] at hl
  have a : acceptGains (uniW nx ndx P) (uniR nx ndx P) = uniR nx ndx P := rfl
  have c : criterionOk (uniW nx ndx P) = true := by simp [criterionOk, uniW]
  have g : (uniW nx ndx P).kktRhs.length = (uniR nx ndx P).gains.length := by simp [uniW, uniR]
  unfold iteration
  rw [problemCall_uniform h, infeas_uniform h hN, backwardPass_uniform h]
  cases n with
  | none => simp [c]
  | some n =>
    simp [c, a, g, updateImprovement_uniform, trials_uniform h hl hu]
    rfl

end Uniform

/-! ### Necessity -/

theorem backwardStage_keeps {P : Prob} {i : ℕ} {w w' : Workspace} (h : backwardStage P i w = some w') :
    w'.q = w.q ∧ w'.stageData = w.stageData ∧
      ∀ s d q, P.stages[i]? = some s → w.stageData[i]? = some d → w.q[i]? = some q →
        d.grad = q.1 + q.2 ∧ s.ndx1 + s.nu = q.1 + q.2 ∧ s.ndx1 = q.1 := by
  unfold backwardStage at h
  simp only [Option.bind_eq_bind, Option.bind_eq_some_iff, guard, Option.pure_def] at h
  obtain ⟨vn, -, ⟨qx, qu⟩, hq, s, hs, d, hd, _, -, _, h1, _, h2, jth, -, ⟨r, c⟩, -, _, -, _, h3, llts, -, quuk, -, f,
    -, _, -, value, -, ft, -, e⟩ := h
  simp only [Option.some.injEq] at e
  subst e
  refine ⟨rfl, rfl, ?_⟩
  intro s' d' q' a b c
  rw [hs] at a; rw [hd] at b; rw [hq] at c
  cases a; cases b; cases c
  refine ⟨?_, ?_, ?_⟩
  · by_contra hh; simp [hh] at h1
  · by_contra hh; simp [hh] at h2
  · by_contra hh; simp [hh] at h3

theorem backwardLoop_needs {P : Prob} {n : ℕ} {w w' : Workspace} (h : backwardLoop P n w = some w') :
    ∀ i < n, ∀ s d q, P.stages[i]? = some s → w.stageData[i]? = some d → w.q[i]? = some q →
      d.grad = q.1 + q.2 ∧ s.ndx1 + s.nu = q.1 + q.2 ∧ s.ndx1 = q.1 := by
  induction n generalizing w with
  | zero => intro i hi; omega
  | succ n ih =>
    unfold backwardLoop at h
    cases e : backwardStage P n w with
    | none => simp [e] at h
    | some w1 =>
      rw [e] at h
      obtain ⟨k1, k2, k3⟩ := backwardStage_keeps e
      intro i hi s d q a b c
      rcases Nat.lt_succ_iff_lt_or_eq.mp hi with hlt | rfl
      · exact ih h i hlt s d q a (by rw [k2]; exact b) (by rw [k1]; exact c)
      · exact k3 s d q a b c

theorem backwardPass_needs {P : Prob} {w w' : Workspace} (h : backwardPass P w = some w') :
    ∀ i < w.nsteps, ∀ s d q, P.stages[i]? = some s → w.stageData[i]? = some d → w.q[i]? = some q →
      d.grad = q.1 + q.2 ∧ s.ndx1 + s.nu = q.1 + q.2 ∧ s.ndx1 = q.1 := by
  unfold backwardPass at h
  cases e : backwardTerminal w with
  | none => simp [e] at h
  | some w1 =>
    rw [e] at h
    unfold backwardTerminal at e
    simp only [Option.bind_eq_bind, Option.bind_eq_some_iff] at e
    obtain ⟨_, -, _, -, _, -, _, -, e⟩ := e
    simp only [Option.some.injEq] at e
    subst e
    intro i hi s d q a b c
    exact backwardLoop_needs h i hi s d q a b c

theorem iteration_parts {P : Prob} {n : Option ℕ} {w : Workspace} {r : Results} {o : Workspace × Results}
    (h : iteration P n w r = some o) :
    problemCallOk P w r.xs r.us = true ∧ infeasOk P w r = true ∧ ∃ w1, backwardPass P w = some w1 ∧
      ∀ k, n = some k → ∃ w2, trials P (acceptGains w1 r) k w1 = some w2 := by
  unfold iteration at h
  split at h
  · simp at h
  · rename_i h1
    split at h
    · simp at h
    · rename_i h2
      refine ⟨by simpa using h1, by simpa using h2, ?_⟩
      cases e : backwardPass P w with
      | none => simp [e] at h
      | some w1 =>
        refine ⟨w1, rfl, ?_⟩
        rintro k rfl
        rw [e] at h
        dsimp only at h
        cases e2 : trials P (acceptGains w1 r) k w1 with
        | some w2 => exact ⟨w2, rfl⟩
        | none => rw [e2] at h; grind

theorem chain_local {tx td : ℕ} (ss : List Stage) (s : Stage) (h : chainOk tx td s ss = true)
    (l : ∀ t ∈ s :: ss, t.nx2 = t.nx1 ∧ t.cnx = t.nx1 ∧ t.ndx2 = t.ndx1 ∧ t.cndx = t.ndx1) :
    tx = s.nx1 ∧ td = s.ndx1 ∧ ∀ t ∈ s :: ss, t.nx1 = s.nx1 ∧ t.ndx1 = s.ndx1 := by
  induction ss generalizing s with
  | nil =>
    have := l s (by simp)
    simp [chainOk] at h
    simp; omega
  | cons t ts ih =>
    have hs := l s (by simp)
    simp only [chainOk, Bool.and_eq_true, beq_iff_eq] at h
    obtain ⟨a, b, c⟩ := ih t h.2 (fun u hu => l u (by simp_all))
    refine ⟨by omega, by omega, ?_⟩
    intro u hu
    rcases List.mem_cons.mp hu with rfl | hu
    · exact ⟨rfl, rfl⟩
    · have := c u hu; omega

theorem backwardStage_us {P : Prob} {i : ℕ} {w w' : Workspace} (h : backwardStage P i w = some w') :
    w'.trialUs = w.trialUs := by
  unfold backwardStage at h
  simp only [Option.bind_eq_bind, Option.bind_eq_some_iff, guard, Option.pure_def] at h
  obtain ⟨vn, -, ⟨qx, qu⟩, hq, s, hs, d, hd, _, -, _, h1, _, h2, jth, -, ⟨r, c⟩, -, _, -, _, h3, llts, -, quuk, -, f,
    -, _, -, value, -, ft, -, e⟩ := h
  simp only [Option.some.injEq] at e
  subst e; rfl

theorem backwardLoop_us {P : Prob} {n : ℕ} {w w' : Workspace} (h : backwardLoop P n w = some w') :
    w'.trialUs = w.trialUs := by
  induction n generalizing w with
  | zero => cases h; rfl
  | succ n ih =>
    unfold backwardLoop at h
    cases e : backwardStage P n w with
    | none => simp [e] at h
    | some w1 => rw [e] at h; exact (ih h).trans (backwardStage_us e)

theorem backwardPass_us {P : Prob} {w w' : Workspace} (h : backwardPass P w = some w') :
    w'.trialUs = w.trialUs := by
  unfold backwardPass at h
  cases e : backwardTerminal w with
  | none => simp [e] at h
  | some w1 =>
    rw [e] at h
    unfold backwardTerminal at e
    simp only [Option.bind_eq_bind, Option.bind_eq_some_iff] at e
    obtain ⟨_, -, _, -, _, -, _, -, e⟩ := e
    simp only [Option.some.injEq] at e
    have e1 : w1.trialUs = w.trialUs := by rw [← e]
    exact (backwardLoop_us h).trans e1

theorem forwardStage_us {P : Prob} {r : Results} {i : ℕ} {w w' : Workspace} (h : forwardStage P r i w = some w') :
    w'.trialUs = w.trialUs := by
  unfold forwardStage at h
  simp only [Option.bind_eq_bind, Option.bind_eq_some_iff] at h
  obtain ⟨_, -, _, -, _, -, _, -, _, -, _, -, _, -, _, -, _, -, _, -, _, -, _, -, _, -, _, -, _, -, _, -, _, -, _, -,
    e⟩ := h
  simp only [Option.some.injEq] at e
  subst e; rfl

theorem forwardLoop_us {P : Prob} {r : Results} {n k : ℕ} {w w' : Workspace}
    (h : forwardLoop P r n k w = some w') : w'.trialUs = w.trialUs := by
  induction n generalizing w k with
  | zero => cases h; rfl
  | succ n ih =>
    unfold forwardLoop at h
    cases e : forwardStage P r k w with
    | none => simp [e] at h
    | some w1 => rw [e] at h; exact (ih h).trans (forwardStage_us e)

theorem forwardPass_needs {P : Prob} {r : Results} {w w' : Workspace} (h : forwardPass P r w = some w') :
    w.trialUs.getLast? = some P.termNu := by
  unfold forwardPass at h
  simp only [Option.bind_eq_bind, Option.bind_eq_some_iff] at h
  obtain ⟨w1, h1, w2, h2, xt, -, ut, hu, _, g, -⟩ := h
  have e1 : w1.trialUs = w.trialUs := by
    unfold forwardStart at h1
    simp only [Option.bind_eq_bind, Option.bind_eq_some_iff] at h1
    obtain ⟨_, -, _, -, _, -, _, -, _, -, _, -, e⟩ := h1
    simp only [Option.some.injEq] at e
    subst e; rfl
  rw [forwardLoop_us h2, e1] at hu
  rw [hu]
  by_contra hh
  have : ut ≠ P.termNu := fun e => hh (by rw [e])
  simp [guard, this] at g

theorem shifted_const {α : Type*} (l : List α) (a b : α) (h : l ++ [b] = a :: l) : ∀ c ∈ l ++ [b], c = a := by
  induction l generalizing a with
  | nil => simp_all
  | cons d l ih =>
    simp only [List.cons_append, List.cons.injEq] at h
    obtain ⟨rfl, h⟩ := h
    intro c hc
    rcases List.mem_cons.mp hc with rfl | hc
    · rfl
    · exact ih _ h c hc

theorem const_shifted {α β : Type*} (l : List α) (a b : α) (f : α → β) (h : ∀ c ∈ l ++ [b], f c = f a) :
    (a :: l).map f = l.map f ++ [f b] := by
  have e1 : l.map f = List.replicate l.length (f a) := map_const fun c hc => h c (by simp [hc])
  rw [List.map_cons, e1, h b (by simp), ← List.replicate_succ, List.replicate_succ']

end Aligator.FMem
