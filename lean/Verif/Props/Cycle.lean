import Verif.Model.Cycle
import Mathlib.Tactic.Linarith

/-!
# Initial guesses (C29) and receding-horizon shifts (C30, C31)
-/

namespace Aligator.Cycle

/-! ### C30: shift of the problem -/

/-- What `rotate_vec_left` does on the whole vector. -/
theorem rotateLeft_all {α : Type*} (a : α) (l : List α) : rotateLeft (a :: l) 0 0 = some (l ++ [a]) := by
  simp [rotateLeft]

/-- **C30** `replaceStageCircular` appends the new stage, drops the first one and returns it. -/
theorem C30_replace_stage {S : Type*} (s : S) (ss : List S) (model : S) :
    replaceStageCircular (s :: ss) model = some (ss ++ [model], s) := by
  simp [replaceStageCircular, rotateLeft_all]

/-- A sequence of calls of `replaceStageCircular`, collecting the returned stages. -/
def replaceMany {S : Type*} : List S → List S → Option (List S × List S)
  | stages, [] => some (stages, [])
  | stages, m :: ms => do
    let (st, out) ← replaceStageCircular stages m
    let (st', outs) ← replaceMany st ms
    return (st', out :: outs)

/-- **C30** After any sequence of calls on a non-empty problem, the stages are the last `N` elements of
(initial stages ++ appended stages), in order, and the returned stages are the first ones: nothing is
lost, duplicated or reordered. -/
theorem C30_sequence {S : Type*} (stages : List S) (hN : stages ≠ []) (ms : List S) :
    replaceMany stages ms =
      some ((stages ++ ms).drop ms.length, (stages ++ ms).take ms.length) := by
  induction ms generalizing stages with
  | nil => simp [replaceMany]
  | cons m ms ih =>
    cases stages with
    | nil => exact absurd rfl hN
    | cons s ss =>
      rw [replaceMany, C30_replace_stage]
      have := ih (ss ++ [m]) (by simp)
      simp [this]

/-- **C30** On a problem without stages the call returns the new stage and leaves the problem empty. -/
theorem C30_empty_problem {S : Type*} (m : S) : replaceStageCircular [] m = some ([], m) := by
  simp [replaceStageCircular, rotateLeft_all]

/-- Specification of integrity: adjacent stages and the ends fit together. -/
def Chained (P : Prob) : Prop :=
  (∀ s, P.stages.head? = some s → s.ndx1 = P.initNdx1) ∧
  (∀ i s s', P.stages[i]? = some s → P.stages[i + 1]? = some s' → s.nx2 = s'.nx1 ∧ s.ndx2 = s'.ndx1) ∧
  (∀ s, P.stages.getLast? = some s → s.nx2 = P.termNx ∧ s.ndx2 = P.termNdx)

theorem chainOk_iff (tx td : ℕ) (s : Stage) (ss : List Stage) : chainOk tx td s ss = true ↔
    (∀ i a b, (s :: ss)[i]? = some a → (s :: ss)[i + 1]? = some b → a.nx2 = b.nx1 ∧ a.ndx2 = b.ndx1) ∧
    ∀ a, (s :: ss).getLast? = some a → a.nx2 = tx ∧ a.ndx2 = td := by
  induction ss generalizing s with
  | nil => simp [chainOk]
  | cons s' ss ih =>
    simp only [chainOk, Bool.and_eq_true, beq_iff_eq, ih]
    constructor
    · rintro ⟨⟨h1, h2⟩, h3, h4⟩
      refine ⟨fun i a b ha hb => ?_, by simpa [List.getLast?_cons_cons] using h4⟩
      cases i with
      | zero => simp at ha hb; subst ha hb; exact ⟨h1, h2⟩
      | succ i => exact h3 i a b (by simpa using ha) (by simpa using hb)
    · rintro ⟨h1, h2⟩
      refine ⟨h1 0 s s' (by simp) (by simp), fun i a b ha hb => h1 (i + 1) a b (by simpa using ha)
        (by simpa using hb), by simpa [List.getLast?_cons_cons] using h2⟩

/-- **C30** `checkIntegrity` decides exactly that all the dimensions fit together (given an up-to-date cached
flag for the initial condition; problems without stages are accepted). -/
theorem C30_integrity_iff (P : Prob) (hc : P.initCached = P.initState.isSome) :
    P.checkIntegrity = true ↔ Chained P := by
  unfold Prob.checkIntegrity Chained
  simp only [hc, bne_self_eq_false, Bool.false_eq_true, if_false]
  cases hst : P.stages with
  | nil => simp
  | cons s ss =>
    simp only [Bool.and_eq_true, beq_iff_eq, chainOk_iff]
    simp

/-- **C30** A stale cached flag makes the check fail, whatever the stages. -/
theorem C30_stale_flag_fails (P : Prob) (hc : P.initCached ≠ P.initState.isSome) :
    P.checkIntegrity = false := by
  unfold Prob.checkIntegrity
  rw [if_pos (by simpa using hc)]

/-- **C30** The shift keeps the integrity exactly when the new stage fits between the last stage and the
terminal cost and the new first stage fits the initial condition. -/
theorem C30_integrity_preserved (P : Prob) (h : P.checkIntegrity = true) (s : Stage) (ss : List Stage)
    (hst : P.stages = s :: ss) (model : Stage) (hm1 : model.nx1 = P.termNx) (hm2 : model.ndx1 = P.termNdx) :
    ({ P with stages := ss ++ [model] } : Prob).checkIntegrity = true ↔
      (model.nx2 = P.termNx ∧ model.ndx2 = P.termNdx) ∧
      (ss.head?.getD model).ndx1 = P.initNdx1 := by
  have hc : P.initCached = P.initState.isSome := by
    by_contra hne
    rw [C30_stale_flag_fails P hne] at h
    exact absurd h (by simp)
  have h' := (C30_integrity_iff P hc).1 h
  rw [C30_integrity_iff { P with stages := ss ++ [model] } hc]
  obtain ⟨h1, h2, h3⟩ := h'
  unfold Chained
  dsimp only
  rw [hst] at h1 h2 h3
  constructor
  · rintro ⟨k1, _, k3⟩
    refine ⟨k3 model (by simp), ?_⟩
    cases ss with
    | nil => exact k1 model (by simp)
    | cons s' ss => exact k1 s' (by simp)
  · rintro ⟨k1, k2⟩
    refine ⟨fun a ha => ?_, fun i a b ha hb => ?_, fun a ha => ?_⟩
    · cases ss with
      | nil => simp at ha; subst ha; exact k2
      | cons s' ss => simp at ha; subst ha; exact k2
    · by_cases hi : i + 1 < ss.length
      · rw [List.getElem?_append_left (by omega)] at ha
        rw [List.getElem?_append_left hi] at hb
        exact h2 (i + 1) a b (by simpa using ha) (by simpa using hb)
      · have hle : i + 1 = ss.length := by
          have := (List.getElem?_eq_some_iff.1 hb).1
          simp at this
          omega
        rw [List.getElem?_append_right (by omega)] at hb
        rw [List.getElem?_append_left (by omega)] at ha
        have hb' : b = model := by
          rw [hle] at hb; simpa using hb.symm
        subst hb'
        have hl := h3 a (by
          rw [List.getLast?_eq_getElem?]
          simp only [List.length_cons, Nat.add_sub_cancel]
          rw [← hle]; simpa using ha)
        omega
    · simp at ha; subst ha; exact k1

/-- Example stage: state dimension 2, one control, two constraints of dimensions 1 and 3. -/
def exStage : Stage := ⟨2, 2, 1, 2, 2, [1, 3], [0, 0], [0, 0]⟩

/-- Example problem with three stages. -/
def exProb : Prob := ⟨[exStage, exStage, exStage], 2, 2, some [1, 2], true, 2, 2, [2]⟩

/-- Non-vacuity of the hypotheses of `C30_integrity_preserved`. -/
example : exProb.checkIntegrity = true ∧ exStage.nx1 = exProb.termNx := ⟨rfl, rfl⟩

/-! ### C29: initial guesses -/

theorem assignLoop_ok {ls rs : List Vec} (h : ls.map List.length = rs.map List.length) :
    assignLoop ls rs = (true, ls) := by
  induction ls generalizing rs with
  | nil =>
    cases rs with
    | nil => rfl
    | cons r rs => simp at h
  | cons l ls ih =>
    cases rs with
    | nil => simp at h
    | cons r rs =>
      simp only [List.map_cons, List.cons.injEq] at h
      simp [assignLoop, h.1, ih h.2]

theorem assignLoop_fail {ls rs : List Vec} (hl : ls.length = rs.length)
    (h : ls.map List.length ≠ rs.map List.length) : (assignLoop ls rs).1 = false := by
  induction ls generalizing rs with
  | nil =>
    cases rs with
    | nil => exact absurd rfl h
    | cons r rs => simp at hl
  | cons l ls ih =>
    cases rs with
    | nil => simp at hl
    | cons r rs =>
      simp only [List.map_cons, ne_eq, List.cons.injEq] at h
      by_cases e : l.length = r.length
      · simp only [assignLoop, e, ne_eq, not_true_eq_false, if_false]
        exact ih (by simpa using hl) fun e' => h ⟨e, e'⟩
      · simp [assignLoop, e]

/-- **C29** `assign_no_resize` succeeds exactly when all dimensions agree, and then copies everything. -/
theorem assignNoResize_iff (ls rs : List Vec) :
    ((assignNoResize ls rs).1 = true ↔ ls.map List.length = rs.map List.length) ∧
    ((assignNoResize ls rs).1 = true → (assignNoResize ls rs).2 = ls) := by
  unfold assignNoResize
  by_cases hl : ls.length = rs.length
  · simp only [hl, ne_eq, not_true_eq_false, if_false]
    by_cases h : ls.map List.length = rs.map List.length
    · rw [assignLoop_ok h]; simp [h]
    · rw [assignLoop_fail hl h]; simp [h]
  · have : ls.map List.length ≠ rs.map List.length := fun e => hl (by simpa using congrArg List.length e)
    simp [hl, this]

/-- **C29** (part) With an empty state guess the strategy is used; with two non-empty guesses, they become the
starting point when all dimensions agree with the buffers and otherwise the call throws.
Missing: a state guess without a control guess (`C29_state_guess_ignored`), the buffers after a throw
(`C29_partial_write_before_throw`), multiplier guesses (`C29_multiplier_guess_partially_used`). -/
theorem C29_guess_honoured_partial (strat : Prob → Option (List Vec)) (P : Prob)
    (xsIn usIn xsOut usOut : List Vec) :
    (xsIn = [] → ∀ xs, strat P = some xs →
      checkInitialGuess strat P xsIn usIn xsOut usOut = .ok xs (usDefaultInit P)) ∧
    (xsIn ≠ [] → usIn ≠ [] → xsIn.map List.length = xsOut.map List.length →
      usIn.map List.length = usOut.map List.length →
      checkInitialGuess strat P xsIn usIn xsOut usOut = .ok xsIn usIn) ∧
    (xsIn ≠ [] → usIn ≠ [] → ¬ (xsIn.map List.length = xsOut.map List.length ∧
      usIn.map List.length = usOut.map List.length) →
      ∃ xs us, checkInitialGuess strat P xsIn usIn xsOut usOut = .throws xs us) := by
  refine ⟨fun h xs hs => by simp [checkInitialGuess, h, hs], fun h1 h2 h3 h4 => ?_, fun h1 h2 h3 => ?_⟩
  · have a := assignNoResize_iff xsIn xsOut
    have b := assignNoResize_iff usIn usOut
    have a1 := a.1.2 h3
    have b1 := b.1.2 h4
    simp [checkInitialGuess, h1, h2, a1, b1, a.2 a1, b.2 b1]
  · have a := assignNoResize_iff xsIn xsOut
    have b := assignNoResize_iff usIn usOut
    unfold checkInitialGuess
    simp only [h1, h2, if_false]
    by_cases ha : (assignNoResize xsIn xsOut).1 = true
    · have hb : (assignNoResize usIn usOut).1 = false := by
        by_contra hb
        exact h3 ⟨a.1.1 ha, b.1.1 (by simpa using hb)⟩
      simp [ha, hb]
    · simp only [Bool.not_eq_true] at ha
      simp [ha]

/-- **C29** The default initialisation has the right shape: the forced initial state (if there is one) and one
state per stage, one zero control per stage. -/
theorem C29_default_shape (P : Prob) (x0 : Vec) (h0 : P.initState = some x0) :
    xsDefaultInit P = some (x0 :: P.stages.map (·.neutralNext)) ∧
    (usDefaultInit P).map List.length = P.stages.map (·.nu) := by
  refine ⟨by simp [xsDefaultInit, h0], ?_⟩
  simp [usDefaultInit, zeroVec, Function.comp_def]

/-- **C29** A state guess given without controls is ignored: the states of the previous results are kept, no
exception is thrown, even if the guess has the wrong length. -/
theorem C29_state_guess_ignored (strat : Prob → Option (List Vec)) (P : Prob) (xsIn xsOut usOut : List Vec)
    (h : xsIn ≠ []) :
    checkInitialGuess strat P xsIn [] xsOut usOut = .ok xsOut (usDefaultInit P) := by
  simp [checkInitialGuess, h]

/-- **C29** A rejected guess can have overwritten part of the stored trajectory: here the first state. -/
theorem C29_partial_write_before_throw (strat : Prob → Option (List Vec)) (P : Prob) :
    checkInitialGuess strat P [[1], [2, 3]] [[0]] [[7], [8]] [[9]] = .throws [[1], [8]] [[9]] := by
  simp [checkInitialGuess, assignNoResize, assignLoop]

/-- **C29** A multiplier guess of the wrong size is not rejected; its leading part is used. -/
theorem C29_multiplier_guess_partially_used :
    assignMultipliers [[1], [2, 3]] [[7], [8]] = [[1], [8]] := by
  simp [assignMultipliers, assignNoResize, assignLoop]

/-- **C29** With a forced initial condition the first state of the result is exactly the first state of the
starting point, for any number of iterations and any step lengths. -/
theorem C29_forced_initial_state_kept {X : Type*} (integrate : X → (ℕ → ℝ) → X)
    (h0 : ∀ x, integrate x (fun _ => 0) = x) (x : X) (its : List ((ℕ → ℝ) × List ℝ)) :
    runX0 integrate true x its = x := by
  induction its with
  | nil => rfl
  | cons it its ih =>
    obtain ⟨dx, alphas⟩ := it
    have : iterateX0 integrate true x dx alphas = x := by
      unfold iterateX0
      cases alphas.getLast? <;> simp [h0]
    rw [runX0, this, ih]

/-- **C29** So a warm start that violates the forced initial condition is never corrected. -/
theorem C29_wrong_warm_start_not_corrected {X : Type*} (integrate : X → (ℕ → ℝ) → X)
    (h0 : ∀ x, integrate x (fun _ => 0) = x) (xInit xWarm : X) (h : xWarm ≠ xInit)
    (its : List ((ℕ → ℝ) × List ℝ)) : runX0 integrate true xWarm its ≠ xInit := by
  rw [C29_forced_initial_state_kept integrate h0]
  exact h

/-- The hypothesis on `integrate` holds on a vector space; without forcing, a full step moves the state. -/
example : (∀ x : ℕ → ℝ, x + (fun _ => 0) = x) ∧
    runX0 (fun x d => x + d) true (fun _ => (1 : ℝ)) [(fun _ => 5, [1])] = (fun _ => 1) ∧
    runX0 (fun x d => x + d) false (fun _ => (1 : ℝ)) [(fun _ => 5, [1])] = (fun _ => 6) := by
  refine ⟨fun x => by funext i; simp, ?_, ?_⟩ <;> funext i <;> simp [runX0, iterateX0] <;> norm_num

/-! ### C31: shift of the solver memory -/

theorem rotateLeft_mid {α : Type*} (h : List α) (a : α) (r t : List α) :
    rotateLeft (h ++ (a :: r) ++ t) h.length t.length = some (h ++ r ++ a :: t) := by
  have e : (List.take ((h ++ (a :: r) ++ t).length - h.length - t.length)
      (List.drop h.length (h ++ (a :: r) ++ t))) = a :: r := by
    rw [List.append_assoc, List.drop_left]
    have : (h ++ (a :: r ++ t)).length - h.length - t.length = (a :: r).length := by
      simp only [List.length_append]; omega
    rw [this, List.take_left]
  unfold rotateLeft
  rw [e]
  have e1 : List.take h.length (h ++ (a :: r) ++ t) = h := by
    rw [List.append_assoc, List.take_left]
  have e2 : List.drop ((h ++ (a :: r) ++ t).length - t.length) (h ++ (a :: r) ++ t) = t := by
    have : (h ++ (a :: r) ++ t).length - t.length = (h ++ (a :: r)).length := by
      simp only [List.length_append]; omega
    rw [this, List.drop_left]
  simp only [e1, e2]

theorem rotateLeft_tail1 {α : Type*} (a : α) (r : List α) (t : α) :
    rotateLeft (a :: (r ++ [t])) 0 1 = some (r ++ [a, t]) := by
  simpa using rotateLeft_mid [] a r [t]

theorem rotateLeft_head1 {α : Type*} (h a : α) (r : List α) :
    rotateLeft (h :: a :: r) 1 0 = some (h :: (r ++ [a])) := by
  simpa using rotateLeft_mid [h] a r []

theorem setAt_append {α : Type*} (l : List α) (a b : α) (t : List α) (n : ℕ) (hn : n = l.length) :
    setAt (l ++ a :: t) n b = some (l ++ b :: t) := by
  subst hn
  simp [setAt]

theorem results_shift (P : Prob) (ss : List Stage) (sm : Stage) (hP : P.stages = ss ++ [sm]) (x0 : Vec)
    (a b : Vec) (X : List Vec) (u : Vec) (U : List Vec) (v : Vec) (V : List Vec) (vT : Vec)
    (l0 l1 : Vec) (L : List Vec) (g : Mat) (G : List Mat) (gT : Mat)
    (hV : V.length = ss.length) (hL : L.length = ss.length) (hG : G.length = ss.length) :
    Results.cycleAppend ⟨a :: b :: X, u :: U, v :: V ++ [vT], l0 :: l1 :: L, g :: G ++ [gT]⟩ P x0 =
      some ⟨x0 :: X ++ [(b :: X).getLast (by simp)], U ++ [(u :: U).getLast (by simp)],
        V ++ [zeroVec sm.nc, if P.termDims = [] then vT else zeroVec P.termNc],
        zeroVec P.initNr :: L ++ [zeroVec sm.ndx2],
        G ++ [zeroMat (sm.nu + sm.nc + sm.ndx2) (sm.ndx1 + 1),
          if P.termDims = [] then gT else zeroMat P.termNc (P.termNdx + 1)]⟩ := by
  have hN : P.stages.length = ss.length + 1 := by simp [hP]
  have hsm : P.stages[P.stages.length - 1]? = some sm := by rw [hN, hP]; simp
  have e1 : ∀ (z w : Mat) (i : ℕ), i = ss.length → ∀ q, setAt (G ++ [z, w]) i q = some (G ++ [q, w]) :=
    fun z w i hi q => setAt_append G z q [w] i (by omega)
  have e2 : ∀ (z w : Vec) (i : ℕ), i = ss.length → ∀ q, setAt (V ++ [z, w]) i q = some (V ++ [q, w]) :=
    fun z w i hi q => setAt_append V z q [w] i (by omega)
  have e3 : ∀ (z w : Mat) (i : ℕ), i = ss.length + 1 → ∀ q, setAt (G ++ [z, w]) i q = some (G ++ [z, q]) := by
    intro z w i hi q
    have := setAt_append (G ++ [z]) w q [] i (by simp; omega)
    simpa using this
  have e4 : ∀ (z w : Vec) (i : ℕ), i = ss.length + 1 → ∀ q, setAt (V ++ [z, w]) i q = some (V ++ [z, q]) := by
    intro z w i hi q
    have := setAt_append (V ++ [z]) w q [] i (by simp; omega)
    simpa using this
  have e5 : ∀ (z w : Vec) (i : ℕ), i = ss.length + 1 → ∀ q,
      setAt (z :: (L ++ [w])) i q = some (z :: (L ++ [q])) := by
    intro z w i hi q
    have := setAt_append (z :: L) w q [] i (by simp; omega)
    simpa using this
  have e6 : ∀ (z : Vec) (l : List Vec) (q : Vec), setAt (z :: l) 0 q = some (q :: l) := by
    intro z l q; simp [setAt]
  unfold Results.cycleAppend
  simp only [frontFromBack, rotateLeft_all, rotateLeft_tail1, Option.bind_eq_bind, Option.bind_some,
    List.cons_append, e6, hsm, e1 _ _ (P.stages.length - 1) (by omega), e2 _ _ (P.stages.length - 1) (by omega),
    e3 _ _ P.stages.length hN, e4 _ _ P.stages.length hN, e5 _ _ P.stages.length hN]
  by_cases ht : P.termDims = [] <;> simp [ht]

/-- **C31** The results after a shift: states, controls, multipliers and gains move by one stage; the new first
state is the given one, the last state and control are duplicated, the multipliers and gains of the new last
stage are zero, and so are those of the initial and terminal conditions. -/
theorem C31_results_shift (P : Prob) (ss : List Stage) (sm : Stage) (hP : P.stages = ss ++ [sm]) (x0 : Vec)
    (a b : Vec) (X : List Vec) (u : Vec) (U : List Vec) (v : Vec) (V : List Vec) (vT : Vec)
    (l0 l1 : Vec) (L : List Vec) (g : Mat) (G : List Mat) (gT : Mat)
    (hV : V.length = ss.length) (hL : L.length = ss.length) (hG : G.length = ss.length) :
    Results.cycleAppend ⟨a :: b :: X, u :: U, v :: V ++ [vT], l0 :: l1 :: L, g :: G ++ [gT]⟩ P x0 =
      some ⟨x0 :: X ++ [(b :: X).getLast (by simp)], U ++ [(u :: U).getLast (by simp)],
        V ++ [List.replicate sm.nc 0, if P.termDims = [] then vT else List.replicate P.termNc 0],
        List.replicate P.initNr 0 :: L ++ [List.replicate sm.ndx2 0],
        G ++ [⟨sm.nu + sm.nc + sm.ndx2, sm.ndx1 + 1, List.replicate ((sm.nu + sm.nc + sm.ndx2) * (sm.ndx1 + 1)) 0⟩,
          if P.termDims = [] then gT else ⟨P.termNc, P.termNdx + 1, List.replicate (P.termNc * (P.termNdx + 1)) 0⟩]⟩ :=
  results_shift P ss sm hP x0 a b X u U v V vT l0 l1 L g G gT hV hL hG

/-- The dimensions of the results that a solver set up for `P` has, with an initial state of dimension `nx0`. -/
structure Fits (nx0 : ℕ) (P : Prob) (r : Results) : Prop where
  xs : r.xs.map List.length = nx0 :: P.stages.map (·.nx2)
  us : r.us.map List.length = P.stages.map (·.nu)
  vs : r.vs.map List.length = P.stages.map (·.nc) ++ [P.termDims.sum]
  lams : r.lams.map List.length = P.initNr :: P.stages.map (·.ndx2)
  gains : r.gains.map (fun g => (g.rows, g.cols)) =
    P.stages.map (fun s => (s.nu + s.nc + s.ndx2, s.ndx1 + 1)) ++ [(P.termDims.sum, P.termNdx + 1)]

/-- **C31** A newly created results object has these dimensions, and its controls, multipliers and gains are zero. -/
theorem C31_created_results_fit (P : Prob) (x0 : Vec) (h0 : P.initState = some x0)
    (hn : ∀ s ∈ P.stages, s.neutralNext.length = s.nx2) (r : Results) (hr : Results.create P = some r) :
    Fits x0.length P r ∧ (∀ l ∈ r.us ++ r.vs ++ r.lams, ∀ a ∈ l, a = 0) ∧
      ∀ g ∈ r.gains, g.coef.length = g.rows * g.cols ∧ ∀ a ∈ g.coef, a = 0 := by
  unfold Results.create at hr
  split_ifs at hr with hc
  simp only [xsDefaultInit, h0, Option.bind_eq_bind, Option.bind_some, Option.pure_def,
    Option.some.injEq] at hr
  subst hr
  refine ⟨?_, ?_, ?_⟩
  · constructor <;> simp [usDefaultInit, zeroVec, zeroMat, Prob.termNc, Function.comp_def]
    exact hn
  · intro l hl
    simp only [usDefaultInit, zeroVec, List.mem_append, List.mem_map, List.mem_cons, List.mem_singleton] at hl
    rcases hl with (⟨s, _, rfl⟩ | ⟨s, _, rfl⟩ | rfl | h) | rfl | ⟨s, _, rfl⟩
    all_goals first | exact fun a ha => List.eq_of_mem_replicate ha | cases h
  · intro g hg
    simp only [List.mem_append, List.mem_map, List.mem_singleton] at hg
    rcases hg with ⟨s, _, rfl⟩ | rfl <;>
      exact ⟨by simp [zeroMat], fun a ha => List.eq_of_mem_replicate (by exact ha)⟩

/-- **C31** The step buffers of a new workspace: one control step per stage (none for the terminal stage), and the costate
steps sized by the stage's *own* state dimension, also when the next state has another one. -/
theorem C31_workspace_steps (P : Prob) (nx0 : ℕ) :
    let w := Workspace.create P nx0
    w.dxs = P.stages.map (·.ndx1) ++ [P.termNdx] ∧ w.dus = P.stages.map (·.nu) ∧ w.dus.length = w.trial_us.length ∧
    w.dvs = w.trial_vs ∧ w.dlams = P.initNr :: P.stages.map (·.ndx1) := by
  simp [Workspace.create, lqrInit, Function.comp_def]

/-- **C30** Results are created exactly for problems whose dimensions fit together and which have an initial state or a
stage; every other problem is rejected. -/
theorem C30_results_created_iff (P : Prob) (hc : P.initCached = P.initState.isSome) :
    (∃ r, Results.create P = some r) ↔ Chained P ∧ (P.initState ≠ none ∨ P.stages ≠ []) := by
  rw [← C30_integrity_iff P hc]
  unfold Results.create
  cases hi : P.checkIntegrity with
  | false => simp
  | true =>
    simp only [Bool.true_eq_false, if_false, true_and]
    cases h0 : P.initState with
    | some x0 => simp [xsDefaultInit, h0]
    | none => cases hs : P.stages <;> simp [xsDefaultInit, h0, hs]

/-- The problem after `replaceStageCircular`. -/
def Prob.shift (P : Prob) (m : Stage) : Prob := { P with stages := P.stages.tail ++ [m] }

/-- **C31** (part) The shift keeps the dimensions right when the new stage has the control dimension and the
next-state dimension of the previous last stage.
Missing: another control dimension (`C31_new_control_dimension_breaks`). -/
theorem C31_results_dims_partial (nx0 : ℕ) (P : Prob) (r : Results) (h : Fits nx0 P r) (m last : Stage)
    (hl : P.stages.getLast? = some last) (hu : m.nu = last.nu) (hx : m.nx2 = last.nx2) (x0 : Vec)
    (h0 : x0.length = nx0) : ∃ r', r.cycleAppend (P.shift m) x0 = some r' ∧ Fits nx0 (P.shift m) r' := by
  obtain ⟨xs, us, vs, lams, gains⟩ := r
  obtain ⟨h1, h2, h3, h4, h5⟩ := h
  dsimp only at h1 h2 h3 h4 h5
  cases hst : P.stages with
  | nil => rw [hst] at hl; simp at hl
  | cons s ss =>
    rw [hst] at h1 h2 h3 h4 h5 hl
    simp only [List.map_cons, List.cons_append] at h1 h2 h3 h4 h5
    obtain ⟨a, xs, rfl, ha, h1⟩ := List.map_eq_cons_iff.1 h1
    obtain ⟨b, X, rfl, hb, hX⟩ := List.map_eq_cons_iff.1 h1
    obtain ⟨u, U, rfl, hu', hU⟩ := List.map_eq_cons_iff.1 h2
    obtain ⟨v, vs, rfl, hv, h3⟩ := List.map_eq_cons_iff.1 h3
    obtain ⟨V, vt, rfl, hV, hvt⟩ := List.map_eq_append_iff.1 h3
    obtain ⟨vT, vnil, rfl, hvT, hvn⟩ := List.map_eq_cons_iff.1 hvt
    obtain rfl := List.map_eq_nil_iff.1 hvn
    obtain ⟨l0, lams, rfl, hl0, h4⟩ := List.map_eq_cons_iff.1 h4
    obtain ⟨l1, L, rfl, hl1, hL⟩ := List.map_eq_cons_iff.1 h4
    obtain ⟨g, gains, rfl, hg, h5⟩ := List.map_eq_cons_iff.1 h5
    obtain ⟨G, gt, rfl, hG, hgt⟩ := List.map_eq_append_iff.1 h5
    obtain ⟨gT, gnil, rfl, hgT, hgn⟩ := List.map_eq_cons_iff.1 hgt
    obtain rfl := List.map_eq_nil_iff.1 hgn
    have hsh : (P.shift m).stages = ss ++ [m] := by simp [Prob.shift, hst]
    refine ⟨_, C31_results_shift (P.shift m) ss m hsh x0 a b X u U v V vT l0 l1 L g G gT
      (by simpa using congrArg List.length hV) (by simpa using congrArg List.length hL)
      (by simpa using congrArg List.length hG), ?_⟩
    have hlastX : ((b :: X).getLast (by simp)).length = m.nx2 := by
      have e : ((b :: X).map List.length).getLast? = ((s :: ss).map (·.nx2)).getLast? := by
        simp only [List.map_cons, hb, hX]
      rw [List.getLast?_map, List.getLast?_map, hl, List.getLast?_eq_getLast_of_ne_nil (by simp)] at e
      simp only [Option.map_some, Option.some.injEq] at e
      rw [e, hx]
    have hlastU : ((u :: U).getLast (by simp)).length = m.nu := by
      have e : ((u :: U).map List.length).getLast? = ((s :: ss).map (·.nu)).getLast? := by
        simp only [List.map_cons, hu', hU]
      rw [List.getLast?_map, List.getLast?_map, hl, List.getLast?_eq_getLast_of_ne_nil (by simp)] at e
      simp only [Option.map_some, Option.some.injEq] at e
      rw [e, hu]
    have hT : (P.shift m).termDims = P.termDims := rfl
    have hTn : (P.shift m).termNdx = P.termNdx := rfl
    constructor
    · simp only [List.map_cons, List.map_append, List.map_nil, hlastX, hX, h0, hsh, List.cons_append]
    · simp only [List.map_cons, List.map_append, List.map_nil, hlastU, hU, hsh]
    · simp only [List.map_cons, List.map_append, List.map_nil, hV, hsh, hT]
      by_cases ht : P.termDims = []
      · simp [ht, zeroVec, hvT]
      · simp [ht, zeroVec, Prob.termNc, hT]
    · simp [hL, hsh, zeroVec]
    · simp only [List.map_cons, List.map_append, List.map_nil, hG, hsh, hT, hTn]
      by_cases ht : P.termDims = []
      · simp [ht, zeroMat, hgT]
      · simp [ht, zeroMat, Prob.termNc, hT, hTn]

/-- A sequence of shifts of problem and results. -/
def cycleMany (P : Prob) (r : Results) : List (Stage × Vec) → Option (Prob × Results)
  | [] => some (P, r)
  | (m, x0) :: rest => do
    let r' ← r.cycleAppend (P.shift m) x0
    cycleMany (P.shift m) r' rest

/-- **C31** (part) Any number of shifts keeps the dimensions right, if all new stages have the control and
next-state dimensions of the last stage of the original problem. -/
theorem C31_many_shifts_partial (nx0 : ℕ) (last : Stage) (ms : List (Stage × Vec))
    (hm : ∀ m ∈ ms, m.1.nu = last.nu ∧ m.1.nx2 = last.nx2 ∧ m.2.length = nx0) (P : Prob) (r : Results)
    (h : Fits nx0 P r) (l : Stage) (hl : P.stages.getLast? = some l) (hlu : l.nu = last.nu)
    (hlx : l.nx2 = last.nx2) :
    ∃ P' r', cycleMany P r ms = some (P', r') ∧ Fits nx0 P' r' ∧
      P'.stages = (P.stages ++ ms.map (·.1)).drop ms.length := by
  induction ms generalizing P r l with
  | nil => exact ⟨P, r, rfl, h, by simp⟩
  | cons m ms ih =>
    obtain ⟨m, x0⟩ := m
    obtain ⟨hu, hx, h0⟩ := hm _ (List.mem_cons_self ..)
    obtain ⟨r', hr', hf⟩ := C31_results_dims_partial nx0 P r h m l hl (hu.trans hlu.symm) (hx.trans hlx.symm)
      x0 h0
    have hl' : (P.shift m).stages.getLast? = some m := by simp [Prob.shift]
    obtain ⟨P', r'', h1, h2, h3⟩ := ih (fun m hm' => hm m (List.mem_cons_of_mem _ hm')) (P.shift m) r' hf m
      hl' hu hx
    refine ⟨P', r'', by simp [cycleMany, hr', h1], h2, ?_⟩
    rw [h3]
    cases hst : P.stages with
    | nil => rw [hst] at hl; simp at hl
    | cons s ss => simp [Prob.shift, hst]

/-- **C31** With another control dimension the results are left with a control of the wrong dimension, and a
control guess of the right dimensions for the new problem is then rejected by `run`. -/
theorem C31_new_control_dimension_breaks (nx0 : ℕ) (P : Prob) (r r' : Results) (m last : Stage)
    (h : Fits nx0 P r) (hl : P.stages.getLast? = some last) (hu : m.nu ≠ last.nu) (x0 : Vec)
    (hr : r.cycleAppend (P.shift m) x0 = some r') :
    ¬ Fits nx0 (P.shift m) r' ∧
    ∀ strat xsIn usIn, xsIn ≠ [] → usIn.map List.length = (P.shift m).stages.map (·.nu) →
      ∃ xs us, checkInitialGuess strat (P.shift m) xsIn usIn r'.xs r'.us = .throws xs us := by
  have hus : r'.us.map List.length ≠ (P.shift m).stages.map (·.nu) := by
    intro hfit
    unfold Results.cycleAppend at hr
    have hlast : (r'.us.map List.length).getLast? = some last.nu := by
      cases hru : r.us with
      | nil =>
        have := h.us
        rw [hru] at this
        cases hst : P.stages with
        | nil => rw [hst] at hl; simp at hl
        | cons s ss => rw [hst] at this; simp at this
      | cons u U =>
        have key : r'.us = U ++ [(u :: U).getLast (by simp)] := by
          obtain ⟨_, -, hr⟩ := Option.bind_eq_some_iff.1 hr
          obtain ⟨us1, h1, hr⟩ := Option.bind_eq_some_iff.1 hr
          obtain ⟨_, -, hr⟩ := Option.bind_eq_some_iff.1 hr
          obtain ⟨us2, h2, hr⟩ := Option.bind_eq_some_iff.1 hr
          rw [hru] at h1
          cases h1
          rw [rotateLeft_all] at h2
          cases h2
          iterate 9 obtain ⟨_, -, hr⟩ := Option.bind_eq_some_iff.1 hr
          split_ifs at hr
          · cases hr; rfl
          · iterate 2 obtain ⟨_, -, hr⟩ := Option.bind_eq_some_iff.1 hr
            cases hr; rfl
        rw [key]
        have e : ((u :: U).map List.length).getLast? = (P.stages.map (·.nu)).getLast? := by
          rw [← hru, h.us]
        rw [List.getLast?_map, List.getLast?_map, hl, List.getLast?_eq_getLast_of_ne_nil (by simp)] at e
        simp only [Option.map_some, Option.some.injEq] at e
        simp [e]
    rw [hfit] at hlast
    simp [Prob.shift] at hlast
    exact hu hlast
  refine ⟨fun hf => hus hf.us, fun strat xsIn usIn h1 h2 => ?_⟩
  refine (C29_guess_honoured_partial strat (P.shift m) xsIn usIn r'.xs r'.us).2.2 h1 ?_ ?_
  · rintro rfl
    simp [Prob.shift] at h2
  · rintro ⟨_, h3⟩
    exact hus (h3.symm.trans h2)

/-- Example: the shift of the example problem by a stage with three controls. -/
example : ∃ r r', Results.create exProb = some r ∧ Fits 2 exProb r ∧
    exProb.stages.getLast? = some exStage ∧ ({ exStage with nu := 3 } : Stage).nu ≠ exStage.nu ∧
    r.cycleAppend (exProb.shift { exStage with nu := 3 }) [4, 5] = some r' := by
  refine ⟨_, _, rfl, ?_, rfl, by decide, rfl⟩
  exact (C31_created_results_fit exProb [1, 2] rfl (by simp [exProb, exStage]) _ rfl).1

/-! ### C31: workspace -/

theorem rotateLeft_replicate0 {α : Type*} (a : α) (n : ℕ) (hn : 1 ≤ n) :
    rotateLeft (List.replicate n a) 0 0 = some (List.replicate n a) := by
  obtain ⟨n, rfl⟩ := Nat.exists_eq_add_of_le' hn
  rw [List.replicate_succ, rotateLeft_all, ← List.replicate_succ']
  rfl

theorem rotateLeft_replicate1 {α : Type*} (b a : α) (n : ℕ) (hn : 1 ≤ n) :
    rotateLeft (b :: List.replicate n a) 1 0 = some (b :: List.replicate n a) := by
  obtain ⟨n, rfl⟩ := Nat.exists_eq_add_of_le' hn
  rw [List.replicate_succ, rotateLeft_head1, ← List.replicate_succ']
  rfl

theorem workspace_cycle_eq (w : Workspace) (P : Prob) (stage : Stage)
    (hs : P.stages[P.stages.length - 1]? = some stage) (hc : P.checkIntegrity = true)
    {txs tus tvs tvs' tl pxs pus pvs pvs' : List ℕ} {kn kn' : List KnotDim} {ps ps' : List (List ℕ)}
    {pj pj' : List (List ℕ × ℕ × ℕ)} {ac ac' : List ℕ}
    (h1 : rotateLeft w.trial_xs 1 0 = some txs) (h2 : rotateLeft w.trial_us 1 0 = some tus)
    (h3 : rotateLeft w.trial_vs 0 1 = some tvs)
    (h3' : setAt tvs (P.stages.length - 1) stage.nc = some tvs')
    (h4 : rotateLeft w.trial_lams 1 0 = some tl) (h5 : rotateLeft w.prev_xs 0 0 = some pxs)
    (h6 : rotateLeft w.prev_us 0 0 = some pus) (h7 : rotateLeft w.prev_vs 0 1 = some pvs)
    (h7' : setAt pvs (P.stages.length - 1) stage.nc = some pvs') (h8 : rotateLeft w.knots 0 1 = some kn)
    (h8' : setAt kn (P.stages.length - 1) (stage.ndx1, stage.nu, stage.nc, stage.ndx1) = some kn')
    (h9 : rotateLeft w.product_sets 0 1 = some ps)
    (h9' : setAt ps (P.stages.length - 1) stage.cdims = some ps')
    (h10 : rotateLeft w.proj_jacs 0 1 = some pj)
    (h10' : setAt pj (P.stages.length - 1) (stage.cdims, stage.ndx1, stage.nu) = some pj')
    (h11 : rotateLeft w.active 0 1 = some ac)
    (h11' : setAt ac (P.stages.length - 1) stage.nc = some ac') :
    w.cycleAppend P = some (some
      ⟨txs, tus, tvs', tl, pxs, pus, pvs', tvs', tl, tl, tvs', pvs', kn', w.nc0, ps', pj', ac',
        (lqrInit kn' w.nc0).1, (lqrInit kn' w.nc0).2.1, (lqrInit kn' w.nc0).2.2.1,
        (lqrInit kn' w.nc0).2.2.2⟩) := by
  unfold Workspace.cycleAppend
  simp only [hs, hc, h1, h2, h3, h3', h4, h5, h6, h7, h7', h8, h8', h9, h9', h10, h10', h11, h11',
    Option.bind_eq_bind, Option.bind_some, Bool.true_eq_false, if_false]
  rfl

/-- **C31** (part) When the state and control dimensions are the same at all stages (the constraints may
differ) and the horizon is at least two, the workspace after the shift has exactly the buffers that a newly
set-up workspace for the new problem has.
Missing: horizon one (`C31_horizon_one_undefined`) and other dimensions (`C31_workspace_other_dims`). -/
theorem C31_workspace_dims_partial (P : Prob) (m : Stage) (nx k nd : ℕ) (hN : 2 ≤ P.stages.length)
    (hu : ∀ s ∈ P.stages ++ [m], s.nx2 = nx ∧ s.nu = k ∧ s.ndx2 = nd)
    (hc : (P.shift m).checkIntegrity = true) :
    (Workspace.create P nx).cycleAppend (P.shift m) = some (some (Workspace.create (P.shift m) nx)) := by
  obtain ⟨s, s', ss, hst⟩ : ∃ s s' ss, P.stages = s :: s' :: ss := by
    cases h1 : P.stages with
    | nil => rw [h1] at hN; simp at hN
    | cons s t =>
      cases t with
      | nil => rw [h1] at hN; simp at hN
      | cons s' ss => exact ⟨s, s', ss, rfl⟩
  have hrep : ∀ (f : Stage → ℕ) (c : ℕ) (l : List Stage), (∀ t ∈ l, f t = c) →
      l.map f = List.replicate l.length c := by
    intro f c l hl
    rw [List.eq_replicate_iff]
    exact ⟨by simp, by simpa using hl⟩
  have hsh : (P.shift m).stages = s' :: ss ++ [m] := by simp [Prob.shift, hst]
  have hlen : (P.shift m).stages.length = ss.length + 2 := by simp [hsh]
  have hsub : ∀ t ∈ (P.shift m).stages, t ∈ P.stages ++ [m] := by
    intro t ht; rw [hsh] at ht; rw [hst]; simp at ht ⊢; tauto
  have hsub' : ∀ t ∈ P.stages, t ∈ P.stages ++ [m] := fun t ht => List.mem_append_left _ ht
  have hPl : P.stages.length = ss.length + 2 := by simp [hst]
  have x1 : P.stages.map (·.nx2) = List.replicate (ss.length + 2) nx := by
    rw [hrep (·.nx2) nx P.stages fun t ht => (hu t (hsub' t ht)).1, hPl]
  have x2 : (P.shift m).stages.map (·.nx2) = List.replicate (ss.length + 2) nx := by
    rw [hrep (·.nx2) nx _ fun t ht => (hu t (hsub t ht)).1, hlen]
  have u1 : P.stages.map (·.nu) = List.replicate (ss.length + 2) k := by
    rw [hrep (·.nu) k P.stages fun t ht => (hu t (hsub' t ht)).2.1, hPl]
  have u2 : (P.shift m).stages.map (·.nu) = List.replicate (ss.length + 2) k := by
    rw [hrep (·.nu) k _ fun t ht => (hu t (hsub t ht)).2.1, hlen]
  have l1 : P.stages.map (·.ndx2) = List.replicate (ss.length + 2) nd := by
    rw [hrep (·.ndx2) nd P.stages fun t ht => (hu t (hsub' t ht)).2.2, hPl]
  have l2 : (P.shift m).stages.map (·.ndx2) = List.replicate (ss.length + 2) nd := by
    rw [hrep (·.ndx2) nd _ fun t ht => (hu t (hsub t ht)).2.2, hlen]
  have hm : (P.shift m).stages[(P.shift m).stages.length - 1]? = some m := by
    rw [hlen, hsh]; simp
  have key : ∀ {β : Type} (f : Stage → β) (t : β),
      (rotateLeft (P.stages.map f ++ [t]) 0 1).bind
        (fun v => setAt v ((P.shift m).stages.length - 1) (f m)) =
      some ((P.shift m).stages.map f ++ [t]) := by
    intro β f t
    rw [hst, List.map_cons, List.cons_append, rotateLeft_tail1, Option.bind_some,
      setAt_append ((s' :: ss).map f) (f s) (f m) [t] _ (by simp [hlen])]
    rw [hsh]; simp
  have hx0 : nx :: List.replicate (ss.length + 2) nx = List.replicate (ss.length + 3) nx := rfl
  have k1 := key (·.nc) P.termNc
  have k2 := key (fun s => ((s.ndx1, s.nu, s.nc, s.ndx1) : KnotDim)) (P.termNdx, 0, P.termNc, 0)
  have k3 := key (·.cdims) P.termDims
  have k4 := key (fun s => (s.cdims, s.ndx1, s.nu)) (P.termDims, P.termNdx, 0)
  rw [Option.bind_eq_some_iff] at k1 k2 k3 k4
  obtain ⟨w1, a1, b1⟩ := k1
  obtain ⟨w2, a2, b2⟩ := k2
  obtain ⟨w3, a3, b3⟩ := k3
  obtain ⟨w4, a4, b4⟩ := k4
  have r1 : rotateLeft (nx :: P.stages.map (·.nx2)) 1 0 = some (nx :: (P.shift m).stages.map (·.nx2)) := by
    rw [x1, x2, rotateLeft_replicate1 nx nx _ (by omega)]
  have r2 : rotateLeft (P.stages.map (·.nu)) 1 0 = some ((P.shift m).stages.map (·.nu)) := by
    rw [u1, u2]; exact rotateLeft_replicate1 k k (ss.length + 1) (by omega)
  have r3 : rotateLeft (P.initNr :: P.stages.map (·.ndx2)) 1 0 =
      some (P.initNr :: (P.shift m).stages.map (·.ndx2)) := by
    rw [l1, l2, rotateLeft_replicate1 P.initNr nd _ (by omega)]
  have r4 : rotateLeft (nx :: P.stages.map (·.nx2)) 0 0 = some (nx :: (P.shift m).stages.map (·.nx2)) := by
    rw [x1, x2, hx0, rotateLeft_replicate0 nx _ (by omega)]
  have r5 : rotateLeft (P.stages.map (·.nu)) 0 0 = some ((P.shift m).stages.map (·.nu)) := by
    rw [u1, u2, rotateLeft_replicate0 k _ (by omega)]
  exact workspace_cycle_eq (Workspace.create P nx) (P.shift m) m hm hc r1 r2 a1 b1 r3 r4 r5 a1 b1 a2 b2 a3 b3
    a4 b4 a1 b1

/-- A sequence of shifts of problem and workspace; `none`: undefined behaviour or exception. -/
def cycleManyWs (P : Prob) (w : Workspace) : List Stage → Option (Prob × Workspace)
  | [] => some (P, w)
  | m :: ms => do
    let r ← w.cycleAppend (P.shift m)
    let w' ← r
    cycleManyWs (P.shift m) w' ms

/-- **C31** (part) The same after any number of shifts. -/
theorem C31_workspace_many_partial (nx k nd : ℕ) (ms : List Stage) (P : Prob) (hN : 2 ≤ P.stages.length)
    (hP : P.checkIntegrity = true) (hcache : P.initCached = P.initState.isSome)
    (hin : P.initNdx1 = nd) (ht : P.termNx = nx ∧ P.termNdx = nd)
    (hu : ∀ s ∈ P.stages ++ ms, s.nx1 = nx ∧ s.ndx1 = nd ∧ s.nx2 = nx ∧ s.nu = k ∧ s.ndx2 = nd) :
    ∃ P', cycleManyWs P (Workspace.create P nx) ms = some (P', Workspace.create P' nx) ∧
      P'.stages = (P.stages ++ ms).drop ms.length := by
  induction ms generalizing P with
  | nil => exact ⟨P, rfl, by simp⟩
  | cons m ms ih =>
    have hsub : ∀ t ∈ (P.shift m).stages, t ∈ P.stages ++ m :: ms := by
      intro t ht
      simp only [Prob.shift, List.mem_append, List.mem_singleton] at ht
      rcases ht with ht | rfl
      · exact List.mem_append_left _ (List.mem_of_mem_tail ht)
      · simp
    have hc : (P.shift m).checkIntegrity = true := by
      rw [C30_integrity_iff (P.shift m) hcache]
      refine ⟨fun s hs => ?_, fun i a b ha hb => ?_, fun s hs => ?_⟩
      · rw [(hu s (hsub s (List.mem_of_mem_head? hs))).2.1]; exact hin.symm
      · have h1 := hu a (hsub a (List.mem_of_getElem? ha))
        have h2 := hu b (hsub b (List.mem_of_getElem? hb))
        omega
      · have h1 := hu s (hsub s (List.mem_of_getLast? hs))
        exact ⟨h1.2.2.1.trans ht.1.symm, h1.2.2.2.2.trans ht.2.symm⟩
    have h1 := C31_workspace_dims_partial P m nx k nd hN (fun s hs => by
      have := hu s (by simp at hs ⊢; tauto)
      exact ⟨this.2.2.1, this.2.2.2.1, this.2.2.2.2⟩) hc
    have hlen : (P.shift m).stages.length = P.stages.length := by
      simp only [Prob.shift, List.length_append, List.length_tail, List.length_singleton]; omega
    obtain ⟨P', h2, h3⟩ := ih (P.shift m) (by omega) hc hcache hin ht (fun s hs => by
      rcases List.mem_append.1 hs with hs | hs
      · exact hu s (hsub s hs)
      · exact hu s (by simp [hs]))
    refine ⟨P', by simp [cycleManyWs, h1, h2], ?_⟩
    rw [h3]
    cases hst : P.stages with
    | nil => rw [hst] at hN; simp at hN
    | cons s ss => simp [Prob.shift, hst]

/-- The hypotheses hold for the example problem and two appended stages with other constraints. -/
example : ∃ P', cycleManyWs exProb (Workspace.create exProb 2)
    [{ exStage with cdims := [] }, { exStage with cdims := [5] }] = some (P', Workspace.create P' 2) := by
  obtain ⟨P', h, _⟩ := C31_workspace_many_partial 2 1 2
    [{ exStage with cdims := [] }, { exStage with cdims := [5] }] exProb (by decide) rfl rfl rfl ⟨rfl, rfl⟩
    (by simp [exProb, exStage])
  exact ⟨P', h⟩

/-- **C31** With one stage the shift of the workspace is undefined behaviour: `std::rotate` is called with
`middle` past the end. -/
theorem C31_horizon_one_undefined (P : Prob) (s m : Stage) (nx0 : ℕ) (hP : P.stages = [s])
    (hc : (P.shift m).checkIntegrity = true) :
    (Workspace.create P nx0).cycleAppend (P.shift m) = none := by
  unfold Workspace.cycleAppend
  simp only [hc, Bool.true_eq_false, if_false]
  simp [Workspace.create, hP, Prob.shift, rotateLeft]

/-- **C31** With different control dimensions the buffers differ from those of a new workspace, although the
problem is consistent. -/
theorem C31_workspace_other_dims :
    ∃ (P : Prob) (m : Stage) (w : Workspace), P.checkIntegrity = true ∧ (P.shift m).checkIntegrity = true ∧
      (Workspace.create P 2).cycleAppend (P.shift m) = some (some w) ∧
      w.trial_us ≠ (Workspace.create (P.shift m) 2).trial_us :=
  ⟨exProb, { exStage with nu := 3 }, _, rfl, rfl, rfl, by decide⟩

/-- **C31** The factors of the serial LQ solver after the shift are those of a new solver for the shifted knots
(the initial-stage block too, if the state dimension of the first knot is the same). -/
theorem C31_serial_solver (k : KnotDim) (ks : List KnotDim) (kT new : KnotDim) (nc0 : ℕ)
    (h : ((ks ++ [new]).head?.map (·.1)) = some k.1) :
    (SerialSolver.create (k :: ks ++ [kT]) nc0).cycleAppend (ks ++ [new, kT]) new =
      some (SerialSolver.create (ks ++ [new, kT]) nc0) := by
  have e : setAt (ks ++ [k, kT]) ((ks ++ [new, kT]).length - 2) new = some (ks ++ [new, kT]) :=
    setAt_append ks k new [kT] _ (by simp)
  unfold SerialSolver.cycleAppend SerialSolver.create
  simp only [List.cons_append, rotateLeft_tail1, Option.bind_eq_bind, Option.bind_some, e]
  cases ks with
  | nil => simp at h; simp [h]
  | cons k' ks => simp at h; simp [h]

/-! ### Dense and parallel linear solvers -/

/-- **C31, dense solver** After the shift the value functions and the factorisation objects of the dense LQ
solver have the sizes of a new solver, while the blocks of the last stage's factor (`kktMat`, `ff`, `fb`, `ft`)
keep those of the knot that left the horizon: the solver is like a new one exactly when the new knot has the
dimensions of the one that left. -/
theorem C31_dense_solver (k : PKnot) (ks : List PKnot) (kT new : PKnot) (nc0 : ℕ)
    (h : (ks ++ [new]).head?.map (fun a => (a.dim.1, a.nth)) = some (k.dim.1, k.nth)) :
    ∃ s, (DenseSolver.create (k :: ks ++ [kT]) nc0).cycleAppend (ks ++ [new, kT]) new = some s ∧
      s.factors = ks ++ [k, kT] ∧
      s.ldl = (DenseSolver.create (ks ++ [new, kT]) nc0).ldl ∧
      s.values = (DenseSolver.create (ks ++ [new, kT]) nc0).values ∧
      (s = DenseSolver.create (ks ++ [new, kT]) nc0 ↔ new = k) := by
  have hN : (ks ++ [new, kT]).length - 1 - 1 = ks.length := by simp
  have e1 : setAt (ks.map PKnot.ntot ++ [k.ntot, kT.ntot]) ((ks ++ [new, kT]).length - 1 - 1) new.ntot =
      some (ks.map PKnot.ntot ++ [new.ntot, kT.ntot]) :=
    setAt_append _ _ _ [kT.ntot] _ (by simp)
  have e2 : setAt (ks.map (fun k => (k.dim.1, k.nth)) ++ [(k.dim.1, k.nth), (kT.dim.1, kT.nth)])
      ((ks ++ [new, kT]).length - 1 - 1) (new.dim.1, new.nth) =
      some (ks.map (fun k => (k.dim.1, k.nth)) ++ [(new.dim.1, new.nth), (kT.dim.1, kT.nth)]) :=
    setAt_append _ _ _ [(kT.dim.1, kT.nth)] _ (by simp)
  have hc : (DenseSolver.create (k :: ks ++ [kT]) nc0).cycleAppend (ks ++ [new, kT]) new =
      some { DenseSolver.create (k :: ks ++ [kT]) nc0 with
             factors := ks ++ [k, kT]
             ldl := ks.map PKnot.ntot ++ [new.ntot, kT.ntot]
             values := ks.map (fun k => (k.dim.1, k.nth)) ++ [(new.dim.1, new.nth), (kT.dim.1, kT.nth)] } := by
    unfold DenseSolver.cycleAppend DenseSolver.create
    simp only [List.cons_append, List.map_cons, List.map_append, List.map_nil, rotateLeft_tail1,
      Option.bind_eq_bind, Option.bind_some, e1, e2]
    rfl
  refine ⟨_, hc, rfl, by simp [DenseSolver.create], by simp [DenseSolver.create], ?_⟩
  constructor
  · intro he
    have := congrArg DenseSolver.factors he
    simpa [DenseSolver.create, eq_comm] using this
  · rintro rfl
    cases ks with
    | nil => simp [DenseSolver.create]
    | cons a ks =>
      simp only [List.cons_append, List.head?_cons, Option.map_some, Option.some.injEq, Prod.mk.injEq] at h
      simp [DenseSolver.create, h.1, h.2]

/-- Non-vacuity, and the failing case: a horizon of two with a constraint that appears in the new stage. -/
example :
    ∃ s, (DenseSolver.create [⟨(2, 1, 0, 2), 0⟩, ⟨(2, 1, 0, 2), 0⟩, ⟨(2, 0, 0, 0), 0⟩] 2).cycleAppend
        [⟨(2, 1, 0, 2), 0⟩, ⟨(2, 1, 3, 2), 0⟩, ⟨(2, 0, 0, 0), 0⟩] ⟨(2, 1, 3, 2), 0⟩ = some s ∧
      s ≠ DenseSolver.create [⟨(2, 1, 0, 2), 0⟩, ⟨(2, 1, 3, 2), 0⟩, ⟨(2, 0, 0, 0), 0⟩] 2 :=
  ⟨_, rfl, by decide⟩

theorem initialize_cleared (s : ParSolver) (knots : List PKnot) (nc0 n : ℕ) :
    s.cleared.initialize knots nc0 n = ParSolver.empty.initialize knots nc0 n := rfl

theorem allocateLegs_dims (knots : List PKnot) (hk : knots ≠ []) (n : ℕ) (hn : 0 < n) (i : ℕ) (l : List PKnot)
    (h : allocateLegs knots n i = some l) :
    l.map (·.dim) = (knots.map (·.dim)).take (i * (knots.length - 1 + 1) / n) := by
  induction i generalizing l with
  | zero =>
    injection h with h
    subst h
    simp
  | succ i ih =>
    unfold allocateLegs at h
    split at h
    · rename_i a b ha hb
      injection h with h
      subst h
      have h1 := ih a ha
      unfold allocateLeg at hb
      split at hb
      · cases hb
      · split at hb
        · cases hb
        · injection hb with hb
          subst hb
          have hmap : ∀ (f : PKnot → PKnot) (l : List PKnot), (∀ k, (f k).dim = k.dim) →
              (l.map f).map (·.dim) = l.map (·.dim) := by
            intro f l hf
            simp [List.map_map, Function.comp_def, hf]
          rw [List.map_append, h1, hmap _ _ (by intro k; split <;> rfl)]
          simp only [Gar.getWork, List.map_take, List.map_drop]
          have hle : i * (knots.length - 1 + 1) / n ≤ (i + 1) * (knots.length - 1 + 1) / n :=
            Nat.div_le_div_right (Nat.mul_le_mul_right _ (Nat.le_succ i))
          rw [← List.take_add, Nat.add_sub_cancel' hle]
    · cases h

/-- Dimensions after `initialize()`: the knots of the problem keep theirs. -/
theorem initialize_dims (s s' : ParSolver) (knots K : List PKnot) (nc0 n : ℕ) (hn : 0 < n)
    (h : s.initialize knots nc0 n = some (s', K)) : K.map (·.dim) = knots.map (·.dim) := by
  unfold ParSolver.initialize at h
  split at h
  · rename_i legs k0 links h1 h2 h3
    simp only [Option.some.injEq, Prod.mk.injEq] at h
    obtain ⟨-, rfl⟩ := h
    have hk : knots ≠ [] := by rintro rfl; cases h2
    rw [allocateLegs_dims knots hk n hn n _ h1, Nat.mul_div_cancel_left _ hn]
    have : knots.length - 1 + 1 = knots.length := by
      have := List.length_pos_iff.2 hk
      omega
    rw [this, List.take_of_length_le (by simp)]
  · cases h

/-- knots without parameters -/
def plain (D : List KnotDim) : List PKnot := D.map fun d => ⟨d, 0⟩

theorem addParam_plain (K : List PKnot) : K.map (·.addParam 0) = plain (K.map (·.dim)) := by
  simp [plain, PKnot.addParam, Function.comp_def]

/-- Cycling the parallel solver: shift of the knots, then `cycleAppend`. -/
def cyclePar (nc0 n : ℕ) : ParSolver × List PKnot → List KnotDim → Option (ParSolver × List PKnot)
  | st, [] => some st
  | st, d :: ds =>
    match shiftKnots st.2 d with
    | none => none
    | some K =>
      match st.1.cycleAppend K nc0 n with
      | none => none
      | some st' => cyclePar nc0 n st' ds

/-- Dimensions of the knots after shifts. -/
def shiftDims (D : List KnotDim) (d : KnotDim) : List KnotDim :=
  D.tail.dropLast ++ [d] ++ D.getLast?.toList

theorem shiftKnots_dims (K : List PKnot) (d : KnotDim) (h2 : 2 ≤ K.length) :
    ∃ K', shiftKnots K d = some K' ∧ K'.map (·.dim) = shiftDims (K.map (·.dim)) d := by
  obtain ⟨k, r, t, rfl⟩ : ∃ k r t, K = k :: (r ++ [t]) := by
    cases K with
    | nil => simp at h2
    | cons k K =>
      have hne : K ≠ [] := by rintro rfl; simp at h2
      exact ⟨k, K.dropLast, K.getLast hne, by rw [List.dropLast_append_getLast hne]⟩
  refine ⟨r ++ [⟨d, 0⟩, t], ?_, ?_⟩
  · unfold shiftKnots
    rw [rotateLeft_tail1]
    exact setAt_append r k _ [t] _ (by simp)
  · have hl : (k.dim :: (r.map (·.dim) ++ [t.dim])).getLast? = some t.dim := by
      rw [← List.cons_append, List.getLast?_append]
      simp
    simp [shiftDims, hl]

theorem shiftDims_length (D : List KnotDim) (d : KnotDim) (h2 : 2 ≤ D.length) :
    (shiftDims D d).length = D.length := by
  cases D with
  | nil => simp at h2
  | cons a D =>
    have : (a :: D).getLast? = some ((a :: D).getLast (by simp)) := List.getLast?_eq_some_getLast (by simp)
    simp only [shiftDims, List.tail_cons, this, Option.toList_some, List.length_append, List.length_dropLast,
      List.length_cons, List.length_nil] at h2 ⊢
    omega

theorem allocateLeg_isSome (knots : List PKnot) (n : ℕ) (hn : 0 < n) (hl : n ≤ knots.length) (i : ℕ) (hi : i < n)
    (b : Bool) : ∃ l, allocateLeg knots (Gar.getWork (knots.length - 1) i n) b = some l := by
  have hN : knots.length - 1 + 1 = knots.length := by omega
  have h1 : 1 ≤ (i + 1) * knots.length / n := by
    rw [Nat.le_div_iff_mul_le hn]
    nlinarith
  have h2 : (i + 1) * knots.length / n ≤ knots.length := by
    rw [Nat.div_le_iff_le_mul_add_pred hn]
    have : (i + 1) * knots.length ≤ n * knots.length := Nat.mul_le_mul_right _ hi
    omega
  unfold allocateLeg
  simp only [Gar.getWork, hN]
  rw [if_neg (by omega), List.getElem?_eq_getElem (by omega)]
  exact ⟨_, rfl⟩

theorem allocateLegs_isSome (knots : List PKnot) (n : ℕ) (hn : 0 < n) (hl : n ≤ knots.length) (i : ℕ) (hi : i ≤ n) :
    ∃ l, allocateLegs knots n i = some l := by
  induction i with
  | zero => exact ⟨_, rfl⟩
  | succ i ih =>
    obtain ⟨a, ha⟩ := ih (by omega)
    obtain ⟨l, hl'⟩ := allocateLeg_isSome knots n hn hl i (by omega) (i + 1 == n)
    exact ⟨a ++ l, by unfold allocateLegs; rw [ha, hl']⟩

theorem linkDims_isSome (knots : List PKnot) (n : ℕ) (hn : 0 < n) (hl : n ≤ knots.length) (i : ℕ) (hi : i < n) :
    ∃ l, linkDims knots n i = some l := by
  induction i with
  | zero => exact ⟨_, rfl⟩
  | succ i ih =>
    obtain ⟨a, ha⟩ := ih (by omega)
    have hN : knots.length - 1 + 1 = knots.length := by omega
    have h2 : (i + 1) * knots.length / n ≤ knots.length := by
      rw [Nat.div_le_iff_le_mul_add_pred hn]
      have : (i + 1) * knots.length ≤ n * knots.length := Nat.mul_le_mul_right _ (by omega)
      omega
    have h3 : i * knots.length / n < knots.length := by
      rw [Nat.div_lt_iff_lt_mul hn, Nat.mul_comm]
      exact Nat.mul_lt_mul_of_pos_left (by omega) (by omega)
    unfold linkDims
    simp only [Gar.getWork, hN, ha]
    rw [List.getElem?_eq_getElem h3, List.getElem?_eq_getElem (by omega)]
    exact ⟨_, rfl⟩

/-- The construction succeeds on at least two threads and at least as many knots. -/
theorem create_isSome (D : List KnotDim) (nc0 n : ℕ) (hn : 2 ≤ n) (hl : n ≤ D.length) :
    ∃ st, ParSolver.create (plain D) nc0 n = some st := by
  have hl' : n ≤ (plain D).length := by simpa [plain] using hl
  obtain ⟨legs, h1⟩ := allocateLegs_isSome (plain D) n (by omega) hl' n le_rfl
  obtain ⟨links, h2⟩ := linkDims_isSome (plain D) n (by omega) hl' (n - 1) (by omega)
  unfold ParSolver.create ParSolver.initialize
  rw [if_neg (by omega), h1, h2]
  cases D with
  | nil => simp at hl; omega
  | cons d D => exact ⟨_, rfl⟩

/-- **C31, parallel solver** After any number of shifts, with knots of any dimensions, the parallel LQ solver
and the (re-parametrised) knots of its problem are those of a solver newly constructed for the shifted knots, on
any number of threads from two to the number of knots. -/
theorem C31_parallel_solver (nc0 n : ℕ) (hn : 2 ≤ n) (ds : List KnotDim) (D : List KnotDim) (hl : n ≤ D.length)
    (st : ParSolver × List PKnot) (h : ParSolver.create (plain D) nc0 n = some st) :
    ∃ st', cyclePar nc0 n st ds = some st' ∧ ParSolver.create (plain (ds.foldl shiftDims D)) nc0 n = some st' := by
  induction ds generalizing D st with
  | nil => exact ⟨st, rfl, h⟩
  | cons d ds ih =>
    have hn' : ¬ n < 2 := by omega
    have hK : st.2.map (·.dim) = D := by
      unfold ParSolver.create at h
      rw [if_neg hn'] at h
      have := initialize_dims _ st.1 _ st.2 nc0 n (by omega) h
      rw [this]
      simp [plain, Function.comp_def]
    have hlen : 2 ≤ st.2.length := by
      have := congrArg List.length hK
      rw [List.length_map] at this
      omega
    obtain ⟨K', e1, e2⟩ := shiftKnots_dims st.2 d hlen
    rw [hK] at e2
    have e3 : st.1.cycleAppend K' nc0 n = ParSolver.create (plain (shiftDims D d)) nc0 n := by
      unfold ParSolver.cycleAppend ParSolver.create
      rw [if_neg hn', initialize_cleared, addParam_plain, e2]
    have hl' : n ≤ (shiftDims D d).length := by rw [shiftDims_length D d (by omega)]; exact hl
    obtain ⟨st1, hst1⟩ := create_isSome (shiftDims D d) nc0 n hn hl'
    obtain ⟨st', h1, h2⟩ := ih (shiftDims D d) hl' st1 hst1
    refine ⟨st', ?_, h2⟩
    unfold cyclePar
    rw [e1]
    dsimp only
    rw [e3, hst1]
    exact h1

/-- Non-vacuity: three stages and a terminal knot on two threads: the first leg is parametrised. -/
example :
    (ParSolver.create (plain [(2, 1, 0, 2), (2, 1, 0, 2), (2, 1, 1, 2), (2, 0, 0, 0)]) 2 2).map
      (fun st => (st.2.map (·.nth), st.1.rhsDims)) = some ([2, 2, 0, 0], [2, 2, 2, 2]) := by
  decide

theorem allocateLegs_length (knots : List PKnot) (n : ℕ) (hn : 0 < n) (hk : knots ≠ []) (i : ℕ) (hi : i ≤ n) (l : List PKnot)
    (h : allocateLegs knots n i = some l) : l.length = i * knots.length / n := by
  have h1 := congrArg List.length (allocateLegs_dims knots hk n hn i l h)
  have hp := List.length_pos_iff.2 hk
  have h2 : i * knots.length / n ≤ knots.length := by
    rw [Nat.div_le_iff_le_mul_add_pred hn]
    have : i * knots.length ≤ n * knots.length := Nat.mul_le_mul_right _ hi
    omega
  rw [List.length_map, List.length_take, List.length_map, Nat.sub_add_cancel hp] at h1
  omega

theorem allocateLegs_get (knots : List PKnot) (n : ℕ) (hn : 0 < n) (hk : knots ≠ []) (i : ℕ) (hi : i ≤ n) (l : List PKnot)
    (h : allocateLegs knots n i = some l) (j : ℕ) (hj : j < i) (t : ℕ)
    (h1 : j * knots.length / n ≤ t) (h2 : t < (j + 1) * knots.length / n) :
    ∃ e k, knots[(j + 1) * knots.length / n - 1]? = some e ∧ knots[t]? = some k ∧
      l[t]? = some (if j + 1 = n then k else ⟨k.dim, e.dim.2.2.2⟩) := by
  induction i generalizing l with
  | zero => omega
  | succ i ih =>
    have hp := List.length_pos_iff.2 hk
    have hN : knots.length - 1 + 1 = knots.length := Nat.sub_add_cancel hp
    unfold allocateLegs at h
    split at h
    · rename_i a b ha hb
      injection h with h
      subst h
      have hlen := allocateLegs_length knots n hn hk i (by omega) a ha
      rcases Nat.lt_succ_iff_lt_or_eq.1 hj with hj | rfl
      · obtain ⟨e, k, e1, e2, e3⟩ := ih (by omega) a ha hj
        refine ⟨e, k, e1, e2, ?_⟩
        have hle : (j + 1) * knots.length / n ≤ i * knots.length / n :=
          Nat.div_le_div_right (Nat.mul_le_mul_right _ hj)
        rw [List.getElem?_append_left (by omega), e3]
      · unfold allocateLeg at hb
        simp only [Gar.getWork, hN] at hb
        rw [if_neg (by omega)] at hb
        split at hb
        · cases hb
        · rename_i e he
          injection hb with hb
          subst hb
          have ht : t < knots.length := by
            have : (j + 1) * knots.length / n ≤ knots.length := by
              rw [Nat.div_le_iff_le_mul_add_pred hn]
              have : (j + 1) * knots.length ≤ n * knots.length := Nat.mul_le_mul_right _ hi
              omega
            omega
          refine ⟨e, knots[t], he, List.getElem?_eq_getElem ht, ?_⟩
          rw [List.getElem?_append_right (by omega), List.getElem?_map, List.getElem?_take_of_lt (by omega), List.getElem?_drop, hlen,
            Nat.add_sub_cancel' h1, List.getElem?_eq_getElem ht, Option.map_some]
          simp only [beq_iff_eq]
          rfl
    · cases h

theorem linkDims_get (knots : List PKnot) (n : ℕ) (hk : knots ≠ []) (i : ℕ) (l : List ℕ) (h : linkDims knots n i = some l) :
    l.length = 2 * i ∧ ∀ j < i, l[2 * j]? = (knots[j * knots.length / n]?).map (·.dim.1) ∧
      l[2 * j + 1]? = (knots[(j + 1) * knots.length / n - 1]?).map (·.dim.1) := by
  induction i generalizing l with
  | zero =>
    injection h with h
    subst h
    exact ⟨rfl, fun j hj => absurd hj (Nat.not_lt_zero j)⟩
  | succ i ih =>
    have hN : knots.length - 1 + 1 = knots.length := Nat.sub_add_cancel (List.length_pos_iff.2 hk)
    unfold linkDims at h
    simp only [Gar.getWork, hN] at h
    split at h
    · rename_i a x y ha hx hy
      injection h with h
      subst h
      obtain ⟨h1, h2⟩ := ih a ha
      refine ⟨by simp [h1]; omega, fun j hj => ?_⟩
      rcases Nat.lt_succ_iff_lt_or_eq.1 hj with hj | rfl
      · rw [List.getElem?_append_left (by omega), List.getElem?_append_left (by omega)]
        exact h2 j hj
      · rw [List.getElem?_append_right (by omega), List.getElem?_append_right (by omega), h1, hx, hy]
        simp
    · cases h

/-- **C31, created solvers** The buffers of a newly constructed dense or parallel solver: each stage of the dense solver has a
factorisation object for the controls, the constraints and twice the next state, and a value function of its state and
parameter; on the parallel solver the stages of leg `j` (in the sense of `get_work`) are parametrised by the state that
follows the leg, those of the last leg are not, the factors are those of these stages, and the condensed system has one block
for the initial constraint and one per first state, then two per link, with diagonal, sub- and superdiagonal to match. -/
theorem C31_created_solvers (D : List KnotDim) (nc0 n : ℕ) :
    (∀ (K : List PKnot) (t : ℕ) (k : PKnot), K[t]? = some k →
      (DenseSolver.create K nc0).factors[t]? = some k ∧
      (DenseSolver.create K nc0).ldl[t]? = some (k.dim.2.1 + k.dim.2.2.1 + (k.dim.2.2.2 + k.dim.2.2.2)) ∧
      (DenseSolver.create K nc0).values[t]? = some (k.dim.1, k.nth)) ∧
    ∀ st, ParSolver.create (plain D) nc0 n = some st →
      st.1.datas = st.2 ∧ st.2.length = D.length ∧
      (∀ j < n, ∀ t, j * D.length / n ≤ t → t < (j + 1) * D.length / n →
        ∃ e d, D[(j + 1) * D.length / n - 1]? = some e ∧ D[t]? = some d ∧
          st.2[t]? = some ⟨d, if j + 1 = n then 0 else e.2.2.2⟩) ∧
      st.1.rhsDims.length = 2 * n ∧ st.1.rhsDims[0]? = some nc0 ∧ st.1.rhsDims[1]? = D[0]?.map (·.1) ∧
      (∀ j, j + 1 < n → st.1.rhsDims[2 * j + 2]? = D[j * D.length / n]?.map (·.1) ∧
        st.1.rhsDims[2 * j + 3]? = D[(j + 1) * D.length / n - 1]?.map (·.1)) ∧
      st.1.vecDim = st.1.rhsDims.sum ∧ st.1.diagonal = st.1.rhsDims ∧ st.1.facs = st.1.rhsDims ∧
      (∀ t a b, st.1.rhsDims[t]? = some a → st.1.rhsDims[t + 1]? = some b →
        st.1.superdiagonal[t]? = some (a, b) ∧ st.1.subdiagonal[t]? = some (b, a)) := by
  constructor
  · intro K t k hk
    simp only [DenseSolver.create, List.getElem?_map, hk, Option.map_some, PKnot.ntot, true_and, and_true, Option.some.injEq]
    omega
  intro st h
  have hplain : (plain D).length = D.length := by simp [plain]
  unfold ParSolver.create at h
  split at h
  · cases h
  rename_i hn
  have hn : 0 < n := by omega
  have h2n : 2 ≤ n := by omega
  unfold ParSolver.initialize at h
  split at h
  · rename_i legs k0 links h1 h2 h3
    have hk : plain D ≠ [] := by
      intro hnil
      rw [hnil] at h2
      cases h2
    injection h with h
    subst h
    obtain ⟨hl1, hl2⟩ := linkDims_get _ _ hk _ _ h3
    have hlen := allocateLegs_length _ _ hn hk n le_rfl _ h1
    rw [Nat.mul_div_cancel_left _ hn, hplain] at hlen
    rw [hplain] at hl2
    have hmap : ∀ t : ℕ, ((plain D)[t]?).map (fun k => k.dim.1) = (D[t]?).map (fun d => d.1) := by
      intro t
      simp [plain, Function.comp_def]
    refine ⟨rfl, hlen, ?_, ?_, rfl, ?_, ?_, rfl, rfl, rfl, ?_⟩
    · intro j hj t ht1 ht2
      have := allocateLegs_get _ _ hn hk n le_rfl _ h1 j hj t
      rw [hplain] at this
      obtain ⟨e, k, e1, e2, e3⟩ := this ht1 ht2
      simp only [plain, List.getElem?_map, Option.map_eq_some_iff] at e1 e2
      obtain ⟨e', e1, rfl⟩ := e1
      obtain ⟨k', e2, rfl⟩ := e2
      refine ⟨e', k', e1, e2, ?_⟩
      dsimp only
      rw [e3]
      split <;> rfl
    · simp [hl1]
      omega
    · cases D with
      | nil => cases h2
      | cons d D =>
        injection h2 with h2
        subst h2
        rfl
    · intro j hj
      obtain ⟨p1, p2⟩ := hl2 j (by omega)
      rw [hmap] at p1 p2
      exact ⟨p1, p2⟩
    · intro t a b ha hb
      dsimp only at ha hb ⊢
      have htail : ∀ l : List ℕ, l.tail[t]? = l[t + 1]? := fun l => by cases l <;> simp
      constructor
      · show (ParSolver.empty.superdiagonal ++ List.zip _ _)[t]? = _
        show (List.zip _ _)[t]? = _
        rw [List.getElem?_zip_eq_some, htail]
        exact ⟨ha, hb⟩
      · show (List.zip _ _)[t]? = _
        rw [List.getElem?_zip_eq_some, htail]
        exact ⟨hb, ha⟩
  · cases h

/-- Five stages on two legs: `create_isSome` gives the solver. -/
example : ∃ st, ParSolver.create (plain [(2, 1, 0, 3), (3, 1, 0, 2), (2, 1, 1, 2), (2, 1, 0, 2), (2, 0, 0, 0)]) 2 2 = some st ∧
    st.2[1]? = some ⟨(3, 1, 0, 2), 2⟩ := by
  obtain ⟨st, h⟩ := create_isSome [(2, 1, 0, 3), (3, 1, 0, 2), (2, 1, 1, 2), (2, 1, 0, 2), (2, 0, 0, 0)] 2 2 (by decide) (by decide)
  obtain ⟨e, d, h1, h2, h3⟩ := ((C31_created_solvers _ 2 2).2 st h).2.2.1 0 (by decide) 1 (by decide) (by decide)
  cases h1
  cases h2
  exact ⟨st, h, h3⟩

end Aligator.Cycle
