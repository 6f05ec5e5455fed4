import Verif.Lemmas.Gains
import Verif.Props.Parallel
import Verif.Props.DenseRiccati
import Verif.Props.ProxDDP

/-!
# C68: the feedback gains in the results

`results.gains_`, `getCtrlFeedbacks()`, `getCtrlFeedforwards()` after an iteration: for the serial linear
solver they are the optimal affine policy of the last LQ subproblem at every stage; for the stagewise-dense
solver the copy is a size mismatch (abort with assertions; without them the control and multiplier rows are
right and the third block is the next costate); for the parallel solver the gains of every leg but the last
are those of the problem that stops at the end of the leg. When no LQ subproblem is solved (the guess
already meets the tolerances) the gains are left as they were.
-/

namespace Aligator.Gains

open Matrix Aligator.Gar

section field

variable {𝕜 : Type*} [Field 𝕜] [DecidableEq 𝕜] {nth : ℕ}

/-- **C68, serial solver** With or without assertions, and whatever the gains were before: the copy
succeeds; at every stage and every state, every solution of the problem that starts there has the control,
the path multiplier and the next state given by the stored matrix, and at the end the terminal multiplier;
`getCtrlFeedforwards()`, `getCtrlFeedbacks()` are the optimal control policy. -/
theorem C68_serial_gains {ldl : LDL 𝕜} (hl : ldl.Exact) {nc0 nx : ℕ} (P : Problem 𝕜 nth nc0 nx)
    (hs : P.stages.Symm) (hT : PlainTerminal P.stages) (mueq : 𝕜) (s : Solver P)
    (hb : backward ldl P mueq = .ok s) (checks : Bool) (gs : List (Gain 𝕜))
    (hg : gs.map (fun g => (g.rows, g.ndx)) = sizes P.stages) :
    ∃ gs', store checks gs (shownFacs s.datas) = some gs' ∧
      GainsFor mueq (fun _ x' => x') P.stages gs' ∧
      ∃ as Ks, ctrlFeedforwards (nus P.stages) gs' = some as ∧ ctrlFeedbacks (nus P.stages) gs' = some Ks ∧
        Policies mueq P.stages as Ks := by
  have hF : FacsOK mueq P.stages s.datas := by
    unfold backward at hb
    split at hb
    · cases hb
    · rename_i F hF
      dsimp only at hb
      split at hb
      · cases hb
      · injection hb with hb
        subst hb
        exact (backwardImpl_ok hl _ hs _ hF).1
  obtain ⟨gs', h1, h2⟩ := store_serial checks P.stages hs hT s.datas hF gs hg
  exact ⟨gs', h1, h2, policies_of_gains _ _ h2⟩

theorem store_sizes {checks : Bool} (gs : List (Gain 𝕜)) (ss : List (Shown 𝕜)) (gs' : List (Gain 𝕜))
    (h : store checks gs ss = some gs') :
    gs'.map (fun g => (g.rows, g.ndx)) = gs.map (fun g => (g.rows, g.ndx)) := by
  induction gs generalizing ss gs' with
  | nil => cases h
  | cons g gs ih =>
    cases ss with
    | nil => cases h
    | cons s ss =>
      unfold store at h
      split at h
      · obtain ⟨g', h1, rfl⟩ := Option.map_eq_some_iff.1 h
        unfold storeLast at h1
        split at h1
        · split at h1
          · cases h1
          · injection h1 with h1
            subst h1
            rfl
        · cases h1
      · split at h
        · rename_i g' gs2 h1 h2
          injection h with h
          subst h
          have := ih _ _ h2
          unfold storeStage at h1
          split at h1
          · split at h1
            · cases h1
            · injection h1 with h1
              subst h1
              simp [this]
          · cases h1
        · cases h

theorem storeAll_sizes {checks : Bool} (hist : List (List (Shown 𝕜))) (gs gs' : List (Gain 𝕜))
    (h : storeAll checks gs hist = some gs') :
    gs'.map (fun g => (g.rows, g.ndx)) = gs.map (fun g => (g.rows, g.ndx)) := by
  induction hist generalizing gs with
  | nil => injection h with h; rw [h]
  | cons ss hist ih =>
    unfold storeAll at h
    split at h
    · cases h
    · rename_i g1 h1
      rw [ih g1 h, store_sizes _ _ _ h1]

theorem storeAll_snoc {checks : Bool} (hist : List (List (Shown 𝕜))) (ss : List (Shown 𝕜))
    (gs gs1 : List (Gain 𝕜)) (h : storeAll checks gs hist = some gs1) :
    storeAll checks gs (hist ++ [ss]) = store checks gs1 ss := by
  induction hist generalizing gs with
  | nil =>
    injection h with h
    subst h
    show (match store checks gs ss with | none => none | some gs' => some gs') = _
    cases store checks gs ss <;> rfl
  | cons s2 hist ih =>
    rw [List.cons_append]
    unfold storeAll at h ⊢
    split at h
    · cases h
    · exact ih _ h

/-- **C68, a whole run with the serial solver** However many LQ subproblems were solved before (and
whatever they left in the gains), after the last one the results hold the optimal policy of the *last* LQ
subproblem: the one at the iterate before the last step. -/
theorem C68_serial_gains_of_last_subproblem {ldl : LDL 𝕜} (hl : ldl.Exact) {nc0 nx : ℕ}
    (P : Problem 𝕜 nth nc0 nx) (hs : P.stages.Symm) (hT : PlainTerminal P.stages) (mueq : 𝕜) (s : Solver P)
    (hb : backward ldl P mueq = .ok s) (checks : Bool) (hist : List (List (Shown 𝕜)))
    (gs1 : List (Gain 𝕜)) (hh : storeAll checks (initGains P.stages) hist = some gs1) :
    ∃ gs', storeAll checks (initGains P.stages) (hist ++ [shownFacs s.datas]) = some gs' ∧
      GainsFor mueq (fun _ x' => x') P.stages gs' ∧
      ∃ as Ks, ctrlFeedforwards (nus P.stages) gs' = some as ∧ ctrlFeedbacks (nus P.stages) gs' = some Ks ∧
        Policies mueq P.stages as Ks := by
  have hg : gs1.map (fun g => (g.rows, g.ndx)) = sizes P.stages := by
    rw [storeAll_sizes hist _ _ hh]
    simp [initGains, List.map_map, Function.comp_def]
  obtain ⟨gs', h1, h2⟩ := C68_serial_gains hl P hs hT mueq s hb checks gs1 hg
  exact ⟨gs', (storeAll_snoc hist _ _ _ hh).trans h1, h2⟩

/-- **C68, dense solver with assertions** As soon as one stage has a next state, copying the gains of the
stagewise-dense solver trips a size assertion. -/
theorem C68_dense_gains_size_mismatch {nx : ℕ} (ch : Chain 𝕜 nth nx) (hH : HasState ch)
    (F : Dense.DFacs ch) (gs : List (Gain 𝕜)) (hg : gs.map (fun g => (g.rows, g.ndx)) = sizes ch) :
    store true gs (shownDFacs F) = none := store_dense_checked ch hH F gs hg

/-- **C68, dense solver without assertions** The control and multiplier rows are the optimal policy; the
third block is the next *costate*, not the next state. -/
theorem C68_dense_gains_unchecked_partial {ldl : LDL 𝕜} (hl : ldl.Exact) {nc0 nx : ℕ}
    (P : Problem 𝕜 nth nc0 nx) (hs : P.stages.Symm) (hT : PlainTerminal P.stages) (mueq : 𝕜)
    (s : Dense.DSolver P) (hb : Dense.backward ldl P mueq = .ok s) (gs : List (Gain 𝕜))
    (hg : gs.map (fun g => (g.rows, g.ndx)) = sizes P.stages) :
    ∃ gs', store false gs (shownDFacs s.facs) = some gs' ∧
      GainsFor mueq (fun lam _ => lam) P.stages gs' ∧
      ∃ as Ks, ctrlFeedforwards (nus P.stages) gs' = some as ∧ ctrlFeedbacks (nus P.stages) gs' = some Ks ∧
        Policies mueq P.stages as Ks := by
  have hF : Dense.DFacsOK mueq P.stages s.facs := by
    unfold Dense.backward at hb
    split at hb
    · cases hb
    · split at hb
      · cases hb
      · rename_i F hF
        split at hb
        · cases hb
        · injection hb with hb
          subst hb
          exact (Dense.backwardStages_ok hl _ hs _ hF).1
  obtain ⟨gs', h1, h2⟩ := store_dense P.stages hs hT s.facs hF gs hg
  exact ⟨gs', h1, h2, policies_of_gains _ _ h2⟩

theorem shown_setK0 {nx : ℕ} {ch : Chain 𝕜 nth nx} (F : Facs ch) (K : Mat 𝕜 ch.nu0 nx) :
    ∃ s s' rest, shownFacs F = s :: rest ∧ shownFacs (setK0 F K) = s' :: rest ∧ s'.rows = s.rows ∧
      s'.ndx = s.ndx := by
  cases F with
  | last F => exact ⟨_, _, [], rfl, rfl, rfl, rfl⟩
  | cons F Ft => exact ⟨_, _, shownFacs Ft, rfl, rfl, rfl, rfl⟩

/-- **C68, parallel solver** The copy succeeds. Apart from the first matrix (which `collapseFeedback`
overwrites, see C13), the gains of each leg but the last are the optimal policy of the problem that *stops
at the end of the leg*, without the cost of what follows; those of the last leg are the optimal policy of
the whole problem. Missing for the full property: the gains of the other legs (false, see
`C68_parallel_gains_wrong`). -/
theorem C68_parallel_gains_partial {ldl : LDL 𝕜} (hl : ldl.Exact) {nc0 nx : ℕ} (G0 : Mat 𝕜 nc0 nx)
    (g0 : Vec 𝕜 nc0) (L : Legs 𝕜 nth nx) (hs : L.join.Symm) (hT : PlainTerminal L.join) (mueq : 𝕜)
    (steps : ℕ) (small) (err0) (s : PSolver (nc0 := nc0) L)
    (hb : parallelBackwardLegs ldl G0 g0 L mueq steps small err0 = .ok s) (checks : Bool)
    (gs : List (Gain 𝕜)) (hg : gs.map (fun g => (g.rows, g.ndx)) = sizes L.join) :
    ∃ gs' g full, store checks gs (shownLegs (collapse s.facs)) = some gs' ∧
      gs'.tail = full ∧ LegGains mueq L (g :: full) := by
  have hF : LegsOK mueq s.facs := by
    unfold parallelBackwardLegs at hb
    split at hb
    · cases hb
    · split at hb
      · cases hb
      · rename_i FL hFL
        dsimp only at hb
        split at hb
        · cases hb
        · injection hb with hb
          subst hb
          exact backwardLegs_ok hl _ hs _ hFL
  obtain ⟨full, h1, h2⟩ := store_legs checks L hs hT s.facs hF gs hg
  generalize s.facs = FL at h1
  cases FL with
  | last F =>
    cases full with
    | nil => obtain ⟨g, gl, rfl, -⟩ : ∃ g gl, gs = g :: gl ∧ True := by
              cases gs with
              | nil => cases F <;> simp [store] at h1
              | cons g gl => exact ⟨g, gl, rfl, trivial⟩
             cases F with
             | last F => simp [shownLegs, shownFacs, store] at h1
             | cons F Ft =>
               simp only [shownLegs, shownFacs, store, shownFacs_ne_nil, Bool.false_eq_true, if_false] at h1
               split at h1 <;> simp at h1
    | cons g full => exact ⟨_, g, full, h1, rfl, h2⟩
  | cons F FL =>
    obtain ⟨s0, s0', rest, e1, e2, hr, hc⟩ := shown_setK0 F (collapseFeedback F (storedSubdiagonal1 F))
    have e3 : shownLegs (collapse (LegFacs.cons F FL)) = s0' :: (rest ++ shownLegs FL) := by
      simp [collapse, shownLegs, e2]
    have e4 : shownLegs (LegFacs.cons F FL) = s0 :: (rest ++ shownLegs FL) := by
      simp [shownLegs, e1]
    have hne : (rest ++ shownLegs FL).isEmpty = false := by
      have := shownLegs_ne_nil FL
      cases rest with
      | nil => exact this
      | cons => rfl
    rw [e4] at h1
    rw [e3]
    cases gs with
    | nil => simp [store] at h1
    | cons g gl =>
      simp only [store, hne, Bool.false_eq_true, if_false] at h1 ⊢
      split at h1
      · rename_i g' gl' hg' hgl'
        injection h1 with h1
        subst h1
        rw [hgl']
        have : ∃ g'', storeStage checks g s0' = some g'' := by
          unfold storeStage at hg' ⊢
          split at hg'
          · rename_i hle
            have hle' : g.rows ≤ s0'.rows ∧ g.ndx ≤ s0'.ndx := by rw [hr, hc]; exact hle
            rw [dif_pos hle']
            split at hg'
            · cases hg'
            · rename_i hn
              have hn' : ¬ (checks = true ∧ ¬ (g.rows = s0'.rows ∧ g.ndx = s0'.ndx)) := by
                rw [hr, hc]; exact hn
              rw [if_neg hn']
              exact ⟨_, rfl⟩
          · cases hg'
        obtain ⟨g'', hg''⟩ := this
        rw [hg'']
        exact ⟨_, g', gl', rfl, rfl, h2⟩
      · cases h1

/-- The last leg's gains in the list of all gains. -/
theorem parallel_last_leg {mueq : 𝕜} {nx nx' : ℕ} (s : Seg 𝕜 nth nx nx') (ch : Chain 𝕜 nth nx')
    (gs : List (Gain 𝕜)) (h : LegGains mueq (.cons s (.last ch)) gs) :
    ∃ a b, gs = a ++ b ∧ ∃ as Ks, ctrlFeedforwards (nus ch) b = some as ∧
      ctrlFeedbacks (nus ch) b = some Ks ∧ Policies mueq ch as Ks := by
  obtain ⟨a, b, rfl, -, h2⟩ := h
  exact ⟨a, b, rfl, policies_of_gains ch b h2⟩

/-- Nothing is written when no LQ subproblem is solved; in particular right after `setup()` every stored
feedback matrix is zero. -/
theorem C68_feedbacks_zero_before_first_solve {nx : ℕ} (ch : Chain 𝕜 nth nx) :
    ∃ Ks, ctrlFeedbacks (nus ch) (initGains ch) = some Ks ∧ ∀ K ∈ Ks, K.2.2 = 0 := by
  induction ch with
  | last k => exact ⟨[], rfl, by simp⟩
  | cons k tl ih =>
    rename_i nx nu nc nx2
    obtain ⟨Ks, h1, h2⟩ := ih
    refine ⟨⟨nu, nx, 0⟩ :: Ks, ?_, ?_⟩
    · have : ctrlFeedbacks (nus tl) (List.map (fun d => (⟨d.1, d.2, 0⟩ : Gain 𝕜)) (sizes tl)) = some Ks := h1
      have hle : nu ≤ nu + nc + nx2 := by omega
      simp only [nus, initGains, sizes, List.map_cons, ctrlFeedbacks, hle, dite_true, this, Option.map_some]
      rfl
    · intro K hK
      rcases List.mem_cons.1 hK with rfl | hK
      · rfl
      · exact h2 K hK

end field

/-! ### When the gains are written -/

section run

open Aligator.ProxDDP

variable {X V W : Type}

/-- number of LQ subproblems solved during a run: the gains are copied once after each -/
def solves (s : St X V W) : ℕ := (s.log.filter (fun ev => ev.lq)).length

/-- **C68, when nothing is solved** If the initial guess meets the target tolerances, `run` reports
convergence (as long as its tolerance-tightening loop ends) and has solved no LQ subproblem: the gains in
the results are the ones that were there before the call. -/
theorem C68_converged_guess_leaves_gains {𝕜 : Type*} [Field 𝕜] (p : Params) (e : Env X V W) (fuel : ℕ)
    (v0 : V) (s0 : St X V W) (hI : 0 < p.maxIters) (hA : 0 < p.maxAlIters) (w : W) (pr : ℝ)
    (hm : e.mult (max p.muInit p.muLb) v0 s0.x = (w, some pr)) (hp : pr ≤ p.targetTol)
    (hd : e.dualInf s0.x ≤ p.targetDual)
    (hst : ∀ s, run p e fuel v0 s0 ≠ .stuck s) (checks : Bool) (gs : List (Gain 𝕜)) :
    ∃ s, run p e fuel v0 s0 = .done true s ∧ s.x = s0.x ∧ solves s = 0 ∧
      ∀ solved : List (List (Shown 𝕜)), solved.length = solves s → storeAll checks gs solved = some gs := by
  have key : ∃ s, run p e fuel v0 s0 = .done true s ∧ s.x = s0.x ∧ solves s = 0 := by
    obtain ⟨m, hA'⟩ : ∃ m, p.maxAlIters = m + 1 := ⟨p.maxAlIters - 1, by omega⟩
    obtain ⟨n, hI'⟩ : ∃ n, p.maxIters = n + 1 := ⟨p.maxIters - 1, by omega⟩
    have hx : (initRun p v0 s0).x = s0.x := rfl
    have hmu : (initRun p v0 s0).mu = max p.muInit p.muLb := rfl
    have hv : (initRun p v0 s0).prevV = v0 := rfl
    set s1 := computeMultipliers e (initRun p v0 s0).x ((initRun p v0 s0).push false) with hs1
    have e1 : s1 = { (initRun p v0 s0).push false with ws := w, prim := pr } := by
      rw [hs1]
      unfold computeMultipliers
      have : e.mult ((initRun p v0 s0).push false).mu ((initRun p v0 s0).push false).prevV
          (initRun p v0 s0).x = (w, some pr) := hm
      rw [this]
    have hinner : innerLoop p e (initRun p v0 s0) = .done true (computeCriterion e s1) := by
      unfold innerLoop
      have hni : (computeMultipliers e (initRun p v0 s0).x ((initRun p v0 s0).push false)).numIters = 0 := by
        rw [← hs1, e1]; rfl
      dsimp only
      rw [hni, Nat.sub_zero, hI', ← hs1, innerIter]
      dsimp only
      rw [if_pos]
      right
      rw [e1]
      exact ⟨hd, hp⟩
    have hpt : (computeCriterion e s1).prim ≤ (computeCriterion e s1).primTol := by
      rw [e1]
      exact hp.trans (le_max_right _ _)
    unfold run at hst ⊢
    rw [hA'] at hst ⊢
    unfold outer at hst ⊢
    have hni : (initRun p v0 s0).numIters < p.maxIters := hI
    rw [if_pos hni, hinner] at hst ⊢
    dsimp only at hst ⊢
    rw [if_pos hpt] at hst ⊢
    cases ht : tighten p fuel (computeCriterion e s1) with
    | none => rw [ht] at hst; exact absurd rfl (hst _)
    | some s2 =>
      dsimp only
      have hfr : ∀ k (a b : St X V W), tighten p k a = some b →
          b.dual = a.dual ∧ b.prim = a.prim ∧ b.log = a.log ∧ b.x = a.x := by
        intro k
        induction k with
        | zero => intro a b h; cases h
        | succ k ih =>
          intro a b h
          unfold tighten at h
          dsimp only at h
          split at h
          · obtain ⟨h1, h2, h3, h4⟩ := ih _ _ h
            exact ⟨h1, h2, h3, h4⟩
          · injection h with h
            subst h
            exact ⟨rfl, rfl, rfl, rfl⟩
      obtain ⟨h1, h2, h3, h4⟩ := hfr _ _ _ ht
      have hc : s2.dual ≤ p.targetDual ∧ s2.prim ≤ p.targetTol := by
        rw [h1, h2, e1]
        exact ⟨hd, hp⟩
      rw [if_pos hc]
      refine ⟨_, rfl, ?_, ?_⟩
      · show s2.x = s0.x
        rw [h4, e1]; rfl
      · show (s2.log.filter _).length = 0
        rw [h3, e1]
        rfl
  obtain ⟨s, h1, h2, h3⟩ := key
  refine ⟨s, h1, h2, h3, fun solved hlen => ?_⟩
  rw [h3] at hlen
  rw [List.length_eq_zero_iff.1 hlen]
  rfl

end run

/-! ### Witnesses -/

section witness

/-- terminal cost `x²/2`, no control, no next state -/
def wT : Knot ℚ 0 1 0 0 0 := { Knot.zero ℚ 0 1 0 0 0 with Q := 1 }

/-- three scalar stages `x' = x + u` and the terminal knot, `x0 = 1` -/
def w3 : Problem ℚ 0 1 1 := ⟨1, -1, .cons w0 (.cons w0 (.cons w0 (.last wT)))⟩

/-- its two legs on two threads -/
def w3L : Legs ℚ 0 1 := .cons (.cons w0 (.one w0)) (.last (.cons w0 (.last wT)))

theorem w3_legs : legsOf w3.stages 2 = .ok w3L := by
  have h : legLengths w3.stages.horizon 2 = [2] := by
    show legLengths 3 2 = [2]
    decide
  unfold legsOf
  rw [h]
  rfl

theorem w3_symm : w3.stages.Symm :=
  ⟨⟨one_isSymm, one_isSymm⟩, ⟨one_isSymm, one_isSymm⟩, ⟨one_isSymm, one_isSymm⟩, one_isSymm,
    transpose_zero⟩

theorem vec1_ne {x : Vec ℚ 1} (hx : x ≠ 0) : x 0 ≠ 0 := fun h =>
  hx (funext fun i => by rw [Subsingleton.elim i 0, h]; rfl)

theorem w3_convex : w3.stages.Convex := by
  have h0 := (wP_convex (c := 1) zero_le_one).1
  refine ⟨h0, h0, h0, fun x u => ?_⟩
  simp [wT, Knot.zero, dotProduct]
  nlinarith [mul_self_nonneg (x 0)]

theorem w3_strict : w3.stages.StrictPos := by
  have h0 := (wP_strict (c := 1) one_pos).1
  refine ⟨h0, h0, h0, fun x u hx => ?_⟩
  have := mul_self_pos.2 (vec1_ne hx)
  simp [wT, Knot.zero, dotProduct]
  nlinarith

theorem w3_rpos : w3.stages.RPos := by
  have h0 := (wP_rpos 1).1
  exact ⟨h0, h0, h0, fun u hu => absurd (Subsingleton.elim u 0) hu⟩

theorem w3_plain : PlainTerminal w3.stages := ⟨rfl, rfl⟩

/-- the problem from the second stage on: a solution with a control that is not zero -/
theorem w3_tail_solution : ∃ p n lam t,
    TailKKT (1 : ℚ) 0 (.cons w0 (.cons w0 (.last wT)) : Chain ℚ 0 1) p (.cons n lam t) ∧ n.x = 1 ∧ n.u ≠ 0 := by
  refine ⟨1 + (fun _ => 3/5), ⟨1, fun _ => -3/5, 0⟩, fun _ => 3/5,
    .cons ⟨fun _ => 2/5, fun _ => -1/5, 0⟩ (fun _ => 1/5) (.last ⟨fun _ => 1/5, 0, 0⟩), ?_, rfl, ?_⟩
  · simp only [TailKKT, gradX, gradU, gradV, w0, wT, Knot.zero, Traj.x0]
    refine ⟨?_, ?_, ?_, ?_, ?_, ?_, ?_, ?_, ?_, ?_, ?_⟩ <;>
      first
      | exact Subsingleton.elim _ _
      | (funext i; simp; try norm_num)
  · intro h
    have := congrFun h 0
    norm_num at this

theorem w3_parallel {ldl : LDL ℚ} (hl : ldl.Exact) (hcm : ldl.Complete) (steps : ℕ) (thr : ℚ) (err0) :
    ∃ s, parallelBackwardLegs ldl w3.G0 w3.g0 w3L 1 steps (BV.normLe thr) err0 = .ok s := by
  obtain ⟨L, hL, h⟩ := C08_parallel_succeeds_on_strictly_convex hl hcm w3 w3_symm
    ⟨rfl, rfl, rfl, trivial⟩ w3_convex w3_strict w3_rpos
    (fun z hz => by simpa [w3] using hz) 1 one_pos 2 le_rfl (by decide)
  rw [w3_legs] at hL
  injection hL with hL
  subst hL
  exact h steps thr err0

/-- **C68 (negation for the parallel solver)** Three scalar stages `x' = x + u` with cost
`(x² + u²)/2`, two threads, any number of refinement steps: the solver succeeds, and the policy stored for
the second stage (last one of the first leg) is `u = 0`, although the solution from `x = 1` has a non-zero
control. -/
theorem C68_parallel_gains_wrong {ldl : LDL ℚ} (hl : ldl.Exact) (hcm : ldl.Complete) (steps : ℕ) (thr : ℚ)
    (err0) (checks : Bool) :
    legsOf w3.stages 2 = .ok w3L ∧
    ∃ s, parallelBackwardLegs ldl w3.G0 w3.g0 w3L 1 steps (BV.normLe thr) err0 = .ok s ∧
    ∃ (g0 : Gain ℚ) (e : Matrix (Fin 2) (Fin 2) ℚ) (rest : List (Gain ℚ)),
      store checks (initGains w3.stages) (shownLegs (collapse s.facs)) = some (g0 :: ⟨2, 1, e⟩ :: rest) ∧
      (∀ j, e 0 j = 0) ∧
      ∃ p n lam t, TailKKT (1 : ℚ) 0 (.cons w0 (.cons w0 (.last wT)) : Chain ℚ 0 1) p (.cons n lam t) ∧
        n.u ≠ (fun _ => e 0 0) + (fun _ j => e 0 j.succ : Mat ℚ 1 1) *ᵥ n.x := by
  refine ⟨w3_legs, ?_⟩
  obtain ⟨s, hs⟩ := w3_parallel hl hcm steps thr err0
  obtain ⟨gs', g, full, h1, h2, h3⟩ := C68_parallel_gains_partial hl w3.G0 w3.g0 w3L w3_symm w3_plain 1
    steps _ err0 s hs checks (initGains w3.stages) rfl
  refine ⟨s, hs, ?_⟩
  obtain ⟨a, b, e1, ⟨ea, ga, e2, -, -, eb, e3, -, h4⟩, -⟩ := h3
  subst e2 e3
  simp only [List.cons_append, List.nil_append, List.cons.injEq] at e1
  obtain ⟨-, e1⟩ := e1
  subst e1
  cases gs' with
  | nil => cases h2
  | cons g0 gs' =>
    simp only [List.tail_cons] at h2
    subst h2
    have hx : ∀ x : Vec ℚ 1, eb 0 0 + eb 0 1 * x 0 = 0 := by
      intro x
      have hk : TailKKT (1 : ℚ) 0 (.last w0.configure) (w0.Q *ᵥ x) (.last ⟨x, 0, 0⟩) := by
        refine ⟨?_, ?_, Subsingleton.elim _ _⟩
        · simp [gradX, w0, Knot.configure, Knot.addParameterization, Knot.zero]
        · simp [gradU, w0, Knot.configure, Knot.addParameterization, Knot.zero]
      have := congrFun (h4 _ _ hk) (Fin.castAdd 0 0)
      rw [Fin.append_left] at this
      have h5 : (0 : ℚ) = eb 0 0 + ∑ j : Fin 1, eb 0 j.succ * x j := this
      rw [Fin.sum_univ_one] at h5
      exact h5.symm
    have h00 : eb 0 0 = 0 := by simpa using hx 0
    have h01 : eb 0 1 = 0 := by
      have := hx 1
      rw [h00] at this
      simpa using this
    have hz : ∀ j, eb 0 j = 0 := by
      intro j
      fin_cases j
      · exact h00
      · exact h01
    refine ⟨g0, eb, b, h1, hz, ?_⟩
    obtain ⟨p, n, lam, t, hk, -, hu⟩ := w3_tail_solution
    refine ⟨p, n, lam, t, hk, fun hc => hu (hc.trans ?_)⟩
    funext i
    simp [mulVec, dotProduct, hz]

/-- Non-vacuity of `C68_serial_gains` and `C68_dense_gains_size_mismatch`. -/
example {ldl : LDL ℚ} (hl : ldl.Exact) (hcm : ldl.Complete) :
    (∃ s, backward ldl w3 1 = .ok s) ∧ HasState w3.stages := by
  refine ⟨C03_backward_succeeds_on_convex hl hcm w3 1 one_pos w3_symm w3_convex w3_rpos
    (fun x hx h0 => absurd ?_ h0) (fun z hz => ?_), Or.inl one_ne_zero⟩
  · simpa [w3] using hx
  · simpa [w3] using hz

/-- Non-vacuity of `C68_dense_gains_unchecked_partial`: the dense solver succeeds wherever the serial one
does. -/
example {ldl : LDL ℚ} (hl : ldl.Exact) (hcm : ldl.Complete) (h : ∃ s, backward ldl w3 1 = .ok s) :
    ∃ s, Dense.backward ldl w3 1 = .ok s :=
  (Dense.C06_succeeds_iff_serial_succeeds hl hcm w3 1 w3_symm (by decide) rfl).2 h

open Aligator.ProxDDP in
/-- Non-vacuity of `C68_converged_guess_leaves_gains`: a problem whose guess is stationary and feasible. -/
example : ∃ (p : Params) (e : Env Unit Unit Unit) (s0 : St Unit Unit Unit), 0 < p.maxIters ∧
    0 < p.maxAlIters ∧ e.mult (max p.muInit p.muLb) () s0.x = ((), some 0) ∧ 0 ≤ p.targetTol ∧
    e.dualInf s0.x ≤ p.targetDual ∧ ∀ s, run p e 1 () s0 ≠ .stuck s := by
  let p : Params :=
    { targetTol := 1/2, targetDual := 1/2, muInit := 1/2, muLb := 1/10, muFactor := 1/10, primAlpha := 0
      primBeta := 0, dualAlpha := 0, dualBeta := 0, innerTol0 := 0, primTol0 := 0, regMin := 0, regMax := 1
      regInit := 0, regInc := 1, regIncFirst := 1, regDec := 1, dphiThresh := 0, alphaMin := 0
      closeEps := 1, maxIters := 1, maxAlIters := 1 }
  let e : Env Unit Unit Unit :=
    { mult := fun _ _ _ => ((), some 0), dualInf := fun _ => 0, innerCrit := fun _ _ => 1
      nextV := fun _ _ => (), oracle := fun _ => .raises }
  let s0 : St Unit Unit Unit :=
    { x := (), trial := (), prevV := (), ws := (), mu := 0, innerTol := 0, primTol := 0, preg := 0
      pregLast := 0, prim := 0, dual := 0, crit := 0, numIters := 0, alIter := 0, log := [] }
  refine ⟨p, e, s0, Nat.one_pos, Nat.one_pos, rfl, by norm_num [p], by norm_num [e, p], ?_⟩
  intro s h
  simp [run, outer, initRun, innerLoop, innerIter, computeMultipliers, computeCriterion, St.push, tighten,
    updateTolsOnSuccess, updateTolsOnFailure, setAlmPenalty, p, e, s0] at h
  norm_num at h
  cases h

end witness

end Aligator.Gains
