import Verif.Lemmas.ParallelMem
import Verif.Props.RiccatiMem

/-!
# C84: the parallel LQ solver with its memory

A parallel solver keeps the problem (whose knots it has given parameters of its own), the factors of the legs, and the condensed
system with its solution and residual.  A backward pass writes into all of them.  Here: whatever was done with a solver before (new
problem contents in the same memory, passes with any penalty and any refinement settings, failures that the code does not check,
shifts) a backward pass on the current problem gives what a fresh solver gives, and the forward pass after it solves the current
problem.
-/

set_option linter.unusedSectionVars false

namespace Aligator.ParMem

open Matrix Gar GarMem

variable {𝕜 : Type*} [Field 𝕜] {nth nc0 : ℕ}

section Inv

variable [DecidableEq 𝕜]

/-- Whatever was done before, the parametric blocks that a pass does not write are zero and the factors are clean. -/
theorem preach_inv {L : LDLMem 𝕜} {nx : ℕ} {E : LDims nx} {s : PSt 𝕜 nth nc0 E} (h : PReach L nc0 E s) :
    LPZ E s.knots ∧ LClean E s.datas := by
  induction h with
  | new G0 g0 k u => exact ⟨new_lpz E k, lnew_clean E u⟩
  | set s G0 g0 k _ ih => exact ⟨set_lpz E _ k ih.1, ih.2⟩
  | backward s mueq steps small J _ _ ih =>
    have h1 := configure_lpz E s.knots ih.1
    have h2 := legs_clean L mueq E (PKnots.configure E s.knots) s.datas ih.2
    unfold backwardP
    simp only
    split <;> exact ⟨h1, h2⟩

/-- **C84** In a backward pass of a used parallel solver the knots hold the terms of the current problem, and the parameters of
each leg are the costate at its end and nothing else. -/
theorem C84_parallel_knots_current (L : LDLMem 𝕜) {nx : ℕ} {E : LDims nx} (G0 : Mat 𝕜 nc0 nx) (g0 : Vec 𝕜 nc0)
    (k : LKnots 𝕜 nth E) (mueq : 𝕜) (steps : ℕ) (small : BV 𝕜 nc0 (nx :: shape E) → Bool)
    (J : BV 𝕜 nc0 (nx :: shape E) × BV 𝕜 nc0 (nx :: shape E)) (s : PSt 𝕜 nth nc0 E) (hs : PReach L nc0 E s) :
    (backwardP L mueq steps small J (s.set G0 g0 k)).1.knots = legK E k := by
  have h := lconfigure_set E s.knots k (preach_inv hs).1
  unfold backwardP
  simp only
  split <;> exact h

end Inv

variable [LinearOrder 𝕜] [IsStrictOrderedRing 𝕜]

/-- **C84** A backward pass of a used parallel solver is the backward pass of a solver without a past. -/
theorem C84_parallel_backward_refines (L : LDLMem 𝕜) {nx : ℕ} {E : LDims nx} (G0 : Mat 𝕜 nc0 nx) (g0 : Vec 𝕜 nc0)
    (k : LKnots 𝕜 nth E) (hd : (legs E k).dimsOK = true) (mueq : 𝕜) (steps : ℕ) (thr : 𝕜)
    (J : BV 𝕜 nc0 (nx :: shape E) × BV 𝕜 nc0 (nx :: shape E)) (s : PSt 𝕜 nth nc0 E) (hs : PReach L nc0 E s) :
    ∃ err0, match parallelBackwardLegs L.toLDL G0 g0 (legs E k) mueq steps (BV.normLe thr) err0 with
    | .ok q => (backwardP L mueq steps (BV.normLe thr) J (s.set G0 g0 k)).2 = ⟨false, false⟩ ∧
        ∀ t, forwardP k (backwardP L mueq steps (BV.normLe thr) J (s.set G0 g0 k)).1 t = parallelForward q
    | .error _ => (backwardP L mueq steps (BV.normLe thr) J (s.set G0 g0 k)).2 ≠ ⟨false, false⟩ := by
  obtain ⟨hp, hcl⟩ := preach_inv hs
  have hk := lconfigure_set E s.knots k hp
  have hr := legs_run L mueq E k s.datas hcl
  have hsh := shape_eq E k
  set b := (backwardLegsM L mueq E (legK E k) s.datas) with hb
  have hT : HEq (condensedT G0 0 (lfacs E k b.1)) (BT.cons (-(0 : 𝕜) • (1 : Mat 𝕜 nc0 nc0)) G0 G0ᵀ (condTM E b.1)) :=
    bt_cons1_heq hsh _ _ _ _ _ (condT_heq E k b.1)
  have hR : HEq (condensedR g0 (lfacs E k b.1)) (BV.cons (-g0) (condRM E b.1)) := bv_cons_heq hsh _ _ _ (condR_heq E k b.1)
  have hsh' : nx :: (legs E k).shape = nx :: shape E := congrArg _ hsh
  have hP : backwardP L mueq steps (BV.normLe thr) J (s.set G0 g0 k) =
      match (BT.cons (-(0 : 𝕜) • (1 : Mat 𝕜 nc0 nc0)) G0 G0ᵀ (condTM E b.1)).solve L.toLDL (BV.cons (-g0) (condRM E b.1)) with
      | none => (⟨G0, g0, legK E k, b.1, J.1, J.2⟩, ⟨b.2.threw, true⟩)
      | some (F, sol) =>
        let q := refineLoop (BT.cons (-(0 : 𝕜) • (1 : Mat 𝕜 nc0 nc0)) G0 G0ᵀ (condTM E b.1)) F (BV.cons (-g0) (condRM E b.1))
          (BV.normLe thr) steps sol s.err
        (⟨G0, g0, legK E k, b.1, q.1, q.2⟩, b.2) := by
    unfold backwardP PSt.set
    simp only [hk]
    rfl
  rw [hP]
  have hso := solve_heq L.toLDL hsh' _ _ hT _ _ hR
  cases hS : (BT.cons (-(0 : 𝕜) • (1 : Mat 𝕜 nc0 nc0)) G0 G0ᵀ (condTM E b.1)).solve L.toLDL (BV.cons (-g0) (condRM E b.1)) with
  | none =>
    rw [hS] at hso
    refine ⟨BV.zero _ _, ?_⟩
    unfold parallelBackwardLegs
    rw [hd]
    simp only [Bool.true_eq_false, if_false]
    cases hL : backwardLegs L.toLDL mueq (legs E k) with
    | error e => simp
    | ok FL =>
      rw [hL] at hr
      obtain ⟨h1, rfl⟩ := hr
      have : (condensedT G0 0 (lfacs E k b.1)).solve L.toLDL (condensedR g0 (lfacs E k b.1)) = none := by simpa using hso
      simp only [this]
      simp
  | some Fs =>
    obtain ⟨F, sol⟩ := Fs
    obtain ⟨F', sol', err', h1, h2⟩ := refine_heq L.toLDL hsh' _ _ hT _ _ hR thr steps s.err F sol hS
    refine ⟨err', ?_⟩
    unfold parallelBackwardLegs
    rw [hd]
    simp only [Bool.true_eq_false, if_false]
    cases hL : backwardLegs L.toLDL mueq (legs E k) with
    | error e => rw [hL] at hr; exact hr
    | ok FL =>
      rw [hL] at hr
      obtain ⟨h3, rfl⟩ := hr
      simp only [h1]
      refine ⟨h3, fun t => ?_⟩
      unfold parallelForward forwardP
      simp only
      revert h2
      generalize (refineLoop (condensedT G0 0 (lfacs E k b.1)) F' (condensedR g0 (lfacs E k b.1)) (BV.normLe thr) steps sol' err').1 = z'
      generalize (refineLoop (BT.cons (-(0 : 𝕜) • (1 : Mat 𝕜 nc0 nc0)) G0 G0ᵀ (condTM E b.1)) F (BV.cons (-g0) (condRM E b.1))
          (BV.normLe thr) steps sol s.err).1 = z
      intro h2
      rcases z' with _ | ⟨lam', z'⟩
      have h4 := bv_cons_heq hsh lam' _ _ (castZ_heq E k z')
      have h5 := eq_of_heq (h2.symm.trans h4)
      subst h5
      simp only
      rw [forwardLegs_run E k b.1 z' t]

/-- **C84** What a backward pass of a parallel solver computes does not depend on the past of the solver. -/
theorem C84_parallel_history_independent {L : LDLMem 𝕜} (hl : L.toLDL.Exact) {nx : ℕ} {E : LDims nx} (G0 : Mat 𝕜 nc0 nx)
    (g0 : Vec 𝕜 nc0) (k : LKnots 𝕜 nth E) (hd : (legs E k).dimsOK = true) (hsy : (legs E k).join.Symm) (mueq : 𝕜) (steps : ℕ)
    (hst : steps ≠ 1) (thr : 𝕜) (J J' : BV 𝕜 nc0 (nx :: shape E) × BV 𝕜 nc0 (nx :: shape E)) (s s' : PSt 𝕜 nth nc0 E)
    (hs : PReach L nc0 E s) (hs' : PReach L nc0 E s')
    (hok : (backwardP L mueq steps (BV.normLe thr) J (s.set G0 g0 k)).2 = ⟨false, false⟩) :
    (backwardP L mueq steps (BV.normLe thr) J' (s'.set G0 g0 k)).2 = ⟨false, false⟩ ∧
    ∀ t t', forwardP k (backwardP L mueq steps (BV.normLe thr) J (s.set G0 g0 k)).1 t =
      forwardP k (backwardP L mueq steps (BV.normLe thr) J' (s'.set G0 g0 k)).1 t' := by
  obtain ⟨e1, h1⟩ := C84_parallel_backward_refines L G0 g0 k hd mueq steps thr J s hs
  obtain ⟨e2, h2⟩ := C84_parallel_backward_refines L G0 g0 k hd mueq steps thr J' s' hs'
  cases hq : parallelBackwardLegs L.toLDL G0 g0 (legs E k) mueq steps (BV.normLe thr) e1 with
  | error e => rw [hq] at h1; exact absurd hok h1
  | ok q =>
    rw [hq] at h1
    obtain ⟨-, hf, F, sol, hso, hF, hden, hrf⟩ := parallelBackward_inv hl G0 g0 (legs E k) hsy mueq steps thr e1 q hq
    have hq2 : ∃ q2, parallelBackwardLegs L.toLDL G0 g0 (legs E k) mueq steps (BV.normLe thr) e2 = .ok q2 := by
      unfold parallelBackwardLegs
      rw [hd, hf]
      simp only [Bool.true_eq_false, if_false, hso]
      exact ⟨_, rfl⟩
    obtain ⟨q2, hq2⟩ := hq2
    obtain ⟨-, hf2, F2, sol2, hso2, hF2, hden2, hrf2⟩ := parallelBackward_inv hl G0 g0 (legs E k) hsy mueq steps thr e2 q2 hq2
    rw [hq2] at h2
    have ef : q2.facs = q.facs := by rw [hf] at hf2; exact (Except.ok.inj hf2).symm
    have hsm : ∀ v : BV 𝕜 nc0 (nx :: (legs E k).shape), (v.smul (-1)).normLe thr = v.normLe thr := normLe_neg thr
    have es : q2.sol = q.sol := by
      have a := (congrArg Prod.fst hrf).trans (refineLoop_any hF _ hsm steps hst sol e1 hden)
      have b := (congrArg Prod.fst hrf2).trans (refineLoop_any hF2 _ hsm steps hst sol2 e2 hden2)
      rw [ef] at hso2
      rw [hso] at hso2
      have := congrArg Prod.snd (Option.some.inj hso2)
      simp only at a b this
      rw [a, b, this]
    refine ⟨h2.1, fun t t' => ?_⟩
    rw [h1.2 t, h2.2 t']
    unfold parallelForward
    rw [ef, es]

/-- **C84** A parallel solver with any past solves the current problem: after a pass without failures the forward pass writes a
solution of its optimality conditions, whatever was in the caller's vectors. -/
theorem C84_parallel_reused_solver_solves {L : LDLMem 𝕜} (hl : L.toLDL.Exact) {nx : ℕ} {E : LDims nx} (G0 : Mat 𝕜 nc0 nx)
    (g0 : Vec 𝕜 nc0) (k : LKnots 𝕜 nth E) (hd : (legs E k).dimsOK = true) (hsy : (legs E k).join.Symm) (mueq : 𝕜) (steps : ℕ)
    (hst : steps ≠ 1) (thr : 𝕜) (J : BV 𝕜 nc0 (nx :: shape E) × BV 𝕜 nc0 (nx :: shape E)) (s : PSt 𝕜 nth nc0 E)
    (hs : PReach L nc0 E s) (hok : (backwardP L mueq steps (BV.normLe thr) J (s.set G0 g0 k)).2 = ⟨false, false⟩)
    (t : LTraj E (legK E k)) :
    KKT ⟨G0, g0, (legs E k).join⟩ mueq 0 (forwardP k (backwardP L mueq steps (BV.normLe thr) J (s.set G0 g0 k)).1 t).1
      (forwardP k (backwardP L mueq steps (BV.normLe thr) J (s.set G0 g0 k)).1 t).2 := by
  obtain ⟨e1, h1⟩ := C84_parallel_backward_refines L G0 g0 k hd mueq steps thr J s hs
  cases hq : parallelBackwardLegs L.toLDL G0 g0 (legs E k) mueq steps (BV.normLe thr) e1 with
  | error e => rw [hq] at h1; exact absurd hok h1
  | ok q =>
    rw [hq] at h1
    rw [h1.2 t]
    exact C08_parallel_solves_whole_KKT hl G0 g0 (legs E k) hsy mueq steps hst thr e1 q hq

/-! ## Non-vacuity -/

/-- Two legs of one knot each. -/
def wE : LDims 1 := .cons (.last (nx := 1) 1 0 1) (.last (.last (nx := 1) 0 0 1))

/-- The problem of `Props/Parallel` in them. -/
def wK (c : ℚ) : LKnots ℚ 0 wE := (w0, wN c)

theorem wK_legs (c : ℚ) : legs wE (wK c) = wL c := rfl

/-- Non-vacuity of C84 for the parallel solver: a solver made for one problem, used for a second, given the terms of a
third, and used again for the second. -/
example (u : LBufs ℚ 0 wE) : ∃ s : PSt ℚ 0 1 wE, PReach exL 1 wE s ∧
    (∀ J, (backwardP exL 1 2 (BV.normLe (1/10)) J (s.set 1 (-1) (wK 1))).2 = ⟨false, false⟩) ∧
    (legs wE (wK 1)).dimsOK = true ∧ (legs wE (wK 1)).join.Symm := by
  have r0 : PReach exL 1 wE (PSt.new 1 (-3) (wK 4) u) := .new _ _ _ _
  have good : ∀ (s : PSt ℚ 0 1 wE), PReach exL 1 wE s → ∀ J,
      (backwardP exL 1 2 (BV.normLe (1/10)) J (s.set 1 (-1) (wK 1))).2 = ⟨false, false⟩ := by
    intro s hs J
    obtain ⟨e, h⟩ := C84_parallel_backward_refines exL 1 (-1) (wK 1) rfl 1 2 (1/10) J s hs
    obtain ⟨L, hL, hg⟩ := C08_parallel_succeeds_on_strictly_convex (invLDL_exact ℚ) (invLDL_complete ℚ) (wP 1) (wP_symm 1)
      ⟨rfl, trivial⟩ (wP_convex zero_le_one) (wP_strict one_pos) (wP_rpos 1)
      (fun z hz => by simpa [wP] using hz) 1 one_pos 2 le_rfl le_rfl
    rw [wL_legs] at hL
    injection hL with hL
    subst hL
    obtain ⟨q, hq⟩ := hg 2 (1/10) e
    change parallelBackwardLegs exL.toLDL 1 (-1) (legs wE (wK 1)) 1 2 (BV.normLe (1/10)) e = .ok q at hq
    rw [hq] at h
    exact h.1
  have r1 := PReach.set _ 1 (-1) (wK 1) r0
  let J : BV ℚ 1 (1 :: shape wE) × BV ℚ 1 (1 :: shape wE) := (zeroBV _ _, zeroBV _ _)
  have r2 := PReach.backward _ 1 2 (BV.normLe (1/10)) J r1 (by rw [good _ r0 J])
  have r3 := PReach.set _ 1 (-1) (wK 0) r2
  exact ⟨_, r3, good _ r3, rfl, wP_symm 1⟩

end Aligator.ParMem
