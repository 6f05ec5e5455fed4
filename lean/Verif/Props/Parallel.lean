import Verif.Lemmas.Parallel
import Verif.Props.GetWork
import Verif.Props.BlockTridiag

/-!
# Properties of the parallel LQ solver (C08, C12, C13)

Specification: the KKT conditions of the *undivided* problem (`Verif/Spec/Lqr.lean`).
-/

set_option linter.unusedSectionVars false

namespace Aligator.Gar

open Matrix

section split
variable {𝕜 : Type*} [Field 𝕜] [DecidableEq 𝕜] {nth : ℕ}

theorem legLengths_sum (horz nthr : ℕ) : (legLengths horz nthr).sum = (getWork horz (nthr - 1) nthr).beg := by
  unfold legLengths
  generalize nthr - 1 = k
  induction k with
  | zero => simp [getWork]
  | succ k ih =>
    rw [List.range_succ, List.map_append, List.sum_append, ih]
    simp only [List.map_cons, List.map_nil, List.sum_cons, List.sum_nil, add_zero]
    have h1 : (getWork horz k nthr).beg ≤ (getWork horz k nthr).stop :=
      Nat.div_le_div_right (Nat.mul_le_mul_right _ (Nat.le_succ k))
    have h2 : (getWork horz k nthr).stop = (getWork horz (k + 1) nthr).beg := rfl
    omega

/-- **C08** The division into legs is a division of the whole problem: it is defined exactly for
`2 ≤ numThreads ≤ horizon + 1`, and the legs, put one after the other, are the problem's knots. -/
theorem C08_legs_are_the_problem {nx : ℕ} (ch : Chain 𝕜 nth nx) (nthr : ℕ) :
    (∀ L, legsOf ch nthr = .ok L → L.join = ch) ∧
    ((∃ L, legsOf ch nthr = .ok L) ↔ 2 ≤ nthr ∧ nthr ≤ ch.horizon + 1) := by
  constructor
  · intro L h
    unfold legsOf at h
    split at h
    · cases h
    · split at h
      · cases h
      · rename_i L' e
        injection h with h
        subst h
        exact splitLegs_join ch e
  · by_cases h2 : nthr < 2
    · simp only [legsOf, if_pos h2]
      constructor
      · rintro ⟨L, h⟩; cases h
      · intro h; omega
    · have h3 := splitLegs_isSome (ls := legLengths ch.horizon nthr) ch
      rw [legLengths_sum] at h3
      have h4 := C09_nonempty_iff ch.horizon nthr (by omega)
      have key : ((∀ n ∈ legLengths ch.horizon nthr, 0 < n) ∧
          (getWork ch.horizon (nthr - 1) nthr).beg ≤ ch.horizon) ↔ nthr ≤ ch.horizon + 1 := by
        rw [← h4]
        have hstop := (C09_ranges_chain ch.horizon nthr (by omega)).2.1
        constructor
        · rintro ⟨a, b⟩ i hi
          by_cases hl : i = nthr - 1
          · subst hl; omega
          · have := a ((getWork ch.horizon i nthr).stop - (getWork ch.horizon i nthr).beg) (by
              unfold legLengths
              rw [List.mem_map]
              exact ⟨i, List.mem_range.2 (by omega), rfl⟩)
            omega
        · intro a
          refine ⟨fun n hn => ?_, ?_⟩
          · unfold legLengths at hn
            rw [List.mem_map] at hn
            obtain ⟨i, hi, rfl⟩ := hn
            have := a i (by have := List.mem_range.1 hi; omega)
            omega
          · have := a (nthr - 1) (by omega)
            omega
      rw [key] at h3
      simp only [legsOf, if_neg h2]
      rcases h5 : ch.splitLegs (legLengths ch.horizon nthr) with _ | L
      · rw [h5] at h3
        simp at h3 ⊢
        intro _; omega
      · rw [h5] at h3
        simp at h3 ⊢
        exact ⟨by omega, h3⟩

end split

section field
variable {𝕜 : Type*} [Field 𝕜] [LinearOrder 𝕜] [IsStrictOrderedRing 𝕜] {nth : ℕ}

theorem normLe_neg (thr : 𝕜) {n : ℕ} {ns : List ℕ} (v : BV 𝕜 n ns) :
    (v.smul (-1)).normLe thr = v.normLe thr := by
  induction v with
  | last v => simp [BV.smul, BV.normLe]
  | cons v tl ih => simp [BV.smul, BV.normLe, ih]

theorem parallelBackward_inv {ldl : LDL 𝕜} (hl : ldl.Exact) {nc0 nx : ℕ} (G0 : Mat 𝕜 nc0 nx)
    (g0 : Vec 𝕜 nc0) (L : Legs 𝕜 nth nx) (hs : L.join.Symm) (mueq : 𝕜) (steps : ℕ) (thr : 𝕜)
    (err0 : BV 𝕜 nc0 (nx :: L.shape)) (s : PSolver (nc0 := nc0) L)
    (hb : parallelBackwardLegs ldl G0 g0 L mueq steps (BV.normLe thr) err0 = .ok s) :
    LegsOK mueq s.facs ∧ backwardLegs ldl mueq L = .ok s.facs ∧
    ∃ F sol, (condensedT G0 0 s.facs).solve ldl (condensedR g0 s.facs) = some (F, sol) ∧
      FacOK (condensedT G0 0 s.facs) F ∧
      (condensedT G0 0 s.facs).dense *ᵥ sol.flat = (condensedR g0 s.facs).flat ∧
      (s.sol, s.err) = refineLoop (condensedT G0 0 s.facs) F (condensedR g0 s.facs)
        (BV.normLe thr) steps sol err0 := by
  unfold parallelBackwardLegs at hb
  split at hb
  · cases hb
  · split at hb
    · cases hb
    · rename_i FL hFL
      have hok := backwardLegs_ok hl L hs FL hFL
      have hsy := condensedT_symm G0 hs FL hok
      dsimp only at hb
      split at hb
      · cases hb
      · rename_i F sol hsol
        injection hb with hb
        subst hb
        refine ⟨hok, hFL, F, sol, hsol, ?_, ?_, rfl⟩
        · unfold BT.solve at hsol
          split at hsol
          · cases hsol
          · rename_i F' r' hE
            simp only [Option.some.injEq, Prod.mk.injEq] at hsol
            obtain ⟨rfl, -⟩ := hsol
            exact (eliminate_spec hl _ hsy _ _ _ hE).1
        · exact (C11_solve_exact hl _ hsy _ _ _ hsol).1

/-- **C12 (partial)** Whatever the threshold and whatever a previous call left in the error buffer, the
refinement loop returns the solution of the condensed system, provided `maxRefinementSteps ≠ 1`.
Missing: `maxRefinementSteps = 1`, where the claim is false (`C12_single_step_destroys_solution`). -/
theorem C12_refinement_keeps_solution_partial {ldl : LDL 𝕜} (hl : ldl.Exact) {nc0 nx : ℕ}
    (G0 : Mat 𝕜 nc0 nx) (g0 : Vec 𝕜 nc0) (L : Legs 𝕜 nth nx) (hs : L.join.Symm) (mueq : 𝕜) (steps : ℕ)
    (hst : steps ≠ 1) (thr : 𝕜) (err0 : BV 𝕜 nc0 (nx :: L.shape)) (s : PSolver (nc0 := nc0) L)
    (hb : parallelBackwardLegs ldl G0 g0 L mueq steps (BV.normLe thr) err0 = .ok s) :
    (condensedT G0 0 s.facs).dense *ᵥ s.sol.flat = (condensedR g0 s.facs).flat := by
  obtain ⟨-, -, F, sol, -, hF, hsol, hr⟩ :=
    parallelBackward_inv hl G0 g0 L hs mueq steps thr err0 s hb
  have := refineLoop_any hF (BV.normLe thr) (normLe_neg thr) steps hst sol err0 hsol
  rw [← hr] at this
  have h : s.sol = sol := this
  rw [h, hsol]

/-- **C12 (negation)** With `maxRefinementSteps = 1` the first call of `backward` on a new solver
(`condensedErr = 0`) replaces the solution of the condensed system by zero, unless the right-hand side is
already below the threshold. -/
theorem C12_single_step_destroys_solution {ldl : LDL 𝕜} (hl : ldl.Exact) {nc0 nx : ℕ}
    (G0 : Mat 𝕜 nc0 nx) (g0 : Vec 𝕜 nc0) (L : Legs 𝕜 nth nx) (hs : L.join.Symm) (mueq thr : 𝕜)
    (hthr : 0 ≤ thr) (s : PSolver (nc0 := nc0) L)
    (hb : parallelBackwardLegs ldl G0 g0 L mueq 1 (BV.normLe thr) (BV.zero _ _) = .ok s)
    (hbig : (condensedR g0 s.facs).normLe thr = false) :
    s.sol = BV.zero _ _ ∧
    (condensedT G0 0 s.facs).dense *ᵥ s.sol.flat ≠ (condensedR g0 s.facs).flat := by
  obtain ⟨-, -, F, sol, -, hF, hsol, hr⟩ :=
    parallelBackward_inv hl G0 g0 L hs mueq 1 thr _ s hb
  have e0 : ((condensedT G0 0 s.facs).matMul sol (BV.zero _ _) (-1)).smul (-1) =
      (condensedR g0 s.facs).smul (-1) := by
    apply flat_injective
    rw [residual_flat, hsol, BV.zero_flat, smul_flat]
    module
  have h1 := refineLoop_one (rhs := condensedR g0 s.facs) hF (BV.normLe thr) sol (BV.zero _ _)
    (by rw [e0, normLe_neg, hbig])
  rw [← hr] at h1
  have h2 : (condensedT G0 0 s.facs).dense *ᵥ s.sol.flat = 0 := by
    rw [← BV.zero_flat]; exact h1
  have h3 : s.sol.flat = 0 := dense_inj hF (h2.trans (mulVec_zero _).symm)
  refine ⟨flat_injective (h3.trans (BV.zero_flat _ _).symm), ?_⟩
  rw [h2]
  intro h4
  have h5 : condensedR g0 s.facs = BV.zero _ _ := flat_injective (h4.symm.trans (BV.zero_flat _ _).symm)
  rw [h5] at hbig
  have : ∀ (n : ℕ) (ns : List ℕ), (BV.zero n ns : BV 𝕜 n ns).normLe thr = true := by
    intro n ns
    induction ns generalizing n with
    | nil => simp [BV.zero, BV.normLe, hthr]
    | cons m ms ih => simp [BV.zero, BV.normLe, hthr, ih]
  rw [this] at hbig
  cases hbig

/-- **C08** For any division into legs, any dimensions, any `mueq`, any refinement threshold and any
number of refinement steps other than one: when the backward pass goes through, the trajectory assembled
by the parallel forward pass is a KKT point of the undivided problem. -/
theorem C08_parallel_solves_whole_KKT {ldl : LDL 𝕜} (hl : ldl.Exact) {nc0 nx : ℕ}
    (G0 : Mat 𝕜 nc0 nx) (g0 : Vec 𝕜 nc0) (L : Legs 𝕜 nth nx) (hs : L.join.Symm) (mueq : 𝕜) (steps : ℕ)
    (hst : steps ≠ 1) (thr : 𝕜) (err0 : BV 𝕜 nc0 (nx :: L.shape)) (s : PSolver (nc0 := nc0) L)
    (hb : parallelBackwardLegs ldl G0 g0 L mueq steps (BV.normLe thr) err0 = .ok s) :
    KKT ⟨G0, g0, L.join⟩ mueq 0 (parallelForward s).1 (parallelForward s).2 := by
  have h1 := C12_refinement_keeps_solution_partial hl G0 g0 L hs mueq steps hst thr err0 s hb
  have hok := (parallelBackward_inv hl G0 g0 L hs mueq steps thr err0 s hb).1
  rw [← mulFrom_zero_flat] at h1
  have h2 := flat_injective h1
  unfold parallelForward
  rcases hz : s.sol with _ | ⟨lam0, z⟩
  rw [hz] at h2
  exact condensed_KKT G0 g0 hs s.facs hok lam0 z h2

/-- **C08** The parallel solver returns exactly the serial solver's answer, for every number of threads:
with `legs` from `get_work`, whenever both succeed. -/
theorem C08_parallel_equals_serial {ldl : LDL 𝕜} (hl : ldl.Exact) {nc0 nx : ℕ}
    (P : Problem 𝕜 nth nc0 nx) (hs : P.stages.Symm) (mueq : 𝕜) (nthr : ℕ) (L : Legs 𝕜 nth nx)
    (hL : legsOf P.stages nthr = .ok L) (steps : ℕ) (hst : steps ≠ 1) (thr : 𝕜)
    (err0 : BV 𝕜 nc0 (nx :: L.shape)) (s : PSolver (nc0 := nc0) L)
    (hb : parallelBackwardLegs ldl P.G0 P.g0 L mueq steps (BV.normLe thr) err0 = .ok s)
    (ss : Solver P) (hss : backward ldl P mueq = .ok ss) :
    ∃ e : L.join = P.stages,
      (parallelForward s).1 = (forward ss 0).1 ∧ e ▸ (parallelForward s).2 = (forward ss 0).2 := by
  have e := (C08_legs_are_the_problem P.stages nthr).1 L hL
  have hs' : L.join.Symm := by rw [e]; exact hs
  have hk := C08_parallel_solves_whole_KKT hl P.G0 P.g0 L hs' mueq steps hst thr err0 s hb
  refine ⟨e, ?_⟩
  revert hk
  generalize (parallelForward s).2 = t
  generalize (parallelForward s).1 = l0
  clear hb hL
  obtain ⟨G0, g0, st⟩ := P
  change L.join = st at e
  subst e
  intro hk
  exact C02_KKT_solution_unique hl ⟨G0, g0, L.join⟩ mueq hs' ss hss 0 (gvZero_zero _) l0 t hk

/-- Consecutive knots have equal state dimensions. -/
def Chain.Square : {nx : ℕ} → Chain 𝕜 nth nx → Prop
  | _, .last _ => True
  | nx, .cons (nx2 := nx2) _ tl => nx = nx2 ∧ tl.Square

theorem Seg.square_dims {nx m : ℕ} (s : Seg 𝕜 nth nx m) (ch : Chain 𝕜 nth m)
    (h : (s.append ch).Square) : nx = m ∧ s.lastNx = m ∧ ch.Square := by
  induction s with
  | one k => exact ⟨h.1, h.1, h.2⟩
  | cons k s ih =>
    obtain ⟨a, b, c⟩ := ih ch h.2
    exact ⟨h.1.trans a, b, c⟩

theorem dimsOK_of_square {nx : ℕ} (L : Legs 𝕜 nth nx) (h : L.join.Square) : L.dimsOK = true := by
  induction L with
  | last ch => rfl
  | cons s L ih =>
    obtain ⟨a, b, c⟩ := s.square_dims _ h
    simp only [Legs.dimsOK, Bool.and_eq_true, decide_eq_true_eq]
    exact ⟨⟨a, b⟩, ih c⟩

/-- **C08** On strictly convex problems with equal state dimensions and a full-rank initial condition
the parallel solver succeeds, for every number of threads from 2 to `horizon + 1`; its answer is the
serial one. -/
theorem C08_parallel_succeeds_on_strictly_convex {ldl : LDL 𝕜} (hl : ldl.Exact) (hcm : ldl.Complete)
    {nc0 nx : ℕ} (P : Problem 𝕜 nth nc0 nx) (hs : P.stages.Symm) (hsq : P.stages.Square)
    (hc : P.stages.Convex) (hp : P.stages.StrictPos) (hR : P.stages.RPos)
    (hG : ∀ z, P.G0ᵀ *ᵥ z = 0 → z = 0) (mueq : 𝕜) (hmu : 0 < mueq)
    (nthr : ℕ) (h2 : 2 ≤ nthr) (hN : nthr ≤ P.stages.horizon + 1) :
    ∃ L, legsOf P.stages nthr = .ok L ∧ ∀ steps thr err0, ∃ s,
      parallelBackwardLegs ldl P.G0 P.g0 L mueq steps (BV.normLe thr) err0 = .ok s := by
  obtain ⟨L, hL⟩ := (C08_legs_are_the_problem P.stages nthr).2.2 ⟨h2, hN⟩
  refine ⟨L, hL, fun steps thr err0 => ?_⟩
  have e := (C08_legs_are_the_problem P.stages nthr).1 L hL
  rw [← e] at hs hsq hc hp hR
  obtain ⟨FL, hFL⟩ := backwardLegs_success hl hcm hmu L hs hc hR
  have hok := backwardLegs_ok hl L hs FL hFL
  have ht := condensedT_trailing hmu P.G0 hs hc hp hG FL hok
  have hsol := (C11_solve_succeeds_iff hl hcm _ (condensedT_symm P.G0 hs FL hok)
    (condensedR P.g0 FL)).2 ht
  obtain ⟨⟨F, sol⟩, hsol⟩ := Option.isSome_iff_exists.1 hsol
  unfold parallelBackwardLegs
  rw [dimsOK_of_square L hsq, hFL]
  simp only [Bool.true_eq_false, if_false, hsol]
  exact ⟨_, rfl⟩

/-! ### Feedback gain of the first stage -/

/-- First control of a trajectory. -/
def Traj.u0 : {nx : ℕ} → {ch : Chain 𝕜 nth nx} → Traj ch → Vec 𝕜 ch.nu0
  | _, _, .last n => n.u
  | _, _, .cons n _ _ => n.u

theorem Seg.append_nu0 {nx m : ℕ} (s : Seg 𝕜 nth nx m) (ch : Chain 𝕜 nth m) :
    (s.append ch).nu0 = s.leg.nu0 := by
  cases s <;> rfl

theorem glue_u0 {nx m : ℕ} (s : Seg 𝕜 nth nx m) (t' : Traj s.leg) (lam : Vec 𝕜 m)
    {ch : Chain 𝕜 nth m} (t : Traj ch) (i : Fin (s.append ch).nu0) :
    (glue s t' lam t).u0 i = t'.u0 (Fin.cast (s.append_nu0 ch) i) := by
  cases s with
  | one k =>
    change Traj (.last k.configure) at t'
    cases t' with | last n => rfl
  | cons k s =>
    change Traj (.cons (k.addParameterization m) s.leg) at t'
    cases t' with | cons n l t'' => rfl

theorem forwardImpl_u0 {nx : ℕ} {ch : Chain 𝕜 nth nx} (F : Facs ch) (θ : Vec 𝕜 nth) (x : Vec 𝕜 nx) :
    (forwardImpl θ F x).u0 = F.kff0 + F.K0 *ᵥ x + F.Kth0 *ᵥ θ := by
  cases F <;> rfl

/-- **C13, what the operation should compute**: collapsing with the transposed `U` factor of the
condensed factorisation (`upFacs[1]`) gives the serial solver's first feedback gain, for every problem
and division into legs. -/
theorem C13_collapse_with_U_factor_is_serial_gain_partial {ldl : LDL 𝕜} (hl : ldl.Exact) {nc0 nx m : ℕ}
    (G0 : Mat 𝕜 nc0 nx) (s : Seg 𝕜 nth nx m) (L : Legs 𝕜 nth m)
    (hs : (Legs.cons s L).join.Symm) (mueq : 𝕜) (F : Facs s.leg) (FL : LegFacs L)
    (hFL : backwardLegs ldl mueq (.cons s L) = .ok (.cons F FL)) (r)
    (Fc : BFac 𝕜 nc0 (nx :: (Legs.cons s L).shape)) (sol)
    (hc : (condensedT G0 0 (.cons F FL)).solve ldl r = some (Fc, sol))
    (Fs : Facs (Legs.cons s L).join) (hFs : backwardImpl ldl mueq (Legs.cons s L).join = .ok Fs) :
    Fs.K0 = castMat (s.append_nu0 L.join).symm rfl
      (collapseFeedback F (BFac.up1 (m := m) (ms := m :: L.shape) Fc)) := by
  have hok := backwardLegs_ok hl _ hs _ hFL
  have hsy := condensedT_symm G0 hs _ hok
  have hFc : FacOK (condensedT G0 0 (.cons F FL)) Fc := by
    unfold BT.solve at hc
    split at hc
    · cases hc
    · rename_i F' r' hE
      simp only [Option.some.injEq, Prod.mk.injEq] at hc
      obtain ⟨rfl, -⟩ := hc
      exact (eliminate_spec hl _ hsy _ _ _ hE).1
  obtain ⟨hFsok, -⟩ := backwardImpl_ok hl _ hs Fs hFs
  change BFac 𝕜 nc0 (nx :: m :: m :: L.shape) at Fc
  rcases Fc with _ | ⟨D0, X0, B0, U0, Fc1⟩
  rcases Fc1 with _ | ⟨D1, X1, B1, Ut, Ft⟩
  obtain ⟨-, -, -, -, hFc1⟩ := hFc
  obtain ⟨-, hUt, -, -, hFt⟩ := hFc1
  set T2 : BT 𝕜 m (m :: L.shape) :=
    .cons F.vm.Vtt (-(1 : Mat 𝕜 m m)) (-(1 : Mat 𝕜 m m))ᵀ FL.condT with hT2
  set r2 : BV 𝕜 m (m :: L.shape) := .cons (-F.vm.vt) FL.condR with hr2
  -- the first control as a function of the first state
  have key : ∀ x i, (Fs.kff0 + Fs.K0 *ᵥ x) i = (F.kff0 + F.K0 *ᵥ x +
      F.Kth0 *ᵥ ((Ft.back r2).head - Ut *ᵥ x)) (Fin.cast (s.append_nu0 L.join) i) := by
    intro x i
    have e1 := back_cons_subHead T2 Ft hFt (F.vm.Vxtᵀ *ᵥ x) r2
    set z := Ft.sweep ((Ft.back r2).subHead (Ft.X *ᵥ (F.vm.Vxtᵀ *ᵥ x))) with hz
    have hzh : z.head = (Ft.back r2).head - Ut *ᵥ x := by
      rw [hz, sweep_head, BV.subHead_head, hUt, mulVec_mulVec]
    have e2 : (LegFacs.cons F FL).condT.mulFrom (-(F.vm.vx + F.vm.Vxx *ᵥ x + F.vm.Vxt *ᵥ z.head))
        (.cons x z) = (LegFacs.cons F FL).condR := by
      show BV.cons (-(F.vm.vx + F.vm.Vxx *ᵥ x + F.vm.Vxt *ᵥ z.head) + F.vm.Vxx *ᵥ x +
        F.vm.Vxt *ᵥ z.head) (T2.mulFrom (F.vm.Vxtᵀ *ᵥ x) z) = BV.cons (-F.vm.vx) r2
      rw [e1]
      congr 1
      abel
    have e3 := condensed_tailKKT hs _ hok _ _ e2
    have e4 := (tailKKT_unique 0 _ hs (gvZero_zero _) Fs hFsok _ _ e3).2
    have e5 : (forwardLegs (LegFacs.cons F FL) (.cons x z)).x0 = x := forwardLegs_x0 _ _
    rw [e5] at e4
    have e6 := forwardImpl_u0 Fs 0 x
    rw [← e4, mulVec_zero, add_zero] at e6
    rw [← e6]
    cases hzc : z with
    | cons lam zt =>
      have : forwardLegs (LegFacs.cons F FL) (.cons x (.cons lam zt)) =
        glue s (forwardImpl lam F x) lam (forwardLegs FL zt) := rfl
      have e7 := glue_u0 s (forwardImpl lam F x) lam (forwardLegs FL zt) i
      rw [forwardImpl_u0] at e7
      have hlam : (Ft.back r2).head - Ut *ᵥ x = lam := by rw [← hzh, hzc]; rfl
      rw [hlam, ← e7]
      exact congrArg (fun t : Traj (Legs.cons s L).join => t.u0 i) this
  ext i j
  have k1 := key (Pi.single j 1) i
  have k0 := key 0 i
  simp only [mulVec_zero, add_zero, sub_zero, Pi.add_apply, mulVec_sub, mulVec_single_one,
    Pi.sub_apply, Pi.zero_apply] at k0 k1
  have : (F.Kth0 *ᵥ (Ut.col j)) (Fin.cast (s.append_nu0 L.join) i) =
      (F.Kth0 * Ut) (Fin.cast (s.append_nu0 L.join) i) j := by
    simp [Matrix.mul_apply, mulVec, dotProduct]
  rw [this] at k1
  simp only [Matrix.col_apply] at k1
  show Fs.K0 i j = F.K0 (Fin.cast (s.append_nu0 L.join) i) j -
    (F.Kth0 * Ut) (Fin.cast (s.append_nu0 L.join) i) j
  linear_combination k1 - k0

end field

/-! ### Witnesses -/

section witness

/-- scalar stage `x' = x + u`, cost `(x² + u²)/2` -/
def w0 : Knot ℚ 0 1 1 0 1 := { Knot.zero ℚ 0 1 1 0 1 with Q := 1, R := 1, A := 1, B := 1 }

/-- scalar terminal cost `c x²/2` -/
def wN (c : ℚ) : Knot ℚ 0 1 0 0 1 := { Knot.zero ℚ 0 1 0 0 1 with Q := c • 1 }

/-- two-knot scalar problem with `x0 = 1` -/
def wP (c : ℚ) : Problem ℚ 0 1 1 := ⟨1, -1, .cons w0 (.last (wN c))⟩

/-- its two legs -/
def wL (c : ℚ) : Legs ℚ 0 1 := .cons (.one w0) (.last (.last (wN c)))

theorem wL_legs (c : ℚ) : legsOf (wP c).stages 2 = .ok (wL c) := by
  have h : legLengths (wP c).stages.horizon 2 = [1] := by
    show legLengths 1 2 = [1]
    decide
  unfold legsOf
  rw [h]
  rfl

theorem one_isSymm {n : ℕ} : (1 : Mat ℚ n n).IsSymm := transpose_one

theorem wP_symm (c : ℚ) : (wP c).stages.Symm := by
  refine ⟨⟨one_isSymm, one_isSymm⟩, ?_, ?_⟩
  · show (c • (1 : Mat ℚ 1 1))ᵀ = _
    rw [transpose_smul, transpose_one]; rfl
  · exact transpose_zero

theorem wP_convex {c : ℚ} (hc : 0 ≤ c) : (wP c).stages.Convex := by
  refine ⟨fun x u => ?_, fun x u => ?_⟩
  · simp [w0, Knot.zero, dotProduct]
    nlinarith [mul_self_nonneg (x 0), mul_self_nonneg (u 0)]
  · simp [wN, Knot.zero, dotProduct, smul_mulVec]
    nlinarith [mul_self_nonneg (x 0), mul_nonneg hc (mul_self_nonneg (x 0))]

theorem wP_rpos (c : ℚ) : (wP c).stages.RPos := by
  refine ⟨fun u hu => ?_, fun u hu => absurd (Subsingleton.elim u 0) hu⟩
  have : u 0 ≠ 0 := fun h => hu (funext fun i => by rw [Subsingleton.elim i 0, h]; rfl)
  simp [w0, Knot.zero, dotProduct]
  positivity

theorem wP_strict {c : ℚ} (hc : 0 < c) : (wP c).stages.StrictPos := by
  refine ⟨fun x u hx => ?_, fun x u hx => ?_⟩ <;>
    have : x 0 ≠ 0 := fun h => hx (funext fun i => by rw [Subsingleton.elim i 0, h]; rfl)
  · simp [w0, Knot.zero, dotProduct]
    have := mul_self_pos.2 this
    nlinarith [mul_self_nonneg (u 0)]
  · simp [wN, Knot.zero, dotProduct, smul_mulVec]
    have := mul_pos hc (mul_self_pos.2 this)
    nlinarith

theorem wP_serial {ldl : LDL ℚ} (hl : ldl.Exact) (hcm : ldl.Complete) {c : ℚ} (hc : 0 ≤ c) :
    ∃ s, backward ldl (wP c) 1 = .ok s := by
  refine C03_backward_succeeds_on_convex hl hcm (wP c) 1 one_pos (wP_symm c) (wP_convex hc)
    (wP_rpos c) (fun x hx h0 => absurd ?_ h0) (fun z hz => ?_)
  · simpa [wP] using hx
  · simpa [wP] using hz

/-- Non-vacuity of C08: the two-knot problem on two threads. -/
example {ldl : LDL ℚ} (hl : ldl.Exact) (hcm : ldl.Complete) :
    ∃ L, legsOf (wP 1).stages 2 = .ok L ∧ ∀ steps thr err0, ∃ s,
      parallelBackwardLegs ldl (wP 1).G0 (wP 1).g0 L 1 steps (BV.normLe thr) err0 = .ok s :=
  C08_parallel_succeeds_on_strictly_convex hl hcm (wP 1) (wP_symm 1) ⟨rfl, trivial⟩
    (wP_convex zero_le_one) (wP_strict one_pos) (wP_rpos 1)
    (fun z hz => by simpa [wP] using hz) 1 one_pos 2 le_rfl le_rfl

/-- Non-vacuity of C12, both parts: with one refinement step the right-hand side of the two-knot problem is
above the threshold `1/2` (its first block is `-g0 = 1`). -/
example {ldl : LDL ℚ} (hl : ldl.Exact) (hcm : ldl.Complete) :
    ∃ s : PSolver (nc0 := 1) (wL 1),
      parallelBackwardLegs ldl (wP 1).G0 (wP 1).g0 (wL 1) 1 1 (BV.normLe (1/2)) (BV.zero _ _) = .ok s ∧
      (condensedR (wP 1).g0 s.facs).normLe (1/2) = false := by
  obtain ⟨L, hL, h⟩ := C08_parallel_succeeds_on_strictly_convex hl hcm (wP 1) (wP_symm 1)
    ⟨rfl, trivial⟩ (wP_convex zero_le_one) (wP_strict one_pos) (wP_rpos 1)
    (fun z hz => by simpa [wP] using hz) 1 one_pos 2 le_rfl le_rfl
  rw [wL_legs] at hL
  injection hL with hL
  subst hL
  obtain ⟨s, hs⟩ := h 1 (1/2) (BV.zero _ _)
  refine ⟨s, hs, ?_⟩
  simp only [condensedR, BV.normLe, wP]
  rw [Bool.and_eq_false_iff]
  left
  rw [decide_eq_false_iff_not]
  intro hh
  have := hh 0
  norm_num at this

/-- **C08** with the Bunch-Kaufman factorisation of the code: no hypothesis on the solver left. -/
theorem C08_with_BunchKaufman {nth nc0 nx : ℕ} (P : Problem ℝ nth nc0 nx) (hs : P.stages.Symm)
    (hsq : P.stages.Square) (hc : P.stages.Convex) (hp : P.stages.StrictPos) (hR : P.stages.RPos)
    (hG : ∀ z, P.G0ᵀ *ᵥ z = 0 → z = 0) (mueq : ℝ) (hmu : 0 < mueq)
    (nthr : ℕ) (h2 : 2 ≤ nthr) (hN : nthr ≤ P.stages.horizon + 1) (steps : ℕ) (hst : steps ≠ 1)
    (thr : ℝ) :
    ∃ (L : Legs ℝ nth nx) (e : L.join = P.stages), ∀ err0, ∃ s ss,
      parallelBackwardLegs (BK.ldl BK.alphaBK) P.G0 P.g0 L mueq steps (BV.normLe thr) err0 = .ok s ∧
      backward (BK.ldl BK.alphaBK) P mueq = .ok ss ∧
      (parallelForward s).1 = (forward ss 0).1 ∧ e ▸ (parallelForward s).2 = (forward ss 0).2 := by
  have hl := BK.C14_ldl_exact BK.alphaBK_pos BK.alphaBK_lt_one
  have hcm := BK.C14_ldl_complete BK.alphaBK_pos BK.alphaBK_lt_one
  obtain ⟨L, hL, h⟩ := C08_parallel_succeeds_on_strictly_convex hl hcm P hs hsq hc hp hR hG mueq hmu
    nthr h2 hN
  refine ⟨L, (C08_legs_are_the_problem P.stages nthr).1 L hL, fun err0 => ?_⟩
  obtain ⟨s, hb⟩ := h steps thr err0
  obtain ⟨ss, hss⟩ := C03_backward_succeeds_on_convex hl hcm P mueq hmu hs hc hR
    (fun x _ hx => StrictPos.headPos _ hp x hx) hG
  obtain ⟨_, h3⟩ := C08_parallel_equals_serial hl P hs mueq nthr L hL steps hst thr err0 s hb ss hss
  exact ⟨s, ss, hb, hss, h3⟩

/-- **C08 (negation of unconditional agreement)** On the convex problem with zero terminal cost the
serial solver succeeds, but the parallel solver's condensed system cannot be factored in the order used
by the code (last block first); `backward` ignores that failure and returns `true`. -/
theorem C08_parallel_fails_where_serial_succeeds {ldl : LDL ℚ} (hl : ldl.Exact)
    (hcm : ldl.Complete) :
    (∃ s, backward ldl (wP 0) 1 = .ok s) ∧ legsOf (wP 0).stages 2 = .ok (wL 0) ∧
    ∀ steps small err0,
      parallelBackwardLegs ldl (wP 0).G0 (wP 0).g0 (wL 0) 1 steps small err0 = .error .condensed := by
  refine ⟨wP_serial hl hcm le_rfl, wL_legs 0, fun steps small err0 => ?_⟩
  obtain ⟨FL, hFL⟩ := backwardLegs_success hl hcm one_pos (wL 0) (wP_symm 0) (wP_convex le_rfl)
    (wP_rpos 0)
  have hok := backwardLegs_ok hl (wL 0) (wP_symm 0) FL hFL
  have hsy : (wL 0).join.Symm := wP_symm 0
  have hno : ((condensedT (wP 0).G0 0 FL).solve ldl (condensedR (wP 0).g0 FL)) = none := by
    by_contra h
    have h' := Option.ne_none_iff_isSome.1 h
    rw [C11_solve_succeeds_iff hl hcm _ (condensedT_symm _ hsy FL hok)] at h'
    obtain ⟨-, h'⟩ := h'
    cases FL with
    | cons F FL' =>
      cases FL' with
      | last FN =>
        have hV : FN.vm.Vxx = 0 := by
          have := hok.2.1
          cases FN with
          | last FN =>
            have E : TermEqs (wN 0) 1 FN := this
            show FN.vm.Vxx = 0
            rw [E.Vxx]
            ext i j
            simp [wN, Knot.zero]
        have h3 : IsUnit (BT.last FN.vm.Vxx).dense.det := h'.2.2
        rw [hV, ← Matrix.isUnit_iff_isUnit_det, ← Matrix.mulVec_surjective_iff_isUnit] at h3
        obtain ⟨y, hy⟩ := h3 (BV.last (1 : Vec ℚ 1)).flat
        obtain ⟨z, rfl⟩ := flat_surjective y
        rw [← mulFrom_zero_flat] at hy
        have := flat_injective hy
        cases z with
        | last z =>
          simp only [BT.mulFrom, zero_mulVec, add_zero, BV.last.injEq] at this
          have := congrFun this 0
          simp at this
  unfold parallelBackwardLegs
  have hd : (wL 0).dimsOK = true := rfl
  rw [hd, hFL]
  simp only [Bool.true_eq_false, if_false, hno]

/-- **C13 (negation)** The code's `collapseFeedback` uses the stored subdiagonal block, which is not the
factor: on the scalar two-knot problem it yields the gain `1`, the serial gain is `-1/2`. -/
theorem C13_collapseFeedback_wrong {ldl : LDL ℚ} (hl : ldl.Exact) (hcm : ldl.Complete) :
    ∃ (F : Facs (Seg.one w0).leg) (FL : LegFacs (Legs.last (Chain.last (wN 1)))) (ss : Solver (wP 1)),
      backwardLegs ldl 1 (wL 1) = .ok (.cons F FL) ∧ backward ldl (wP 1) 1 = .ok ss ∧
      collapseFeedback F (storedSubdiagonal1 F) = (1 : Mat ℚ 1 1) ∧ ss.datas.K0 = (-1/2 : ℚ) • (1 : Mat ℚ 1 1) := by
  obtain ⟨FL, hFL⟩ := backwardLegs_success hl hcm one_pos (wL 1) (wP_symm 1) (wP_convex zero_le_one)
    (wP_rpos 1)
  have hok := backwardLegs_ok hl (wL 1) (wP_symm 1) FL hFL
  obtain ⟨ss, hss⟩ := wP_serial hl hcm (c := 1) zero_le_one
  cases FL with
  | cons F FL' =>
    refine ⟨F, FL', ss, hFL, hss, ?_, ?_⟩
    · have hF := hok.1.1
      change Facs (Chain.last w0.configure) at F
      cases F with
      | last F =>
        have E : TermEqs w0.configure 1 F := hF
        have k1 := E.K1
        have t1 := E.T1
        have v := E.Vxt
        show F.K - F.Kth * F.vm.Vxtᵀ = 1
        have hK : F.K = 0 := by
          simpa [w0, Knot.zero, Knot.configure, Knot.addParameterization] using k1
        have hT : F.Kth = -1 := by
          simpa [w0, Knot.zero, Knot.configure, Knot.addParameterization] using t1
        rw [v, hK, hT]
        simp [w0, Knot.zero, Knot.configure, Knot.addParameterization]
    · unfold backward at hss
      split at hss
      · cases hss
      · rename_i Fs hFs
        obtain ⟨h1, -⟩ := backwardImpl_ok hl _ (wP_symm 1) Fs hFs
        split at hss
        · cases hss
        · injection hss with hss
          subst hss
          show Fs.K0 = _
          change Facs (Chain.cons w0 (.last (wN 1))) at Fs
          cases Fs with
          | cons F Ft =>
            obtain ⟨hV, E, hT⟩ := h1
            cases Ft with
            | last FN =>
              have EN : TermEqs (wN 1) 1 FN := hT
              have hV1 : FN.vm.Vxx = 1 := by
                rw [EN.Vxx]
                ext i j
                simp [wN, Knot.zero]
              have k1 := E.K1
              simp only [Facs.vm, hV1] at k1
              show F.K = _
              ext i j
              have := congrFun (congrFun k1 i) j
              rw [Subsingleton.elim i 0, Subsingleton.elim j 0] at this ⊢
              simp [w0, Knot.zero, Matrix.mul_apply] at this ⊢
              linarith

end witness

end Aligator.Gar
