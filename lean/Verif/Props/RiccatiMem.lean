import Verif.Lemmas.RiccatiMem
import Verif.Props.Riccati

/-!
# C84: a serial LQ solver can be used again

One solver object is used for many problems: between two calls the client changes the matrices of the problem, the penalty,
or shifts the horizon.  `Reach` are the states of such an object after any calls, including calls that failed.
-/

set_option linter.unusedSectionVars false

namespace Aligator.GarMem

open Matrix Gar

variable {𝕜 : Type*} [Field 𝕜] [DecidableEq 𝕜] {nth : ℕ}

/-- **C84** What a backward pass does depends on the problem and the penalty only: two solver objects with any two histories
(other problems, failed passes, shifts, uninitialised memory) end the pass in the same way, and unless it threw hold the same
gains, costs to go, initial stage and parameter derivatives. -/
theorem C84_history_independent (L : LDLMem 𝕜) {nc0 nx : ℕ} {D : Dims nx} (G0 : Mat 𝕜 nc0 nx) (g0 : Vec 𝕜 nc0)
    (k : Knots 𝕜 nth D) (mueq : 𝕜) (s s' : St 𝕜 nth nc0 D) (h : Reach L nc0 D s) (h' : Reach L nc0 D s') :
    (backwardM L G0 g0 k mueq s).2 = (backwardM L G0 g0 k mueq s').2 ∧
      ((backwardM L G0 g0 k mueq s).2.threw = false →
        (backwardM L G0 g0 k mueq s).1.solver G0 g0 k = (backwardM L G0 g0 k mueq s').1.solver G0 g0 k) :=
  backward_det L G0 g0 k mueq s s' (reach_clean h) (reach_clean h')

/-- **C84** The pass is the one of `C01`–`C05`: it ends well exactly when the memoryless backward pass does, with its result; the
exception, with all other factorisations good, exactly when that reports a failed stage. -/
theorem C84_backward_refines (L : LDLMem 𝕜) {nc0 nx : ℕ} {D : Dims nx} (G0 : Mat 𝕜 nc0 nx) (g0 : Vec 𝕜 nc0)
    (k : Knots 𝕜 nth D) (mueq : 𝕜) (s : St 𝕜 nth nc0 D) (h : Reach L nc0 D s) :
    (∀ S, Gar.backward L.toLDL (⟨G0, g0, k.chain⟩ : Problem 𝕜 nth nc0 nx) mueq = .ok S ↔
      (backwardM L G0 g0 k mueq s).2 = ⟨false, false⟩ ∧ (backwardM L G0 g0 k mueq s).1.solver G0 g0 k = S) ∧
    (Gar.backward L.toLDL (⟨G0, g0, k.chain⟩ : Problem 𝕜 nth nc0 nx) mueq = .error .ldlFailed ↔
      (backwardM L G0 g0 k mueq s).2 = ⟨true, false⟩) := by
  have hr := backward_run L G0 g0 k mueq s (reach_clean h)
  cases hb : Gar.backward L.toLDL (⟨G0, g0, k.chain⟩ : Problem 𝕜 nth nc0 nx) mueq with
  | ok S =>
    rw [hb] at hr
    refine ⟨fun S' => ⟨fun e => ?_, fun e => ?_⟩, ⟨fun e => (by cases e), fun e => ?_⟩⟩
    · injection e with e; subst e; exact hr
    · rw [← e.2, hr.2]
    · rw [hr.1] at e; simp at e
  | error e =>
    rw [hb] at hr
    cases e with
    | ldlFailed =>
      refine ⟨fun S' => ⟨fun e => (by cases e), fun e => ?_⟩, ⟨fun _ => hr, fun _ => rfl⟩⟩
      rw [show (backwardM L G0 g0 k mueq s).2 = ⟨true, false⟩ from hr] at e
      simp at e
    | unchecked =>
      refine ⟨fun S' => ⟨fun e => (by cases e), fun e => ?_⟩, ⟨fun e => (by cases e), fun e => ?_⟩⟩
      · rw [e.1] at hr; cases hr
      · rw [e] at hr; cases hr
    | divByZero =>
      refine ⟨fun S' => ⟨fun e => (by cases e), fun e => ?_⟩, ⟨fun e => (by cases e), fun e => ?_⟩⟩
      · rw [e.1] at hr; cases hr
      · rw [e] at hr; cases hr

/-- **C84** So a solver that was used before solves the current problem: after a good backward pass the forward pass overwrites the
vectors of the caller, whatever they held, with the only KKT point. -/
theorem C84_reused_solver_solves {L : LDLMem 𝕜} (hl : L.toLDL.Exact) {nc0 nx : ℕ} {D : Dims nx} (G0 : Mat 𝕜 nc0 nx)
    (g0 : Vec 𝕜 nc0) (k : Knots 𝕜 nth D) (mueq : 𝕜) (s : St 𝕜 nth nc0 D) (h : Reach L nc0 D s)
    (hs : k.chain.Symm) (hok : (backwardM L G0 g0 k mueq s).2 = ⟨false, false⟩)
    (θ : Option (Vec 𝕜 nth)) (hG : k.chain.GvZero (θ.getD 0)) (t : Traj k.chain) :
    let P : Problem 𝕜 nth nc0 nx := ⟨G0, g0, k.chain⟩
    let out := forwardM k (backwardM L G0 g0 k mueq s).1 θ t
    KKT P mueq (θ.getD 0) out.1 out.2 ∧
      ∀ lam0 t', KKT P mueq (θ.getD 0) lam0 t' → lam0 = out.1 ∧ t' = out.2 := by
  intro P out
  have hb := ((C84_backward_refines L G0 g0 k mueq s h).1 _).2 ⟨hok, rfl⟩
  have e : out = Gar.forward ((backwardM L G0 g0 k mueq s).1.solver G0 g0 k) (θ.getD 0) := forward_run G0 g0 k _ θ t
  rw [e]
  exact ⟨C01_forward_solves_KKT hl P mueq hs _ hb _ hG,
    fun lam0 t' hk => C02_KKT_solution_unique hl P mueq hs _ hb _ hG lam0 t' hk⟩

/-- **C84** After the exception the object is a mixture: the initial stage, the parameter derivatives and the gains of the first knot
are those of before, and the forward pass, which has no way to know, starts at the old initial state. -/
theorem C84_exception_keeps_initial_stage (L : LDLMem 𝕜) {nc0 nx nx2 nu nc : ℕ} {tl : Dims nx2} (G0 : Mat 𝕜 nc0 nx)
    (g0 : Vec 𝕜 nc0) (k : Knots 𝕜 nth (.cons (nx := nx) nu nc tl)) (mueq : 𝕜) (s : St 𝕜 nth nc0 (.cons (nx := nx) nu nc tl))
    (ht : (backwardM L G0 g0 k mueq s).2.threw = true) :
    let r := (backwardM L G0 g0 k mueq s).1
    (r.x0ff, r.lam0ff, r.x0fth, r.lam0fth) = (s.x0ff, s.lam0ff, s.x0fth, s.lam0fth) ∧
      (r.thGrad, r.thHess) = (s.thGrad, s.thHess) ∧ r.datas.headF = s.datas.headF ∧
      ∀ θ t, (forwardM k r θ t).1 = (forwardM k s θ t).1 ∧ (forwardM k r θ t).2.x0 = (forwardM k s θ t).2.x0 := by
  have h : (backwardImplM L mueq k s.datas).2.threw = true := by
    by_contra hc
    simp only [backwardM, hc] at ht
    simp at ht
  have e : (backwardM L G0 g0 k mueq s).1 = { s with datas := (backwardImplM L mueq k s.datas).1 } := by
    simp only [backwardM, h, if_true]
  intro r
  have er : r = { s with datas := (backwardImplM L mueq k s.datas).1 } := e
  rw [er]
  refine ⟨rfl, rfl, impl_threw L mueq k s.datas h, fun θ t => ?_⟩
  cases θ with
  | none => exact ⟨rfl, rfl⟩
  | some θ => exact ⟨rfl, rfl⟩

/-! ## Instances -/

/-- The symmetric solver of the instances of `C01`. -/
noncomputable def exL : LDLMem ℚ := { toLDL := invLDL ℚ, junk := fun _ _ => 1 }

/-- Three scalar knots. -/
abbrev exD : Dims 1 := .cons 1 1 (.cons (nx := 1) 1 1 (.last (nx := 1) 1 1 1))

/-- The knots of `exProblem`. -/
def exKs : Knots ℚ 1 exD := (exKnot 1, exKnot 2, exKnot 3)

/-- The knots with no controls in the first cost, dynamics and constraint. -/
def exBad : Knots ℚ 1 exD := (show Knot ℚ 1 1 1 1 1 from { exKnot 1 with R := 0, B := 0, D := 0 }, exKnot 2, exKnot 3)

/-- Uninitialised memory. -/
def exU : St ℚ 1 1 exD :=
  let z : Buf ℚ 1 1 1 1 1 :=
    { Qhat := 1, Rhat := 1, Shat := 1, qhat := 1, rhat := 1, AtV := 1, BtV := 1, Gxhat := 1, Guhat := 1
      F := ⟨1, 1, 1, 1, 1, 1, 1, 1, 1, ⟨1, 1, 1, 1, 1⟩⟩, kktMat := 1, kktChol := 1, info := true }
  ⟨(z, z, z), 1, 1, true, 1, 1, 1, 1, 1, 1⟩

/-- The pass on `exBad` throws, from any state. -/
theorem exBad_threw (s : St ℚ 1 1 exD) (h : Reach exL 1 exD s) (G0 : Mat ℚ 1 1) (g0 : Vec ℚ 1) (mueq : ℚ) :
    (backwardM exL G0 g0 exBad mueq s).2.threw = true := by
  have hc := reach_clean h
  have hi : ∀ vn : CostToGo ℚ 1 1, (stageFactorM exL exBad.1 vn mueq s.datas.1).info = false := by
    intro vn
    have hk := fun R => writeKkt_eq s.datas.1.kktMat R (0 : Mat ℚ 1 1) mueq hc.1
    have hd : (symLower (symLower (blk2 ((0 : Mat ℚ 1 1) + (0 : Mat ℚ 1 1)ᵀ * vn.Vxx * (0 : Mat ℚ 1 1)) (0 : Mat ℚ 1 1)ᵀ
        (0 : Mat ℚ 1 1) (-mueq • (1 : Mat ℚ 1 1))))).det = 0 := by
      apply Matrix.det_eq_zero_of_row_eq_zero (0 : Fin (1 + 1))
      intro j
      fin_cases j <;> simp [symLower, blk2, finSumFinEquiv, Fin.addCases]
    simp only [stageFactorM, exBad, hk, LDLMem.factor, exL, invLDL]
    rw [if_pos hd]
  have hm := threw_of_info exL mueq exBad s.datas hi
  simp only [backwardM, hm, if_true]

/-- The instance: solve, fail on another problem, shift the horizon, solve again with another penalty. -/
example : ∃ s : St ℚ 1 1 exD, Reach exL 1 exD s ∧ (backwardM exL !![-1] ![5] exKs (1/10) s).2 = ⟨false, false⟩ ∧
    exKs.chain.Symm ∧ ∀ θ, exKs.chain.GvZero θ := by
  have r0 : Reach exL 1 exD exU.new := .new _
  have r1 := Reach.backward !![-1] ![7] exKs (1/10) _ r0
  have r2 := Reach.backward !![-1] ![7] exBad (1/10) _ r1
  have r3 := Reach.shift (nu := 1) (nc := 1) (tl := .cons (nx := 1) 1 1 (.last (nx := 1) 1 1 1)) _
    (show Buf ℚ 1 1 1 1 1 from exU.datas.1) r2
  obtain ⟨S, hS⟩ := exProblem_backward (invLDL_exact ℚ) (invLDL_complete ℚ)
  obtain ⟨h1, h2, h3, h4, h5⟩ := exProblem_ok
  refine ⟨_, r3, ?_, h1, fun θ => noGv_gvZero θ _ h3⟩
  exact (((C84_backward_refines exL !![-1] ![5] exKs (1/10) _ r3).1 S).1 hS).1

/-- **C84** A forward pass after the exception can contradict the initial condition of the current problem. -/
theorem C84_forward_after_exception : ∃ s : St ℚ 1 1 exD, Reach exL 1 exD s ∧
    (backwardM exL !![-1] ![7] exBad (1/10) s).2.threw = true ∧
    ∀ t, !![-1] *ᵥ (forwardM exBad (backwardM exL !![-1] ![7] exBad (1/10) s).1 none t).2.x0 + ![7] ≠ 0 := by
  have r0 : Reach exL 1 exD exU.new := .new _
  have r1 := Reach.backward !![-1] ![5] exKs (1/10) _ r0
  obtain ⟨S, hS⟩ := exProblem_backward (invLDL_exact ℚ) (invLDL_complete ℚ)
  obtain ⟨h1, h2, h3, h4, h5⟩ := exProblem_ok
  have hok := (((C84_backward_refines exL !![-1] ![5] exKs (1/10) _ r0).1 S).1 hS).1
  have ht := exBad_threw _ r1 !![-1] ![7] (1/10)
  refine ⟨_, r1, ht, fun t hz => ?_⟩
  obtain ⟨-, -, -, hx⟩ := C84_exception_keeps_initial_stage exL !![-1] ![7] exBad (1/10) _ ht
  let n : Node ℚ 1 1 1 := ⟨0, 0, 0⟩
  let t0 : Traj exKs.chain := .cons n 0 (.cons n 0 (.last n))
  have hk := (C84_reused_solver_solves (L := exL) (invLDL_exact ℚ) !![-1] ![5] exKs (1/10) _ r0 h1 hok none
    (noGv_gvZero _ _ h3) t0).1.1
  have e := (hx none t).2
  rw [e] at hz
  replace hz : !![-1] *ᵥ (backwardM exL !![-1] ![5] exKs (1/10) exU.new).1.x0ff + ![7] = 0 := hz
  replace hk : !![-1] *ᵥ (backwardM exL !![-1] ![5] exKs (1/10) exU.new).1.x0ff + ![5] = 0 := hk
  have a := congrFun hz 0
  have b := congrFun hk 0
  simp only [Pi.add_apply, Pi.zero_apply] at a b
  have c : ∀ w : Vec ℚ 1, (!![-1] *ᵥ w) 0 = -w 0 := fun w => by simp [Matrix.mulVec, dotProduct]
  rw [c] at a b
  simp only [Matrix.cons_val_zero] at a b
  linarith

end Aligator.GarMem
