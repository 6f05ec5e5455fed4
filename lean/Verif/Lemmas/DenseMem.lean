import Verif.Model.DenseMem
import Verif.Props.DenseRiccati

/-!
# Lemmas: the memory of the stagewise-dense solver
-/

set_option linter.unusedSectionVars false

namespace Aligator.DenseMem

open Matrix Gar Gar.Dense GarMem

variable {𝕜 : Type*} [Field 𝕜] [DecidableEq 𝕜] {nth : ℕ}

theorem topV_stackV {a b : ℕ} (y : Vec 𝕜 a) (z : Vec 𝕜 b) : topV (stackV y z) = y := by
  funext i; simp [topV, stackV]

theorem topM_stackM {a b m : ℕ} (y : Mat 𝕜 a m) (z : Mat 𝕜 b m) : topM (stackM y z) = y := by
  funext i j; simp [topM, stackM]

theorem vec0 {n : ℕ} (h : n = 0) (a b : Vec 𝕜 n) : a = b := by subst h; exact Subsingleton.elim _ _

theorem mat0 {n m : ℕ} (h : n = 0) (a b : Mat 𝕜 n m) : a = b := by subst h; exact Subsingleton.elim _ _

/-- The terminal knot. -/
theorem terminal_run {L : LDLMem 𝕜} (hl : L.toLDL.Exact) {nx nu nc nx2 : ℕ} (m : Knot 𝕜 nth nx nu nc nx2) (mueq : 𝕜)
    (hR : m.R.IsSymm) (d : DBuf 𝕜 nth nx nu nc nx2) :
    match Dense.terminalSolve L.toLDL m mueq with
    | .ok F => (terminalD L m mueq d).2 = false ∧ (terminalD L m mueq d).1.facLast = F
    | .error _ => (terminalD L m mueq d).2 = true := by
  by_cases h : nu = 0 ∧ nc = 0
  · have e : (terminalD L m mueq d).2 = false := by simp [terminalD, h]
    simp only [Dense.terminalSolve, if_pos h]
    refine ⟨e, ?_⟩
    simp only [terminalD, DBuf.facLast, DBuf.fac]
    congr 1
    all_goals try first | exact vec0 h.1 _ _ | exact vec0 h.2 _ _ | exact mat0 h.1 _ _ | exact mat0 h.2 _ _
    rw [vec0 h.1 (topV (topV _)) 0, vec0 h.2 (botV (topV _)) 0, mat0 h.1 (topM (topM (_ * writeTopM d.fb _ _))) 0,
      mat0 h.2 (botM (topM (_ * writeTopM d.fb _ _))) 0, mat0 h.1 (topM (topM (_ * writeTopM d.ft _ _))) 0,
      mat0 h.2 (botM (topM (_ * writeTopM d.ft _ _))) 0]
  · by_cases hx : nx2 = 0
    · subst hx
      have hb : ∀ w : Vec 𝕜 ((nu + nc) + (0 + 0)), writeTopV w (-m.r) (-m.d) = stackV (stackV (-m.r) (-m.d)) 0 :=
        fun w => congrArg _ (vec0 rfl _ _)
      have hB : ∀ {c : ℕ} (W : Mat 𝕜 ((nu + nc) + (0 + 0)) c) (Y : Mat 𝕜 nu c) (Z : Mat 𝕜 nc c),
          writeTopM W Y Z = stackM (stackM Y Z) 0 := fun W Y Z => congrArg _ (mat0 rfl _ _)
      simp only [Dense.terminalSolve, if_neg h]
      cases hi : L.inv? _ (kktMatTerm 0 m.R m.D mueq) with
      | none =>
        simp only [terminalD, LDLMem.factor, hi, Bool.not_false, Bool.true_and, decide_eq_false h]
      | some X =>
        simp only
        refine ⟨by simp only [terminalD, LDLMem.factor, hi, Bool.not_true, Bool.false_and], ?_⟩
        simp only [terminalD, LDLMem.factor, hi, DBuf.facLast, DBuf.fac, hb, hB]
    · have hn := C06_terminal_with_next_state_never_factors hl m mueq hR hx h
      rw [hn]
      have hi : L.inv? _ (kktMatTerm nx2 m.R m.D mueq) = none := by
        cases hi : L.inv? _ (kktMatTerm nx2 m.R m.D mueq) with
        | none => rfl
        | some X => simp only [Dense.terminalSolve, if_neg h, hi] at hn; cases hn
      simp only [terminalD, LDLMem.factor, hi, Bool.not_false, Bool.true_and, decide_eq_false h]

/-- A stage, from any memory. -/
theorem stage_run (L : LDLMem 𝕜) {nx nu nc nx2 : ℕ} (m : Knot 𝕜 nth nx nu nc nx2) (vn : Value 𝕜 nth nx2) (mueq : 𝕜)
    (d : DBuf 𝕜 nth nx nu nc nx2) :
    match Dense.stageKernelSolve L.toLDL m vn mueq with
    | .ok F => (stageD L m vn mueq d).2 = false ∧ (stageD L m vn mueq d).1.fac = F
    | .error _ => (stageD L m vn mueq d).2 = true := by
  simp only [Dense.stageKernelSolve]
  cases hi : L.inv? _ (kktMat m.R m.D m.B mueq vn.Pxx) with
  | none => simp [stageD, LDLMem.factor, hi]
  | some X =>
    simp only
    refine ⟨by simp [stageD, LDLMem.factor, hi], ?_⟩
    simp only [stageD, LDLMem.factor, hi, DBuf.fac, writeTopV, writeBotV, writeTopM, writeBotM, topV_stackV, topM_stackM]

theorem facs_v : {nx : ℕ} → {D : Dims nx} → (k : Knots 𝕜 nth D) → (b : DBufs 𝕜 nth D) → (b.facs k).v = b.v
  | _, .last _ _ _, _, _ => rfl
  | _, .cons _ _ _, _, _ => rfl

/-- All knots. -/
theorem stages_run {L : LDLMem 𝕜} (hl : L.toLDL.Exact) (mueq : 𝕜) : {nx : ℕ} → {D : Dims nx} → (k : Knots 𝕜 nth D) →
    k.chain.Symm → (b : DBufs 𝕜 nth D) →
    match Dense.backwardStages L.toLDL mueq k.chain with
    | .ok F => (stagesD L mueq k b).2 = false ∧ (stagesD L mueq k b).1.facs k = F
    | .error _ => (stagesD L mueq k b).2 = true
  | _, .last _ _ _, k, hs, b => by
    have h := terminal_run hl (show Knot _ _ _ _ _ _ from k) mueq hs.2 b
    simp only [Knots.chain, Dense.backwardStages]
    cases ht : Dense.terminalSolve L.toLDL (show Knot _ _ _ _ _ _ from k) mueq with
    | error e => rw [ht] at h; exact h
    | ok F => rw [ht] at h; exact ⟨h.1, congrArg DFacs.last h.2⟩
  | _, .cons _ _ _, k, hs, b => by
    have ih := stages_run hl mueq k.2 hs.2 b.2
    simp only [Knots.chain, Dense.backwardStages]
    cases ht : Dense.backwardStages L.toLDL mueq (Knots.chain k.2) with
    | error e =>
      rw [ht] at ih
      replace ih : (stagesD L mueq k.2 b.2).2 = true := ih
      simp only [stagesD, ih, Bool.true_or]
    | ok Ft =>
      rw [ht] at ih
      replace ih : (stagesD L mueq k.2 b.2).2 = false ∧ (stagesD L mueq k.2 b.2).1.facs k.2 = Ft := ih
      have ev : (stagesD L mueq k.2 b.2).1.v = Ft.v := by rw [← ih.2, facs_v]
      have h := stage_run L k.1 (stagesD L mueq k.2 b.2).1.v mueq b.1
      rw [ev] at h
      simp only
      cases hk : Dense.stageKernelSolve L.toLDL k.1 Ft.v mueq with
      | error e =>
        rw [hk] at h
        replace h : (stageD L k.1 Ft.v mueq b.1).2 = true := h
        simp only [stagesD, ev, h, Bool.or_true]
      | ok F =>
        rw [hk] at h
        replace h : (stageD L k.1 Ft.v mueq b.1).2 = false ∧ (stageD L k.1 Ft.v mueq b.1).1.fac = F := h
        simp only
        refine ⟨by simp only [stagesD, ev, h.1, ih.1, Bool.or_self], ?_⟩
        simp only [stagesD, ev, DBufs.facs, h.2, ih.2]

/-- The whole pass. -/
theorem backward_run {L : LDLMem 𝕜} (hl : L.toLDL.Exact) {nc0 nx : ℕ} {D : Dims nx} (G0 : Mat 𝕜 nc0 nx) (g0 : Vec 𝕜 nc0)
    (k : Knots 𝕜 nth D) (mueq : 𝕜) (hs : k.chain.Symm) (hN : k.chain.horizon ≠ 0) (s : DSt 𝕜 nth nc0 D) :
    match Dense.backward L.toLDL (⟨G0, g0, k.chain⟩ : Problem 𝕜 nth nc0 nx) mueq with
    | .ok S => (backwardD L G0 g0 k mueq s).2 = false ∧ (backwardD L G0 g0 k mueq s).1.solver G0 g0 k = S
    | .error _ => (backwardD L G0 g0 k mueq s).2 = true := by
  have h := stages_run hl mueq k hs s.datas
  simp only [Dense.backward, if_neg hN]
  cases hb : Dense.backwardStages L.toLDL mueq k.chain with
  | error e =>
    rw [hb] at h
    replace h : (stagesD L mueq k s.datas).2 = true := h
    simp only [backwardD, h, Bool.true_or]
  | ok F =>
    rw [hb] at h
    replace h : (stagesD L mueq k s.datas).2 = false ∧ (stagesD L mueq k s.datas).1.facs k = F := h
    have ev : (stagesD L mueq k s.datas).1.v = F.v := by rw [← h.2, facs_v]
    simp only
    cases hi : L.inv? (nx + nc0) (blk2 F.v.Pxx G0ᵀ G0 0) with
    | none => simp only [backwardD, ev, LDLMem.factor, hi, Bool.not_false, Bool.or_true]
    | some X =>
      simp only
      refine ⟨by simp only [backwardD, ev, LDLMem.factor, hi, h.1, Bool.not_true, Bool.or_self], ?_⟩
      simp only [backwardD, ev, LDLMem.factor, hi, DSt.solver, h.2]

theorem addTh_eq {n : ℕ} (θ : Option (Vec 𝕜 nth)) (w : Vec 𝕜 n) (T : Mat 𝕜 n nth) : addTh θ w T = w + T *ᵥ θ.getD 0 := by
  cases θ <;> simp [addTh]

theorem uD_eq {nx nu nc nx2 : ℕ} (θ : Option (Vec 𝕜 nth)) (d : DBuf 𝕜 nth nx nu nc nx2) (x : Vec 𝕜 nx) (u : Vec 𝕜 nu) :
    uD θ d x u = d.fac.kff + d.fac.K *ᵥ x + d.fac.Kth *ᵥ θ.getD 0 := by
  by_cases h : 0 < nu
  · simp only [uD, if_pos h, addTh_eq, DBuf.fac]
  · exact vec0 (by omega) _ _

theorem last_run {nx nu nc nx2 : ℕ} (θ : Option (Vec 𝕜 nth)) (d : DBuf 𝕜 nth nx nu nc nx2) (x : Vec 𝕜 nx) (u : Vec 𝕜 nu) :
    (⟨x, uD θ d x u, vD θ d x⟩ : Node 𝕜 nx nu nc) =
      ⟨x, d.facLast.kff + d.facLast.K *ᵥ x + d.facLast.Kth *ᵥ θ.getD 0,
        d.facLast.zff + d.facLast.Z *ᵥ x + d.facLast.Zth *ᵥ θ.getD 0⟩ := by
  rw [uD_eq, vD, addTh_eq]
  rfl

theorem forwardStages_run (θ : Option (Vec 𝕜 nth)) : {nx : ℕ} → {D : Dims nx} → (k : Knots 𝕜 nth D) → (b : DBufs 𝕜 nth D) →
    (x : Vec 𝕜 nx) → (t : Traj k.chain) → forwardStagesD θ k b x t = Dense.forwardStages (θ.getD 0) (b.facs k) x
  | _, .last _ _ _, k, b, x, t => by
    exact congrArg Traj.last (last_run θ b x (lastU t))
  | _, .cons _ _ _, k, b, x, t => by
    simp only [forwardStagesD, DBufs.facs, Dense.forwardStages, uD_eq, vD, lD, xD, addTh_eq, forwardStages_run θ k.2]
    rfl

theorem forward_run {nc0 nx : ℕ} {D : Dims nx} (G0 : Mat 𝕜 nc0 nx) (g0 : Vec 𝕜 nc0) (k : Knots 𝕜 nth D) (s : DSt 𝕜 nth nc0 D)
    (θ : Option (Vec 𝕜 nth)) (t : Traj k.chain) :
    forwardD k s θ t = Dense.forward (s.solver G0 g0 k) (θ.getD 0) := by
  simp only [forwardD, addTh_eq, forwardStages_run, Dense.forward, DSt.solver]

end Aligator.DenseMem
