import Verif.Lemmas.DenseRiccati
import Verif.Props.BunchKaufman
import Mathlib.LinearAlgebra.Matrix.ToLinearEquiv

/-!
# Properties of the stagewise-dense LQ solver (C06, C07)

Specification: `KKT`, `TailKKT`, `thetaGrad` of `Verif/Spec/Lqr.lean`, the same as for the serial solver.
-/

set_option linter.unusedSectionVars false

namespace Aligator.Gar

open Matrix

variable {𝕜 : Type*} [Field 𝕜] [DecidableEq 𝕜] {nth : ℕ}

namespace Dense

/-- **C06** Whenever the dense solver's `backward` meets no failed factorisation, the output of `forward`
satisfies the KKT system of the problem: every horizon `≥ 1`, all dimensions, every `mueq`, every parameter
value, and (unlike the serial solver) with any multiplier-parameter terms `Gv`. -/
theorem C06_forward_solves_KKT {ldl : LDL 𝕜} (hl : ldl.Exact) {nc0 nx : ℕ}
    (P : Problem 𝕜 nth nc0 nx) (mueq : 𝕜) (hs : P.stages.Symm) (s : DSolver P)
    (hb : backward ldl P mueq = .ok s) (θ : Vec 𝕜 nth) :
    KKT P mueq θ (forward s θ).1 (forward s θ).2 := by
  unfold backward at hb
  split at hb
  · cases hb
  split at hb
  · cases hb
  · rename_i F hF
    obtain ⟨hok, hV⟩ := backwardStages_ok hl P.stages hs F hF
    split at hb
    · cases hb
    · rename_i X hX
      have hM := hl _ _ _ hX
      have hsym : (blk2 F.v.Pxx P.G0ᵀ P.G0 (0 : Mat 𝕜 nc0 nc0)).IsSymm :=
        blk2_isSymm hV (by rw [Matrix.IsSymm, transpose_zero])
      rw [symLower_of_isSymm hsym] at hM
      injection hb with hb
      obtain ⟨a11, a12⟩ := solveVec_spec hM (-F.v.px) (-P.g0)
      have a2 := solveMat_spec hM (-F.v.Pxt) (0 : Mat 𝕜 nc0 nth)
      have b1 := congrArg (fun M => M *ᵥ θ) a2.1
      have b2 := congrArg (fun M => M *ᵥ θ) a2.2
      have e1 : s.facs = F := by rw [← hb]
      have e2 : s.x0ff = (solveVec X (-F.v.px) (-P.g0)).1 := by rw [← hb]
      have e3 : s.lam0ff = (solveVec X (-F.v.px) (-P.g0)).2 := by rw [← hb]
      have e4 : s.x0fth = (solveMat X (-F.v.Pxt) (0 : Mat 𝕜 nc0 nth)).1 := by rw [← hb]
      have e5 : s.lam0fth = (solveMat X (-F.v.Pxt) (0 : Mat 𝕜 nc0 nth)).2 := by rw [← hb]
      rw [← e2, ← e3] at a11 a12
      rw [← e4, ← e5] at b1 b2
      simp only [zero_mulVec, Matrix.zero_mul, add_zero, add_mulVec, neg_mulVec, ← mulVec_mulVec]
        at a11 a12 b1 b2
      constructor
      · simp only [forward, forwardStages_x0, mulVec_add]
        linear_combination (norm := module) a12 + b2
      · have := forwardStages_tailKKT θ P.stages hs F hok (s.x0ff + s.x0fth *ᵥ θ)
        have e : F.v.px + F.v.Pxx *ᵥ (s.x0ff + s.x0fth *ᵥ θ) + F.v.Pxt *ᵥ θ =
            -(P.G0ᵀ *ᵥ (forward s θ).1) := by
          simp only [forward, mulVec_add]
          linear_combination (norm := module) a11 + b1
        rw [e] at this
        simp only [forward, e1]
        exact this

/-- **C06** When the dense solver succeeds, its output is the only KKT point. -/
theorem C06_KKT_solution_unique {ldl : LDL 𝕜} (hl : ldl.Exact) {nc0 nx : ℕ}
    (P : Problem 𝕜 nth nc0 nx) (mueq : 𝕜) (hs : P.stages.Symm) (s : DSolver P)
    (hb : backward ldl P mueq = .ok s) (θ : Vec 𝕜 nth)
    (lam0 : Vec 𝕜 nc0) (t : Traj P.stages) (h : KKT P mueq θ lam0 t) :
    lam0 = (forward s θ).1 ∧ t = (forward s θ).2 := by
  have hk := C06_forward_solves_KKT hl P mueq hs s hb θ
  unfold backward at hb
  split at hb
  · cases hb
  split at hb
  · cases hb
  · rename_i F hF
    obtain ⟨hok, hV⟩ := backwardStages_ok hl P.stages hs F hF
    split at hb
    · cases hb
    · rename_i X hX
      have hM := hl _ _ _ hX
      have hsym : (blk2 F.v.Pxx P.G0ᵀ P.G0 (0 : Mat 𝕜 nc0 nc0)).IsSymm :=
        blk2_isSymm hV (by rw [Matrix.IsSymm, transpose_zero])
      rw [symLower_of_isSymm hsym] at hM
      injection hb with hb
      have hd : s.facs = F := by rw [← hb]
      obtain ⟨p1, t1⟩ := dtailKKT_unique θ P.stages hs F hok _ t h.2
      obtain ⟨p2, -⟩ := dtailKKT_unique θ P.stages hs F hok _ _ hk.2
      have k1 := h.1
      have k2 := hk.1
      obtain ⟨e1, e2⟩ := blk2_inj hM (y := t.x0) (y' := (forward s θ).2.x0) (z := lam0)
        (z' := (forward s θ).1)
        (by linear_combination (norm := module) p2 - p1)
        (by
          rw [zero_mulVec, zero_mulVec]
          linear_combination (norm := module) k1 - k2)
      refine ⟨e2, ?_⟩
      rw [t1, e1]
      simp only [forward, forwardStages_x0, hd]

/-- **C06** The dense and the serial solver return the same states, controls, multipliers and costates
whenever both succeed, for every parameter value with `Gv θ = 0` (the serial solver does not support other
ones, C05). -/
theorem C06_same_solution_as_serial {ldl ldl' : LDL 𝕜} (hl : ldl.Exact) (hl' : ldl'.Exact) {nc0 nx : ℕ}
    (P : Problem 𝕜 nth nc0 nx) (mueq : 𝕜) (hs : P.stages.Symm)
    (s : DSolver P) (hb : backward ldl P mueq = .ok s)
    (s' : Solver P) (hb' : Gar.backward ldl' P mueq = .ok s')
    (θ : Vec 𝕜 nth) (hG : P.stages.GvZero θ) :
    Dense.forward s θ = Gar.forward s' θ := by
  obtain ⟨h1, h2⟩ := C02_KKT_solution_unique hl' P mueq hs s' hb' θ hG _ _
    (C06_forward_solves_KKT hl P mueq hs s hb θ)
  exact Prod.ext h1 h2

/-- The value function stored by the two solvers is the same, when both succeed on a tail. -/
theorem value_eq {mueq : 𝕜} {nx : ℕ} (ch : Chain 𝕜 nth nx) (hs : ch.Symm) (F : Facs ch) (G : DFacs ch)
    (hF : FacsOK mueq ch F) (hG : DFacsOK mueq ch G) :
    G.v.Pxx = F.vm.Vxx ∧ G.v.px = F.vm.vx := by
  have h0 : ch.GvZero (0 : Vec 𝕜 nth) := by
    clear hs F G hF hG
    induction ch with
    | last k => exact mulVec_zero _
    | cons k tl ih => exact ⟨mulVec_zero _, ih⟩
  have key : ∀ x, F.vm.vx + F.vm.Vxx *ᵥ x = G.v.px + G.v.Pxx *ᵥ x := by
    intro x
    have a := (dtailKKT_unique 0 ch hs G hG _ _ (forwardImpl_tailKKT 0 ch hs h0 F hF x)).1
    simpa only [mulVec_zero, add_zero, forwardImpl_x0] using a
  have hpx : G.v.px = F.vm.vx := by
    have := key 0
    simpa only [mulVec_zero, add_zero] using this.symm
  refine ⟨?_, hpx⟩
  ext i j
  have := congrFun (key (Pi.single j 1)) i
  rw [hpx] at this
  have := add_left_cancel (a := F.vm.vx i) this
  simpa only [mulVec_single_one, col_apply] using this.symm

/-- A symmetric solver that is exact and complete succeeds exactly on the injective matrices. -/
theorem isSome_iff_inj {ldl : LDL 𝕜} (hl : ldl.Exact) (hc : ldl.Complete) {n : ℕ} (M : Mat 𝕜 n n)
    (hM : M.IsSymm) : (ldl.inv? n M).isSome ↔ ∀ w, M *ᵥ w = 0 → w = 0 := by
  constructor
  · intro h w hw
    obtain ⟨X, hX⟩ := Option.isSome_iff_exists.1 h
    have e := hl _ _ _ hX
    rw [symLower_of_isSymm hM] at e
    have := congrArg (fun v => X *ᵥ v) hw
    simpa only [mulVec_mulVec, mul_eq_one_comm.1 e, one_mulVec, mulVec_zero] using this
  · intro h
    apply hc
    rw [symLower_of_isSymm hM, isUnit_iff_ne_zero]
    intro hd
    obtain ⟨v, hv, hv0⟩ := Matrix.exists_mulVec_eq_zero_iff.2 hd
    exact hv (h v hv0)

/-- `nx2` of the terminal knot. -/
def _root_.Aligator.Gar.Chain.lastNx2 : {nx : ℕ} → Chain 𝕜 nth nx → ℕ
  | _, .last (nx2 := nx2) _ => nx2
  | _, .cons _ tl => tl.lastNx2

theorem stage_ok_iff {ldl : LDL 𝕜} (hl : ldl.Exact) (hc : ldl.Complete) {nx nu nc nx2 : ℕ}
    (m : Knot 𝕜 nth nx nu nc nx2) (vn : CostToGo 𝕜 nth nx2) (v : Value 𝕜 nth nx2) (mueq : 𝕜)
    (hP : v.Pxx = vn.Vxx) (hV : vn.Vxx.IsSymm) (hR : m.R.IsSymm) :
    (∃ F, Dense.stageKernelSolve ldl m v mueq = .ok F) ↔
      ∃ F, Gar.stageKernelSolve ldl m vn mueq = .ok F := by
  have h1 : (∃ F, Dense.stageKernelSolve ldl m v mueq = .ok F) ↔
      (ldl.inv? _ (kktMat m.R m.D m.B mueq v.Pxx)).isSome := by
    unfold Dense.stageKernelSolve
    cases ldl.inv? _ (kktMat m.R m.D m.B mueq v.Pxx) <;> simp
  have h2 : (∃ F, Gar.stageKernelSolve ldl m vn mueq = .ok F) ↔
      (ldl.inv? _ (symLower (blk2 (m.R + m.Bᵀ * vn.Vxx * m.B) m.Dᵀ m.D
        (-mueq • (1 : Mat 𝕜 nc nc))))).isSome := by
    unfold Gar.stageKernelSolve
    dsimp only
    constructor
    · rintro ⟨F, h⟩
      split at h
      · cases h
      · rename_i X hX
        rw [hX]; rfl
    · intro h
      obtain ⟨X, hX⟩ := Option.isSome_iff_exists.1 h
      rw [hX]; exact ⟨_, rfl⟩
  have hsym : (blk2 (m.R + m.Bᵀ * vn.Vxx * m.B) m.Dᵀ m.D (-mueq • (1 : Mat 𝕜 nc nc))).IsSymm :=
    blk2_isSymm (hR.add (isSymm_congr hV _)) (smul_one_isSymm _)
  rw [h1, h2, hP, symLower_of_isSymm hsym,
    isSome_iff_inj hl hc _ (kktMat_isSymm _ _ _ _ _ hR hV), isSome_iff_inj hl hc _ hsym]
  constructor
  · intro h w hw
    rw [← stackV_eta w] at hw ⊢
    rw [blk2_eq, blkRect_mulVec, ← stackV_zero, stackV_inj] at hw
    have := h (stackV (stackV (topV w) (botV w))
        (stackV (vn.Vxx *ᵥ m.B *ᵥ topV w) (m.B *ᵥ topV w))) (by
      rw [kktMat_mulVec, ← stackV_zero, ← stackV_zero, ← stackV_zero]
      simp only [stackV_inj]
      obtain ⟨w1, w2⟩ := hw
      simp only [add_mulVec, neg_smul, neg_mulVec, smul_mulVec, one_mulVec, ← mulVec_mulVec] at w1 w2
      refine ⟨⟨?_, ?_⟩, sub_self _, sub_self _⟩
      · linear_combination (norm := module) w1
      · linear_combination (norm := module) w2)
    have := congrArg topV this
    rw [topV_stackV] at this
    rw [this]; rfl
  · intro h w hw
    have e : w = stackV (stackV (topV (topV w)) (botV (topV w)))
        (stackV (topV (botV w)) (botV (botV w))) := by
      rw [stackV_eta, stackV_eta, stackV_eta]
    generalize topV (topV w) = k, botV (topV w) = z, topV (botV w) = l, botV (botV w) = y at e
    subst e
    rw [kktMat_mulVec, ← stackV_zero, ← stackV_zero, ← stackV_zero] at hw
    simp only [stackV_inj] at hw
    obtain ⟨⟨w1, w2⟩, w3, w4⟩ := hw
    have hy : y = m.B *ᵥ k := (sub_eq_zero.1 w3).symm
    have hl' : l = vn.Vxx *ᵥ m.B *ᵥ k := by rw [← hy]; exact (sub_eq_zero.1 w4).symm
    have := h (stackV k z) (by
      rw [blk2_eq, blkRect_mulVec, ← stackV_zero, stackV_inj]
      simp only [add_mulVec, neg_smul, neg_mulVec, smul_mulVec, one_mulVec, ← mulVec_mulVec]
      rw [hl'] at w1
      constructor
      · linear_combination (norm := module) w1
      · linear_combination (norm := module) w2)
    rw [← stackV_zero, stackV_inj] at this
    obtain ⟨rfl, rfl⟩ := this
    rw [mulVec_zero] at hy
    subst hy
    rw [mulVec_zero, mulVec_zero] at hl'
    subst hl'
    rw [stackV_zero, stackV_zero, stackV_zero]

theorem term_ok_iff {ldl : LDL 𝕜} (hl : ldl.Exact) (hc : ldl.Complete) {nx nu nc : ℕ}
    (m : Knot 𝕜 nth nx nu nc 0) (mueq : 𝕜) (hR : m.R.IsSymm) :
    (∃ F, Dense.terminalSolve ldl m mueq = .ok F) ↔ ∃ F, Gar.terminalSolve ldl m mueq = .ok F := by
  by_cases h0 : nu = 0 ∧ nc = 0
  · have a : ∃ F, Dense.terminalSolve ldl m mueq = .ok F := by
      unfold Dense.terminalSolve; dsimp only; rw [if_pos h0]; exact ⟨_, rfl⟩
    have b : ∃ F, Gar.terminalSolve ldl m mueq = .ok F := by
      unfold Gar.terminalSolve; rw [if_pos h0.1, if_neg (by simp [h0.2])]; exact ⟨_, rfl⟩
    exact ⟨fun _ => b, fun _ => a⟩
  have hsymT := kktMatTerm_isSymm (nx2 := 0) m.R m.D mueq hR
  have hsym : (blk2 m.R m.Dᵀ m.D (-mueq • (1 : Mat 𝕜 nc nc))).IsSymm :=
    blk2_isSymm hR (smul_one_isSymm _)
  have h1 : (∃ F, Dense.terminalSolve ldl m mueq = .ok F) ↔
      (ldl.inv? _ (kktMatTerm 0 m.R m.D mueq)).isSome := by
    unfold Dense.terminalSolve
    dsimp only
    rw [if_neg h0]
    cases ldl.inv? _ (kktMatTerm 0 m.R m.D mueq) <;> simp
  have key : (∀ w, kktMatTerm 0 m.R m.D mueq *ᵥ w = 0 → w = 0) ↔
      ∀ w, blk2 m.R m.Dᵀ m.D (-mueq • (1 : Mat 𝕜 nc nc)) *ᵥ w = 0 → w = 0 := by
    have e : ∀ k z, blk2 m.R m.Dᵀ m.D (-mueq • (1 : Mat 𝕜 nc nc)) *ᵥ stackV k z =
        stackV (m.R *ᵥ k + m.Dᵀ *ᵥ z) (m.D *ᵥ k - mueq • z) := by
      intro k z
      rw [blk2_eq, blkRect_mulVec, neg_smul, neg_mulVec, smul_mulVec, one_mulVec, sub_eq_add_neg]
    constructor
    · intro h w hw
      rw [← stackV_eta w, e] at hw
      have := h (stackV (stackV (topV w) (botV w)) 0) (by rw [kktMatTerm_mulVec, hw, stackV_zero])
      have := congrArg topV this
      rw [topV_stackV, stackV_eta] at this
      rw [this]; rfl
    · intro h w hw
      rw [← stackV_eta w, ← stackV_eta (topV w), kktMatTerm_mulVec, ← e, stackV_eta] at hw
      have hw' := congrArg topV hw
      rw [topV_stackV] at hw'
      have h1 := h (topV w) (hw'.trans rfl)
      have h2 : botV w = 0 := by funext i; exact i.elim0
      rw [← stackV_eta w, h1, h2, stackV_zero]
  rw [h1, isSome_iff_inj hl hc _ hsymT, key, ← isSome_iff_inj hl hc _ hsym]
  unfold Gar.terminalSolve
  by_cases hnu : nu = 0
  · subst hnu
    have hnc : nc ≠ 0 := fun h => h0 ⟨rfl, h⟩
    rw [if_pos rfl, isSome_iff_inj hl hc _ hsym]
    have e : ∀ k z, blk2 m.R m.Dᵀ m.D (-mueq • (1 : Mat 𝕜 nc nc)) *ᵥ stackV k z =
        stackV 0 (-mueq • z) := by
      intro k z
      rw [blk2_eq, blkRect_mulVec, smul_mulVec, one_mulVec, stackV_inj]
      refine ⟨by funext i; exact i.elim0, ?_⟩
      rw [show m.D *ᵥ k = 0 by funext i; simp [mulVec, dotProduct], zero_add]
    by_cases hmu : mueq = 0
    · rw [if_pos ⟨hmu, hnc⟩]
      constructor
      · intro h
        exfalso
        have := h (stackV 0 (fun _ => 1)) (by rw [e, hmu, neg_zero, zero_smul, stackV_zero])
        have := congrArg botV this
        rw [botV_stackV] at this
        exact one_ne_zero (congrFun this ⟨0, Nat.pos_of_ne_zero hnc⟩)
      · rintro ⟨F, hF⟩; cases hF
    · rw [if_neg (fun h => hmu h.1)]
      refine ⟨fun _ => ⟨_, rfl⟩, fun _ w hw => ?_⟩
      rw [← stackV_eta w, e, ← stackV_zero, stackV_inj] at hw
      have h1 : topV w = 0 := by funext i; exact i.elim0
      have h2 : botV w = 0 := by
        have := hw.2
        rwa [smul_eq_zero_iff_right (neg_ne_zero.2 hmu)] at this
      rw [← stackV_eta w, h1, h2, stackV_zero]
  · rw [if_neg hnu]
    cases ldl.inv? _ (blk2 m.R m.Dᵀ m.D (-mueq • (1 : Mat 𝕜 nc nc))) <;> simp

theorem stages_ok_iff {ldl : LDL 𝕜} (hl : ldl.Exact) (hc : ldl.Complete) (mueq : 𝕜) {nx : ℕ}
    (ch : Chain 𝕜 nth nx) (hs : ch.Symm) (h0 : ch.lastNx2 = 0) :
    (∃ F, backwardStages ldl mueq ch = .ok F) ↔ ∃ F, backwardImpl ldl mueq ch = .ok F := by
  induction ch with
  | last k =>
    have h0' := h0
    simp only [Chain.lastNx2] at h0'
    subst h0'
    have := term_ok_iff hl hc k mueq hs.2
    unfold backwardStages backwardImpl
    constructor
    · rintro ⟨F, hF⟩
      obtain ⟨F', hF'⟩ := this.1 (by split at hF; cases hF; exact ⟨_, by assumption⟩)
      rw [hF']; exact ⟨_, rfl⟩
    · rintro ⟨F, hF⟩
      obtain ⟨F', hF'⟩ := this.2 (by split at hF; cases hF; exact ⟨_, by assumption⟩)
      rw [hF']; exact ⟨_, rfl⟩
  | cons k tl ih =>
    have ih' := ih hs.2 h0
    constructor
    · rintro ⟨F, hF⟩
      unfold backwardStages at hF
      split at hF
      · cases hF
      rename_i Ft hFt
      split at hF
      · cases hF
      rename_i F1 hF1
      obtain ⟨Gt, hGt⟩ := ih'.1 ⟨Ft, hFt⟩
      obtain ⟨a1, a2⟩ := backwardStages_ok hl tl hs.2 Ft hFt
      obtain ⟨b1, b2⟩ := backwardImpl_ok hl tl hs.2 Gt hGt
      obtain ⟨G1, hG1⟩ := (stage_ok_iff hl hc k Gt.vm Ft.v mueq (value_eq tl hs.2 Gt Ft b1 a1).1 b2
        hs.1.2).1 ⟨F1, hF1⟩
      unfold backwardImpl
      rw [hGt]
      dsimp only
      rw [Gt.symHead_eq b2, hG1]
      exact ⟨_, rfl⟩
    · rintro ⟨G, hG⟩
      unfold backwardImpl at hG
      split at hG
      · cases hG
      rename_i Gt hGt
      obtain ⟨b1, b2⟩ := backwardImpl_ok hl tl hs.2 Gt hGt
      dsimp only at hG
      rw [Gt.symHead_eq b2] at hG
      split at hG
      · cases hG
      rename_i G1 hG1
      obtain ⟨Ft, hFt⟩ := ih'.2 ⟨Gt, hGt⟩
      obtain ⟨a1, a2⟩ := backwardStages_ok hl tl hs.2 Ft hFt
      obtain ⟨F1, hF1⟩ := (stage_ok_iff hl hc k Gt.vm Ft.v mueq (value_eq tl hs.2 Gt Ft b1 a1).1 b2
        hs.1.2).2 ⟨G1, hG1⟩
      unfold backwardStages
      rw [hFt]
      dsimp only
      rw [hF1]
      exact ⟨_, rfl⟩

/-- **C06** On problems with horizon `≥ 1` whose terminal knot has no next state (`nx2 = 0`, as in the
workspace of the trajectory solver) the dense solver meets no failed factorisation exactly when the serial
solver succeeds. -/
theorem C06_succeeds_iff_serial_succeeds {ldl : LDL 𝕜} (hl : ldl.Exact) (hc : ldl.Complete) {nc0 nx : ℕ}
    (P : Problem 𝕜 nth nc0 nx) (mueq : 𝕜) (hs : P.stages.Symm) (hN : P.stages.horizon ≠ 0)
    (h0 : P.stages.lastNx2 = 0) :
    (∃ s, backward ldl P mueq = .ok s) ↔ ∃ s, Gar.backward ldl P mueq = .ok s := by
  have key := stages_ok_iff hl hc mueq P.stages hs h0
  constructor
  · rintro ⟨s, h⟩
    unfold backward at h
    rw [if_neg hN] at h
    split at h
    · cases h
    rename_i F hF
    split at h
    · cases h
    rename_i X hX
    obtain ⟨G, hG⟩ := key.1 ⟨F, hF⟩
    obtain ⟨a1, a2⟩ := backwardStages_ok hl _ hs F hF
    obtain ⟨b1, b2⟩ := backwardImpl_ok hl _ hs G hG
    unfold Gar.backward
    rw [hG]
    dsimp only
    rw [← (value_eq _ hs G F b1 a1).1, hX]
    exact ⟨_, rfl⟩
  · rintro ⟨s, h⟩
    unfold Gar.backward at h
    split at h
    · cases h
    rename_i G hG
    split at h
    · cases h
    rename_i X hX
    obtain ⟨F, hF⟩ := key.2 ⟨G, hG⟩
    obtain ⟨a1, a2⟩ := backwardStages_ok hl _ hs F hF
    obtain ⟨b1, b2⟩ := backwardImpl_ok hl _ hs G hG
    unfold backward
    rw [if_neg hN, hF]
    dsimp only
    rw [(value_eq _ hs G F b1 a1).1, hX]
    exact ⟨_, rfl⟩

/-- **C06, disagreement with the code.** A terminal knot that keeps a next-state dimension `nx2 > 0` (which
is what the constructors without explicit `nx2` give, and harmless for the serial solver) and has controls
or constraints always makes the terminal factorisation of the dense solver fail, whatever the data; the
failure is not reported. -/
theorem C06_terminal_with_next_state_never_factors {ldl : LDL 𝕜} (hl : ldl.Exact) {nx nu nc nx2 : ℕ}
    (m : Knot 𝕜 nth nx nu nc nx2) (mueq : 𝕜) (hR : m.R.IsSymm) (hx : nx2 ≠ 0)
    (h : ¬ (nu = 0 ∧ nc = 0)) : terminalSolve ldl m mueq = .error .unchecked := by
  unfold terminalSolve
  dsimp only
  rw [if_neg h]
  split
  · rfl
  · rename_i X hX
    exfalso
    have e := hl _ _ _ hX
    rw [symLower_of_isSymm (kktMatTerm_isSymm _ _ _ hR)] at e
    have hz : kktMatTerm nx2 m.R m.D mueq *ᵥ stackV (stackV 0 0) (fun _ => (1 : 𝕜)) = 0 := by
      rw [kktMatTerm_mulVec]
      simp only [mulVec_zero, smul_zero, sub_zero, add_zero, stackV_zero]
    have := congrArg (fun v => X *ᵥ v) hz
    simp only [mulVec_mulVec, mul_eq_one_comm.1 e, one_mulVec, mulVec_zero] at this
    have := congrArg botV this
    rw [botV_stackV] at this
    exact one_ne_zero (congrFun this ⟨0, by omega⟩)

/-- **C07** (`_partial`: what the reported derivative is, exactly.) `thGrad + thHess θ` plus the terms
`pt + Ptt θ` of all knots but the first is the derivative of the Lagrangian with respect to the parameter at
the solution for `θ`; the reported derivative is right exactly when those terms cancel. -/
theorem C07_gradient_up_to_later_terms_partial {ldl : LDL 𝕜} (hl : ldl.Exact) {nc0 nx nu nc nx2 : ℕ}
    (G0 : Mat 𝕜 nc0 nx) (g0 : Vec 𝕜 nc0) (k : Knot 𝕜 nth nx nu nc nx2) (tl : Chain 𝕜 nth nx2)
    (mueq : 𝕜) (hs : (Chain.cons k tl).Symm) (s : DSolver ⟨G0, g0, .cons k tl⟩)
    (hb : backward ldl ⟨G0, g0, .cons k tl⟩ mueq = .ok s) :
    ∃ F Ft, s.facs = .cons F Ft ∧ ∀ θ,
      s.thGrad + s.thHess *ᵥ θ + laterTerms θ Ft =
        thetaGrad θ (.cons k tl) (forward s θ).2 := by
  unfold backward at hb
  split at hb
  · cases hb
  split at hb
  · cases hb
  · rename_i F hF
    obtain ⟨hok, hV⟩ := backwardStages_ok hl _ hs F hF
    split at hb
    · cases hb
    · injection hb with hb
      subst hb
      cases F with
      | cons F Ft =>
        refine ⟨F, Ft, rfl, fun θ => ?_⟩
        simp only [forward]
        rw [← forwardStages_thetaGrad θ _ hs (.cons F Ft) hok]
        rw [show (DFacs.cons (k := k) F Ft).v = F.v from rfl]
        simp only [laterTerms, add_mulVec, mulVec_add, ← mulVec_mulVec]
        module

/-- No parametric term at any knot. -/
def _root_.Aligator.Gar.Chain.NonParam {nx : ℕ} (ch : Chain 𝕜 nth nx) : Prop :=
  ch.All (fun k => k.Gx = 0 ∧ k.Gu = 0 ∧ k.Gv = 0 ∧ k.Gth = 0 ∧ k.gamma = 0)

theorem nonParam_value {ldl : LDL 𝕜} (hl : ldl.Exact) {mueq : 𝕜} {nx : ℕ} (ch : Chain 𝕜 nth nx)
    (hs : ch.Symm) (hp : ch.NonParam) (F : DFacs ch) (h : backwardStages ldl mueq ch = .ok F) :
    F.v.Pxt = 0 ∧ F.v.Ptt = 0 ∧ F.v.pt = 0 ∧ ∀ θ, laterTerms θ F = 0 := by
  have hF := (backwardStages_ok hl ch hs F h).1
  clear h
  induction ch with
  | last k =>
    cases F with
    | last F =>
      have E : DTermEqs k mueq F := hF
      obtain ⟨h1, h2, h3, h4, h5⟩ := hp
      have a1 : F.v.Pxt = 0 := by
        rw [E.Pxt, h1, h2, h3, Matrix.mul_zero, Matrix.mul_zero, add_zero, add_zero]
      have a2 : F.v.Ptt = 0 := by
        rw [E.Ptt, h4, h2, h3, transpose_zero, transpose_zero, Matrix.zero_mul, Matrix.zero_mul,
          add_zero, add_zero]
      have a3 : F.v.pt = 0 := by
        rw [E.pt, h5, h2, h3, transpose_zero, transpose_zero, zero_mulVec, zero_mulVec, add_zero,
          add_zero]
      refine ⟨a1, a2, a3, fun θ => ?_⟩
      rw [laterTerms, a2, a3, zero_mulVec, add_zero]
  | cons k tl ih =>
    cases F with
    | cons F Ft =>
      obtain ⟨hV, E, hFt⟩ := hF
      obtain ⟨h1, h2, h3, h4, h5⟩ := hp.1
      obtain ⟨b1, b2, b3, b4⟩ := ih hs.2 hp.2 Ft hFt
      have a1 : F.v.Pxt = 0 := by
        rw [E.Pxt, h1, h2, h3, b1, Matrix.mul_zero, Matrix.mul_zero, Matrix.mul_zero, add_zero,
          add_zero, add_zero]
      have a2 : F.v.Ptt = 0 := by
        rw [E.Ptt, h4, h2, h3, b1, Matrix.mul_zero, Matrix.mul_zero, Matrix.mul_zero, add_zero,
          add_zero, add_zero]
      have a3 : F.v.pt = 0 := by
        rw [E.pt, h5, h2, h3, b1, transpose_zero, transpose_zero, transpose_zero, zero_mulVec,
          zero_mulVec, zero_mulVec, add_zero, add_zero, add_zero]
      refine ⟨a1, a2, a3, fun θ => ?_⟩
      rw [laterTerms, a2, a3, zero_mulVec, add_zero, b4, add_zero]

/-- **C07** (`_partial`: the parameter may only enter at the first knot.) Then `thGrad + thHess θ` is the
derivative of the Lagrangian with respect to the parameter at the solution for `θ`, for every `θ`. -/
theorem C07_parameter_at_first_knot_partial {ldl : LDL 𝕜} (hl : ldl.Exact) {nc0 nx nu nc nx2 : ℕ}
    (G0 : Mat 𝕜 nc0 nx) (g0 : Vec 𝕜 nc0) (k : Knot 𝕜 nth nx nu nc nx2) (tl : Chain 𝕜 nth nx2)
    (hp : tl.NonParam) (mueq : 𝕜) (hs : (Chain.cons k tl).Symm) (s : DSolver ⟨G0, g0, .cons k tl⟩)
    (hb : backward ldl ⟨G0, g0, .cons k tl⟩ mueq = .ok s) (θ : Vec 𝕜 nth) :
    s.thGrad + s.thHess *ᵥ θ = thetaGrad θ (.cons k tl) (forward s θ).2 := by
  obtain ⟨F, Ft, hf, h⟩ := C07_gradient_up_to_later_terms_partial hl G0 g0 k tl mueq hs s hb
  rw [← h θ]
  have : backwardStages ldl mueq tl = .ok Ft := by
    unfold backward at hb
    split at hb
    · cases hb
    split at hb
    · cases hb
    · rename_i F' hF'
      split at hb
      · cases hb
      injection hb with hb
      have e : F' = s.facs := by rw [← hb]
      rw [hf] at e
      subst e
      simp only [backwardStages] at hF'
      split at hF'
      · cases hF'
      rename_i Ft' hFt'
      split at hF'
      · cases hF'
      injection hF' with hF'
      cases hF'
      exact hFt'
  rw [(nonParam_value hl tl hs.2 hp Ft this).2.2.2, add_zero]

/-- **C07, disagreement with the code.** With one step and a terminal knot without controls and constraints,
the reported derivative misses `gamma + Gth θ` of the terminal knot, whatever the rest of the problem. -/
theorem C07_terminal_terms_missing {ldl : LDL 𝕜} (hl : ldl.Exact) {nc0 nx nu nc nx2 nx3 : ℕ}
    (G0 : Mat 𝕜 nc0 nx) (g0 : Vec 𝕜 nc0) (k : Knot 𝕜 nth nx nu nc nx2) (kt : Knot 𝕜 nth nx2 0 0 nx3)
    (mueq : 𝕜) (hs : (Chain.cons k (.last kt)).Symm) (s : DSolver ⟨G0, g0, .cons k (.last kt)⟩)
    (hb : backward ldl ⟨G0, g0, .cons k (.last kt)⟩ mueq = .ok s) (θ : Vec 𝕜 nth) :
    s.thGrad + s.thHess *ᵥ θ + (kt.gamma + kt.Gth *ᵥ θ) =
      thetaGrad θ (.cons k (.last kt)) (forward s θ).2 := by
  have hF : ∃ F Ft, s.facs = .cons F (.last Ft) ∧ terminalSolve ldl kt mueq = .ok Ft := by
    unfold backward at hb
    split at hb
    · cases hb
    split at hb
    · cases hb
    · rename_i F' hF'
      split at hb
      · cases hb
      injection hb with hb
      have e : s.facs = F' := by rw [← hb]
      simp only [backwardStages] at hF'
      cases h1 : terminalSolve ldl kt mueq with
      | error e => rw [h1] at hF'; cases hF'
      | ok Ft =>
        rw [h1] at hF'
        dsimp only at hF'
        split at hF'
        · cases hF'
        · rename_i F hF
          cases hF'
          exact ⟨F, Ft, e, rfl⟩
  obtain ⟨F, Ft, hf, ht⟩ := hF
  obtain ⟨F', Ft', hf', h⟩ := C07_gradient_up_to_later_terms_partial hl G0 g0 k (.last kt) mueq hs s hb
  rw [hf] at hf'
  cases hf'
  rw [← h θ]
  unfold terminalSolve at ht
  dsimp only at ht
  rw [if_pos ⟨rfl, rfl⟩] at ht
  injection ht with ht
  have z1 : ∀ (M : Mat 𝕜 nth 0) (N : Mat 𝕜 0 nth), M * N = 0 := by
    intro M N; ext i j; simp [Matrix.mul_apply]
  have z2 : ∀ (M : Mat 𝕜 nth 0) (N : Vec 𝕜 0), M *ᵥ N = 0 := by
    intro M N; ext i; simp [mulVec, dotProduct]
  have e1 : Ft.v.pt = kt.gamma := by
    rw [← ht]; dsimp only; rw [z2, z2, add_zero, add_zero]
  have e2 : Ft.v.Ptt = kt.Gth := by
    rw [← ht]; dsimp only; rw [z1, z1, add_zero, add_zero]
  rw [laterTerms, e1, e2]

/-! ## Concrete instances -/

/-- The terminal knot of a trajectory-solver workspace: no next state, no control; parametrised. -/
def exTerm : Knot ℚ 1 1 0 0 0 where
  Q := !![3]
  S := 0
  R := 0
  q := ![1]
  r := 0
  A := 0
  B := 0
  f := 0
  C := 0
  D := 0
  d := 0
  Gth := !![1]
  Gx := !![1]
  Gu := 0
  Gv := 0
  gamma := ![1]

/-- One step, then the terminal knot. -/
def exDense : Problem ℚ 1 1 1 := ⟨!![-1], ![5], .cons (exKnot 1) (.last exTerm)⟩

/-- Two steps, then the terminal knot. -/
def exDense2 : Problem ℚ 1 1 1 := ⟨!![-1], ![5], .cons (exKnot 1) (.cons (exKnot 2) (.last exTerm))⟩

theorem exTerm_symm : exTerm.Q.IsSymm ∧ exTerm.R.IsSymm :=
  ⟨by ext i j; fin_cases i; fin_cases j; rfl, by ext i; exact i.elim0⟩

theorem exKnot_symm (a : ℚ) : (exKnot a).Q.IsSymm ∧ (exKnot a).R.IsSymm :=
  ⟨by ext i j; fin_cases i; fin_cases j; rfl, by ext i j; fin_cases i; fin_cases j; rfl⟩

theorem exKnot_convex (a : ℚ) (ha : 1 ≤ a) (x u : Vec ℚ 1) :
    0 ≤ x ⬝ᵥ (exKnot a).Q *ᵥ x + 2 * (x ⬝ᵥ (exKnot a).S *ᵥ u) + u ⬝ᵥ (exKnot a).R *ᵥ u := by
  simp [exKnot, dotProduct, mulVec, Matrix.of_apply]
  nlinarith [mul_self_nonneg (x 0 + u 0), mul_self_nonneg (u 0), mul_self_nonneg (x 0)]

theorem exKnot_rpos (a : ℚ) (u : Vec ℚ 1) (hu : u ≠ 0) : 0 < u ⬝ᵥ (exKnot a).R *ᵥ u := by
  have : u 0 ≠ 0 := by
    intro h; apply hu; funext i; fin_cases i; exact h
  simp [exKnot, dotProduct, mulVec, Matrix.of_apply]
  have := mul_self_pos.2 this
  nlinarith

theorem exTerm_convex (x : Vec ℚ 1) (u : Vec ℚ 0) :
    0 ≤ x ⬝ᵥ exTerm.Q *ᵥ x + 2 * (x ⬝ᵥ exTerm.S *ᵥ u) + u ⬝ᵥ exTerm.R *ᵥ u := by
  simp [exTerm, dotProduct, mulVec, Matrix.of_apply]
  nlinarith [mul_self_nonneg (x 0)]

theorem exG0_inj {x : Vec ℚ 1} (h : (!![-1] : Mat ℚ 1 1) *ᵥ x = 0) : x = 0 := by
  have := congrFun h 0
  simp [mulVec, dotProduct] at this
  funext i; fin_cases i; exact this

theorem exDense_serial {ldl : LDL ℚ} (hl : ldl.Exact) (hc : ldl.Complete) :
    (∃ s, Gar.backward ldl exDense (1/10) = .ok s) ∧ ∃ s, Gar.backward ldl exDense2 (1/10) = .ok s := by
  constructor
  · refine C03_backward_succeeds_on_convex hl hc exDense (1/10) (by norm_num)
      ⟨exKnot_symm 1, exTerm_symm⟩ ⟨exKnot_convex 1 (by norm_num), exTerm_convex⟩
      ⟨exKnot_rpos 1, fun u hu => absurd (Subsingleton.elim u 0) hu⟩ ?_ ?_
    · exact fun x hx hx0 => absurd (exG0_inj hx) hx0
    · intro z hz
      have := congrFun hz 0
      simp [exDense, mulVec, dotProduct] at this
      funext i; fin_cases i; exact this
  · refine C03_backward_succeeds_on_convex hl hc exDense2 (1/10) (by norm_num)
      ⟨exKnot_symm 1, exKnot_symm 2, exTerm_symm⟩
      ⟨exKnot_convex 1 (by norm_num), exKnot_convex 2 (by norm_num), exTerm_convex⟩
      ⟨exKnot_rpos 1, exKnot_rpos 2, fun u hu => absurd (Subsingleton.elim u 0) hu⟩ ?_ ?_
    · exact fun x hx hx0 => absurd (exG0_inj hx) hx0
    · intro z hz
      have := congrFun hz 0
      simp [exDense2, mulVec, dotProduct] at this
      funext i; fin_cases i; exact this

/-- Both solvers succeed on the two-step instance and agree for every parameter. -/
example : ∃ (s : DSolver exDense2) (s' : Solver exDense2),
    backward (invLDL ℚ) exDense2 (1/10) = .ok s ∧ Gar.backward (invLDL ℚ) exDense2 (1/10) = .ok s' ∧
      ∀ θ, Dense.forward s θ = Gar.forward s' θ := by
  obtain ⟨s', hs'⟩ := (exDense_serial (invLDL_exact ℚ) (invLDL_complete ℚ)).2
  have hsym : exDense2.stages.Symm := ⟨exKnot_symm 1, exKnot_symm 2, exTerm_symm⟩
  obtain ⟨s, hs⟩ := (C06_succeeds_iff_serial_succeeds (invLDL_exact ℚ) (invLDL_complete ℚ) exDense2
    (1/10) hsym (by simp [exDense2, Chain.horizon]) rfl).2 ⟨s', hs'⟩
  have z : ∀ a, (exKnot a).Gv = 0 := by
    intro a; ext i j; fin_cases i; fin_cases j; rfl
  exact ⟨s, s', hs, hs', fun θ => C06_same_solution_as_serial (invLDL_exact ℚ) (invLDL_exact ℚ) _ _ hsym
    s hs s' hs' θ (noGv_gvZero θ _ ⟨z 1, z 2, rfl⟩)⟩

/-- **C07, disagreement with the code**, concrete: on the one-step instance the dense solver succeeds and its
reported gradient at `θ = 0` is not the derivative of the optimal Lagrangian, while the serial one's is. -/
theorem C07_wrong_gradient {ldl : LDL ℚ} (hl : ldl.Exact) (hc : ldl.Complete) :
    ∃ (s : DSolver exDense) (s' : Solver exDense),
      backward ldl exDense (1/10) = .ok s ∧ Gar.backward ldl exDense (1/10) = .ok s' ∧
      Dense.forward s 0 = Gar.forward s' 0 ∧
      s'.thGrad = thetaGrad 0 exDense.stages (Gar.forward s' 0).2 ∧
      s.thGrad ≠ thetaGrad 0 exDense.stages (Dense.forward s 0).2 := by
  obtain ⟨s', hs'⟩ := (exDense_serial hl hc).1
  have hsym : exDense.stages.Symm := ⟨exKnot_symm 1, exTerm_symm⟩
  obtain ⟨s, hs⟩ := (C06_succeeds_iff_serial_succeeds hl hc exDense
    (1/10) hsym (by simp [exDense, Chain.horizon]) rfl).2 ⟨s', hs'⟩
  have z : ∀ a, (exKnot a).Gv = 0 := by
    intro a; ext i j; fin_cases i; fin_cases j; rfl
  have hG : exDense.stages.NoGv := ⟨z 1, rfl⟩
  refine ⟨s, s', hs, hs', C06_same_solution_as_serial hl hl _ _ hsym s hs s' hs' 0
    (noGv_gvZero 0 _ hG), ?_, ?_⟩
  · have := C05_parameter_gradient_partial hl exDense (1/10) hsym hG s' hs' 0
    simpa only [mulVec_zero, add_zero] using this
  · intro h
    have := C07_terminal_terms_missing hl !![-1] ![5] (exKnot 1) exTerm (1/10) hsym s hs 0
    rw [mulVec_zero, mulVec_zero, add_zero, add_zero, h] at this
    have := congrFun this 0
    simp [exTerm, exDense] at this

/-- `C06_terminal_with_next_state_never_factors` applies to a terminal knot built with the default `nx2 = nx`. -/
example (ldl : LDL ℚ) (hl : ldl.Exact) : terminalSolve ldl (exKnot 3) (1/10) = .error .unchecked :=
  C06_terminal_with_next_state_never_factors hl (exKnot 3) _ (exKnot_symm 3).2 (by decide) (by decide)

end Dense

end Aligator.Gar
