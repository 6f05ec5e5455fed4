import Verif.Model.DenseRiccati
import Verif.Lemmas.Riccati

set_option linter.unusedSectionVars false

namespace Aligator.Gar.Dense

open Matrix

variable {𝕜 : Type*} [Field 𝕜] [DecidableEq 𝕜] {nth : ℕ}

section stack
variable {a b c d m : ℕ}

@[simp] theorem topV_stackV (y : Vec 𝕜 a) (z : Vec 𝕜 b) : topV (stackV y z) = y := by
  funext i; simp [topV, stackV]

@[simp] theorem botV_stackV (y : Vec 𝕜 a) (z : Vec 𝕜 b) : botV (stackV y z) = z := by
  funext i; simp [botV, stackV]

@[simp] theorem topM_stackM (y : Mat 𝕜 a m) (z : Mat 𝕜 b m) : topM (stackM y z) = y := by
  ext i j; simp [topM, stackM]

@[simp] theorem botM_stackM (y : Mat 𝕜 a m) (z : Mat 𝕜 b m) : botM (stackM y z) = z := by
  ext i j; simp [botM, stackM]

theorem stackV_eta (w : Vec 𝕜 (a + b)) : stackV (topV w) (botV w) = w := by
  funext i
  obtain ⟨i, rfl⟩ := finSumFinEquiv.surjective i
  cases i <;> simp [stackV, topV, botV]

theorem stackM_eta (W : Mat 𝕜 (a + b) m) : stackM (topM W) (botM W) = W := by
  ext i j
  obtain ⟨i, rfl⟩ := finSumFinEquiv.surjective i
  cases i
  · rw [stackM, submatrix_apply, Equiv.symm_apply_apply]; rfl
  · rw [stackM, submatrix_apply, Equiv.symm_apply_apply]; rfl

theorem stackV_inj {y y' : Vec 𝕜 a} {z z' : Vec 𝕜 b} :
    stackV y z = stackV y' z' ↔ y = y' ∧ z = z' := by
  constructor
  · intro h
    exact ⟨by simpa using congrArg topV h, by simpa using congrArg botV h⟩
  · rintro ⟨rfl, rfl⟩; rfl

theorem stackM_inj {y y' : Mat 𝕜 a m} {z z' : Mat 𝕜 b m} :
    stackM y z = stackM y' z' ↔ y = y' ∧ z = z' := by
  constructor
  · intro h
    exact ⟨by simpa using congrArg topM h, by simpa using congrArg botM h⟩
  · rintro ⟨rfl, rfl⟩; rfl

theorem stackV_add (y y' : Vec 𝕜 a) (z z' : Vec 𝕜 b) :
    stackV y z + stackV y' z' = stackV (y + y') (z + z') := by
  funext i
  obtain ⟨i, rfl⟩ := finSumFinEquiv.surjective i
  cases i <;> simp [stackV]

theorem stackV_zero : stackV (0 : Vec 𝕜 a) (0 : Vec 𝕜 b) = 0 := by
  funext i
  obtain ⟨i, rfl⟩ := finSumFinEquiv.surjective i
  cases i <;> simp [stackV]

theorem stackM_add (y y' : Mat 𝕜 a m) (z z' : Mat 𝕜 b m) :
    stackM y z + stackM y' z' = stackM (y + y') (z + z') := by
  ext i j
  obtain ⟨i, rfl⟩ := finSumFinEquiv.surjective i
  cases i <;> simp [stackM]

theorem blkRect_mulVec (M11 : Mat 𝕜 a c) (M12 : Mat 𝕜 a d) (M21 : Mat 𝕜 b c) (M22 : Mat 𝕜 b d)
    (y : Vec 𝕜 c) (z : Vec 𝕜 d) :
    blkRect M11 M12 M21 M22 *ᵥ stackV y z = stackV (M11 *ᵥ y + M12 *ᵥ z) (M21 *ᵥ y + M22 *ᵥ z) := by
  unfold blkRect stackV
  rw [submatrix_mulVec_equiv, Function.comp_assoc]
  simp [fromBlocks_mulVec]

theorem blkRect_mul (M11 : Mat 𝕜 a c) (M12 : Mat 𝕜 a d) (M21 : Mat 𝕜 b c) (M22 : Mat 𝕜 b d)
    (Y : Mat 𝕜 c m) (Z : Mat 𝕜 d m) :
    blkRect M11 M12 M21 M22 * stackM Y Z = stackM (M11 * Y + M12 * Z) (M21 * Y + M22 * Z) := by
  unfold blkRect stackM
  rw [submatrix_mul_equiv, fromBlocks_mul_fromRows]

theorem blkRect_transpose (M11 : Mat 𝕜 a c) (M12 : Mat 𝕜 a d) (M21 : Mat 𝕜 b c) (M22 : Mat 𝕜 b d) :
    (blkRect M11 M12 M21 M22)ᵀ = blkRect M11ᵀ M21ᵀ M12ᵀ M22ᵀ := by
  unfold blkRect
  rw [transpose_submatrix, fromBlocks_transpose]

theorem blk2_eq (M11 : Mat 𝕜 a a) (M12 : Mat 𝕜 a b) (M21 : Mat 𝕜 b a) (M22 : Mat 𝕜 b b) :
    blk2 M11 M12 M21 M22 = blkRect M11 M12 M21 M22 := rfl

theorem solveVec_eq (X : Mat 𝕜 (a + b) (a + b)) (y : Vec 𝕜 a) (z : Vec 𝕜 b) :
    solveVec X y z = (topV (X *ᵥ stackV y z), botV (X *ᵥ stackV y z)) := rfl

end stack

section kkt
variable {nu nc nx2 : ℕ} (R : Mat 𝕜 nu nu) (D : Mat 𝕜 nc nu) (B : Mat 𝕜 nx2 nu) (mueq : 𝕜)
  (P : Mat 𝕜 nx2 nx2)

theorem kktMat_isSymm (hR : R.IsSymm) (hP : P.IsSymm) : (kktMat R D B mueq P).IsSymm := by
  unfold kktMat
  apply blk2_isSymm
  · exact blk2_isSymm hR (smul_one_isSymm _)
  · have := blk2_isSymm (M11 := (0 : Mat 𝕜 nx2 nx2)) (M21 := -1) (M22 := P)
      (by rw [Matrix.IsSymm, transpose_zero]) hP
    rwa [transpose_neg, transpose_one] at this

theorem kktMat_mulVec (k : Vec 𝕜 nu) (z : Vec 𝕜 nc) (l y : Vec 𝕜 nx2) :
    kktMat R D B mueq P *ᵥ stackV (stackV k z) (stackV l y) =
      stackV (stackV (R *ᵥ k + Dᵀ *ᵥ z + Bᵀ *ᵥ l) (D *ᵥ k - mueq • z))
        (stackV (B *ᵥ k - y) (P *ᵥ y - l)) := by
  unfold kktMat
  simp only [blk2_eq, blkRect_mulVec, blkRect_transpose, stackV_add, transpose_zero, zero_mulVec,
    neg_mulVec, one_mulVec, smul_mulVec, neg_smul]
  simp only [stackV_inj]
  refine ⟨⟨?_, ?_⟩, ?_, ?_⟩ <;> module

theorem kktMat_mul {m : ℕ} (k : Mat 𝕜 nu m) (z : Mat 𝕜 nc m) (l y : Mat 𝕜 nx2 m) :
    kktMat R D B mueq P * stackM (stackM k z) (stackM l y) =
      stackM (stackM (R * k + Dᵀ * z + Bᵀ * l) (D * k - mueq • z))
        (stackM (B * k - y) (P * y - l)) := by
  unfold kktMat
  simp only [blk2_eq, blkRect_mul, blkRect_transpose, stackM_add, transpose_zero, Matrix.zero_mul,
    Matrix.neg_mul, Matrix.one_mul, Matrix.smul_mul, neg_smul]
  simp only [stackM_inj]
  refine ⟨⟨?_, ?_⟩, ?_, ?_⟩ <;> module

theorem kktMatTerm_isSymm (hR : R.IsSymm) : (kktMatTerm nx2 R D mueq).IsSymm := by
  unfold kktMatTerm
  have := blk2_isSymm (M11 := blk2 R Dᵀ D (-mueq • (1 : Mat 𝕜 nc nc)))
    (M21 := (0 : Mat 𝕜 (nx2 + nx2) _)) (M22 := 0) (blk2_isSymm hR (smul_one_isSymm _))
      (by rw [Matrix.IsSymm, transpose_zero])
  rwa [transpose_zero] at this

theorem kktMatTerm_mulVec (k : Vec 𝕜 nu) (z : Vec 𝕜 nc) (w : Vec 𝕜 (nx2 + nx2)) :
    kktMatTerm nx2 R D mueq *ᵥ stackV (stackV k z) w =
      stackV (stackV (R *ᵥ k + Dᵀ *ᵥ z) (D *ᵥ k - mueq • z)) 0 := by
  unfold kktMatTerm
  simp only [blk2_eq, blkRect_mulVec, zero_mulVec, neg_mulVec, smul_mulVec, one_mulVec, neg_smul]
  simp only [stackV_inj, add_zero]
  refine ⟨⟨trivial, ?_⟩, trivial⟩
  module

theorem kktMatTerm_mul {m : ℕ} (k : Mat 𝕜 nu m) (z : Mat 𝕜 nc m) (w : Mat 𝕜 (nx2 + nx2) m) :
    kktMatTerm nx2 R D mueq * stackM (stackM k z) w =
      stackM (stackM (R * k + Dᵀ * z) (D * k - mueq • z)) 0 := by
  unfold kktMatTerm
  simp only [blk2_eq, blkRect_mul, Matrix.zero_mul, Matrix.neg_mul, Matrix.smul_mul, Matrix.one_mul,
    neg_smul]
  simp only [stackM_inj, add_zero]
  refine ⟨⟨trivial, ?_⟩, trivial⟩
  module

end kkt

/-- The equations satisfied by the factors of one stage. -/
structure DStageEqs {nx nu nc nx2 : ℕ} (m : Knot 𝕜 nth nx nu nc nx2) (vn : Value 𝕜 nth nx2)
    (mueq : 𝕜) (F : DFactor 𝕜 nth nx nu nc nx2) : Prop where
  k1 : m.R *ᵥ F.kff + m.Dᵀ *ᵥ F.zff + m.Bᵀ *ᵥ F.lff = -m.r
  k2 : m.D *ᵥ F.kff - mueq • F.zff = -m.d
  k3 : m.B *ᵥ F.kff - F.yff = -m.f
  k4 : vn.Pxx *ᵥ F.yff - F.lff = -vn.px
  K1 : m.R * F.K + m.Dᵀ * F.Z + m.Bᵀ * F.L = -m.Sᵀ
  K2 : m.D * F.K - mueq • F.Z = -m.C
  K3 : m.B * F.K - F.Y = -m.A
  K4 : vn.Pxx * F.Y - F.L = 0
  T1 : m.R * F.Kth + m.Dᵀ * F.Zth + m.Bᵀ * F.Lth = -m.Gu
  T2 : m.D * F.Kth - mueq • F.Zth = -m.Gv
  T3 : m.B * F.Kth - F.Yth = 0
  T4 : vn.Pxx * F.Yth - F.Lth = -vn.Pxt
  Pxx : F.v.Pxx = m.Q + m.S * F.K + m.Cᵀ * F.Z + m.Aᵀ * F.L
  Pxt : F.v.Pxt = m.Gx + F.Kᵀ * m.Gu + F.Zᵀ * m.Gv + F.Yᵀ * vn.Pxt
  Ptt : F.v.Ptt = m.Gth + F.Kthᵀ * m.Gu + F.Zthᵀ * m.Gv + F.Ythᵀ * vn.Pxt
  px : F.v.px = m.q + m.S *ᵥ F.kff + m.Cᵀ *ᵥ F.zff + m.Aᵀ *ᵥ F.lff
  pt : F.v.pt = m.gamma + m.Guᵀ *ᵥ F.kff + m.Gvᵀ *ᵥ F.zff + vn.Pxtᵀ *ᵥ F.yff
  inj : ∀ (k : Vec 𝕜 nu) (z : Vec 𝕜 nc) (l y : Vec 𝕜 nx2),
    m.R *ᵥ k + m.Dᵀ *ᵥ z + m.Bᵀ *ᵥ l = 0 → m.D *ᵥ k - mueq • z = 0 → m.B *ᵥ k - y = 0 →
    vn.Pxx *ᵥ y - l = 0 → k = 0 ∧ z = 0 ∧ l = 0 ∧ y = 0

/-- The equations satisfied by the factors of the terminal knot. -/
structure DTermEqs {nx nu nc nx2 : ℕ} (m : Knot 𝕜 nth nx nu nc nx2)
    (mueq : 𝕜) (F : DFactor 𝕜 nth nx nu nc nx2) : Prop where
  k1 : m.R *ᵥ F.kff + m.Dᵀ *ᵥ F.zff = -m.r
  k2 : m.D *ᵥ F.kff - mueq • F.zff = -m.d
  K1 : m.R * F.K + m.Dᵀ * F.Z = -m.Sᵀ
  K2 : m.D * F.K - mueq • F.Z = -m.C
  T1 : m.R * F.Kth + m.Dᵀ * F.Zth = -m.Gu
  T2 : m.D * F.Kth - mueq • F.Zth = -m.Gv
  Pxx : F.v.Pxx = m.Q + m.S * F.K + m.Cᵀ * F.Z
  Pxt : F.v.Pxt = m.Gx + F.Kᵀ * m.Gu + F.Zᵀ * m.Gv
  Ptt : F.v.Ptt = m.Gth + m.Guᵀ * F.Kth + m.Gvᵀ * F.Zth
  px : F.v.px = m.q + m.S *ᵥ F.kff + m.Cᵀ *ᵥ F.zff
  pt : F.v.pt = m.gamma + m.Guᵀ *ᵥ F.kff + m.Gvᵀ *ᵥ F.zff
  inj : ∀ (k : Vec 𝕜 nu) (z : Vec 𝕜 nc),
    m.R *ᵥ k + m.Dᵀ *ᵥ z = 0 → m.D *ᵥ k - mueq • z = 0 → k = 0 ∧ z = 0

section stage
variable {nx nu nc nx2 : ℕ} {m : Knot 𝕜 nth nx nu nc nx2} {vn : Value 𝕜 nth nx2} {mueq : 𝕜}
  {F : DFactor 𝕜 nth nx nu nc nx2}

theorem stageKernelSolve_eqs {ldl : LDL 𝕜} (hl : ldl.Exact) (hV : vn.Pxx.IsSymm) (hR : m.R.IsSymm)
    (h : stageKernelSolve ldl m vn mueq = .ok F) : DStageEqs m vn mueq F := by
  unfold stageKernelSolve at h
  split at h
  · cases h
  · rename_i X hX
    have hM := hl _ _ _ hX
    rw [symLower_of_isSymm (kktMat_isSymm _ _ _ _ _ hR hV)] at hM
    have sv : ∀ y1 y2 y3 y4, _ := fun (y1 : Vec 𝕜 nu) (y2 : Vec 𝕜 nc) (y3 y4 : Vec 𝕜 nx2) => by
      have e : kktMat m.R m.D m.B mueq vn.Pxx *ᵥ (X *ᵥ stackV (stackV y1 y2) (stackV y3 y4)) =
          stackV (stackV y1 y2) (stackV y3 y4) := by rw [mulVec_mulVec, hM, one_mulVec]
      rw [← stackV_eta (X *ᵥ stackV (stackV y1 y2) (stackV y3 y4)),
        ← stackV_eta (topV (X *ᵥ _)), ← stackV_eta (botV (X *ᵥ _)), kktMat_mulVec] at e
      simp only [stackV_inj] at e
      exact e
    have sm : ∀ (l : ℕ) y1 y2 y3 y4, _ := fun (l : ℕ) (y1 : Mat 𝕜 nu l) (y2 : Mat 𝕜 nc l)
        (y3 y4 : Mat 𝕜 nx2 l) => by
      have e : kktMat m.R m.D m.B mueq vn.Pxx * (X * stackM (stackM y1 y2) (stackM y3 y4)) =
          stackM (stackM y1 y2) (stackM y3 y4) := by rw [← Matrix.mul_assoc, hM, Matrix.one_mul]
      rw [← stackM_eta (X * stackM (stackM y1 y2) (stackM y3 y4)),
        ← stackM_eta (topM (X * _)), ← stackM_eta (botM (X * _)), kktMat_mul] at e
      simp only [stackM_inj] at e
      exact e
    injection h with h
    subst h
    obtain ⟨⟨k1, k2⟩, k3, k4⟩ := sv (-m.r) (-m.d) (-m.f) (-vn.px)
    obtain ⟨⟨K1, K2⟩, K3, K4⟩ := sm _ (-m.Sᵀ) (-m.C) (-m.A) 0
    obtain ⟨⟨T1, T2⟩, T3, T4⟩ := sm _ (-m.Gu) (-m.Gv) 0 (-vn.Pxt)
    refine ⟨k1, k2, k3, k4, K1, K2, K3, K4, T1, T2, T3, T4, rfl, rfl, rfl, rfl, rfl, ?_⟩
    intro k z l y h1 h2 h3 h4
    have e := kktMat_mulVec m.R m.D m.B mueq vn.Pxx k z l y
    rw [h1, h2, h3, h4, stackV_zero, stackV_zero, stackV_zero] at e
    have e' := congrArg (fun w => X *ᵥ w) e
    simp only [mulVec_mulVec, mul_eq_one_comm.1 hM, one_mulVec, mulVec_zero] at e'
    rw [← stackV_zero, ← stackV_zero, ← stackV_zero] at e'
    simp only [stackV_inj] at e'
    tauto

theorem terminalSolve_eqs {ldl : LDL 𝕜} (hl : ldl.Exact) (hR : m.R.IsSymm)
    (h : terminalSolve ldl m mueq = .ok F) : DTermEqs m mueq F := by
  unfold terminalSolve at h
  dsimp only at h
  split at h
  · rename_i h0
    obtain ⟨rfl, rfl⟩ := h0
    injection h with h
    subst h
    refine ⟨?_, ?_, ?_, ?_, ?_, ?_, rfl, rfl, rfl, rfl, rfl,
      fun k z _ _ => ⟨Subsingleton.elim _ _, Subsingleton.elim _ _⟩⟩
    · funext i; exact i.elim0
    · funext i; exact i.elim0
    · ext i; exact i.elim0
    · ext i; exact i.elim0
    · ext i; exact i.elim0
    · ext i; exact i.elim0
  split at h
  · cases h
  · rename_i X hX
    have hM := hl _ _ _ hX
    rw [symLower_of_isSymm (kktMatTerm_isSymm _ _ _ hR)] at hM
    have sv : ∀ y1 y2 y3, _ := fun (y1 : Vec 𝕜 nu) (y2 : Vec 𝕜 nc) (y3 : Vec 𝕜 (nx2 + nx2)) => by
      have e : kktMatTerm nx2 m.R m.D mueq *ᵥ (X *ᵥ stackV (stackV y1 y2) y3) =
          stackV (stackV y1 y2) y3 := by rw [mulVec_mulVec, hM, one_mulVec]
      rw [← stackV_eta (X *ᵥ stackV (stackV y1 y2) y3),
        ← stackV_eta (topV (X *ᵥ _)), kktMatTerm_mulVec] at e
      simp only [stackV_inj] at e
      exact e
    have sm : ∀ (l : ℕ) y1 y2 y3, _ := fun (l : ℕ) (y1 : Mat 𝕜 nu l) (y2 : Mat 𝕜 nc l)
        (y3 : Mat 𝕜 (nx2 + nx2) l) => by
      have e : kktMatTerm nx2 m.R m.D mueq * (X * stackM (stackM y1 y2) y3) =
          stackM (stackM y1 y2) y3 := by rw [← Matrix.mul_assoc, hM, Matrix.one_mul]
      rw [← stackM_eta (X * stackM (stackM y1 y2) y3),
        ← stackM_eta (topM (X * _)), kktMatTerm_mul] at e
      simp only [stackM_inj] at e
      exact e
    injection h with h
    subst h
    obtain ⟨⟨k1, k2⟩, -⟩ := sv (-m.r) (-m.d) 0
    obtain ⟨⟨K1, K2⟩, -⟩ := sm _ (-m.Sᵀ) (-m.C) 0
    obtain ⟨⟨T1, T2⟩, -⟩ := sm _ (-m.Gu) (-m.Gv) 0
    refine ⟨k1, k2, K1, K2, T1, T2, rfl, rfl, rfl, rfl, rfl, ?_⟩
    intro k z h1 h2
    have e := kktMatTerm_mulVec m.R m.D mueq k z (0 : Vec 𝕜 (nx2 + nx2))
    rw [h1, h2, stackV_zero, stackV_zero] at e
    have e' := congrArg (fun w => X *ᵥ w) e
    simp only [mulVec_mulVec, mul_eq_one_comm.1 hM, one_mulVec, mulVec_zero] at e'
    have a1 := congrArg (fun w => topV (topV w)) e'
    have a2 := congrArg (fun w => botV (topV w)) e'
    simp only [topV_stackV, botV_stackV] at a1 a2
    exact ⟨a1, a2⟩

/-- Reciprocity of a symmetric system: `Xᵀ (M Y) = (M X)ᵀ Y` written out in blocks. -/
theorem recip {p q : ℕ} {R : Mat 𝕜 nu nu} {D : Mat 𝕜 nc nu} {B : Mat 𝕜 nx2 nu} {P : Mat 𝕜 nx2 nx2}
    (hR : R.IsSymm) (hP : P.IsSymm)
    (k : Mat 𝕜 nu p) (z : Mat 𝕜 nc p) (l y : Mat 𝕜 nx2 p)
    (k' : Mat 𝕜 nu q) (z' : Mat 𝕜 nc q) (l' y' : Mat 𝕜 nx2 q) :
    kᵀ * (R * k' + Dᵀ * z' + Bᵀ * l') + zᵀ * (D * k' - mueq • z') + lᵀ * (B * k' - y') +
      yᵀ * (P * y' - l') =
    (R * k + Dᵀ * z + Bᵀ * l)ᵀ * k' + (D * k - mueq • z)ᵀ * z' + (B * k - y)ᵀ * l' +
      (P * y - l)ᵀ * y' := by
  simp only [transpose_add, transpose_sub, transpose_mul, transpose_transpose, transpose_smul, hR.eq,
    hP.eq, Matrix.mul_add, Matrix.add_mul, Matrix.mul_sub, Matrix.sub_mul, Matrix.mul_assoc,
    Matrix.mul_smul, Matrix.smul_mul]
  module

theorem recipT {p q : ℕ} {R : Mat 𝕜 nu nu} {D : Mat 𝕜 nc nu} (hR : R.IsSymm)
    (k : Mat 𝕜 nu p) (z : Mat 𝕜 nc p) (k' : Mat 𝕜 nu q) (z' : Mat 𝕜 nc q) :
    kᵀ * (R * k' + Dᵀ * z') + zᵀ * (D * k' - mueq • z') =
    (R * k + Dᵀ * z)ᵀ * k' + (D * k - mueq • z)ᵀ * z' := by
  simp only [transpose_add, transpose_sub, transpose_mul, transpose_transpose, transpose_smul, hR.eq,
    Matrix.mul_add, Matrix.add_mul, Matrix.mul_sub, Matrix.sub_mul, Matrix.mul_assoc,
    Matrix.mul_smul, Matrix.smul_mul]
  module

theorem DStageEqs.P_symm (E : DStageEqs m vn mueq F) (hV : vn.Pxx.IsSymm) (hQ : m.Q.IsSymm)
    (hR : m.R.IsSymm) : F.v.Pxx.IsSymm := by
  have h := recip (mueq := mueq) (D := m.D) (B := m.B) hR hV F.K F.Z F.L F.Y F.K F.Z F.L F.Y
  rw [E.K1, E.K2, E.K3, E.K4] at h
  simp only [transpose_neg, transpose_zero, transpose_transpose, Matrix.mul_neg, Matrix.neg_mul,
    Matrix.mul_zero, Matrix.zero_mul, add_zero] at h
  rw [Matrix.IsSymm, E.Pxx]
  simp only [transpose_add, transpose_mul, transpose_transpose, hQ.eq]
  linear_combination (norm := module) -h

theorem DTermEqs.P_symm (E : DTermEqs m mueq F) (hQ : m.Q.IsSymm)
    (hR : m.R.IsSymm) : F.v.Pxx.IsSymm := by
  have h := recipT (mueq := mueq) (D := m.D) hR F.K F.Z F.K F.Z
  rw [E.K1, E.K2] at h
  simp only [transpose_neg, transpose_transpose, Matrix.mul_neg, Matrix.neg_mul] at h
  rw [Matrix.IsSymm, E.Pxx]
  simp only [transpose_add, transpose_mul, transpose_transpose, hQ.eq]
  linear_combination (norm := module) -h

/-- The cross term computed by the code is the derivative of the costate with respect to the parameter. -/
theorem DStageEqs.cross (E : DStageEqs m vn mueq F) (hV : vn.Pxx.IsSymm) (hR : m.R.IsSymm) :
    F.Kᵀ * m.Gu + F.Zᵀ * m.Gv + F.Yᵀ * vn.Pxt =
      m.S * F.Kth + m.Cᵀ * F.Zth + m.Aᵀ * F.Lth := by
  have h := recip (mueq := mueq) (D := m.D) (B := m.B) hR hV F.K F.Z F.L F.Y F.Kth F.Zth F.Lth F.Yth
  rw [E.K1, E.K2, E.K3, E.K4, E.T1, E.T2, E.T3, E.T4] at h
  simp only [transpose_neg, transpose_zero, transpose_transpose, Matrix.mul_neg, Matrix.neg_mul,
    Matrix.mul_zero, Matrix.zero_mul, add_zero] at h
  linear_combination (norm := module) -h

theorem DTermEqs.cross (E : DTermEqs m mueq F) (hR : m.R.IsSymm) :
    F.Kᵀ * m.Gu + F.Zᵀ * m.Gv = m.S * F.Kth + m.Cᵀ * F.Zth := by
  have h := recipT (mueq := mueq) (D := m.D) hR F.K F.Z F.Kth F.Zth
  rw [E.K1, E.K2, E.T1, E.T2] at h
  simp only [transpose_neg, transpose_transpose, Matrix.mul_neg, Matrix.neg_mul] at h
  linear_combination (norm := module) -h

theorem DStageEqs.tt (E : DStageEqs m vn mueq F) (hV : vn.Pxx.IsSymm) (hR : m.R.IsSymm) :
    F.Kthᵀ * m.Gu + F.Zthᵀ * m.Gv + F.Ythᵀ * vn.Pxt =
      m.Guᵀ * F.Kth + m.Gvᵀ * F.Zth + vn.Pxtᵀ * F.Yth := by
  have h := recip (mueq := mueq) (D := m.D) (B := m.B) hR hV F.Kth F.Zth F.Lth F.Yth F.Kth F.Zth
    F.Lth F.Yth
  rw [E.T1, E.T2, E.T3, E.T4] at h
  simp only [transpose_neg, transpose_zero, Matrix.mul_neg, Matrix.neg_mul,
    Matrix.mul_zero, Matrix.zero_mul, add_zero] at h
  linear_combination (norm := module) -h

end stage

/-- All factors of a chain satisfy their defining equations. -/
def DFacsOK (mueq : 𝕜) : {nx : ℕ} → (ch : Chain 𝕜 nth nx) → DFacs ch → Prop
  | _, .last k, .last F => DTermEqs k mueq F
  | _, .cons k tl, .cons F Ft => Ft.v.Pxx.IsSymm ∧ DStageEqs k Ft.v mueq F ∧ DFacsOK mueq tl Ft

theorem backwardStages_ok {ldl : LDL 𝕜} (hl : ldl.Exact) {mueq : 𝕜} {nx : ℕ} (ch : Chain 𝕜 nth nx)
    (hs : ch.Symm) (F : DFacs ch) (h : backwardStages ldl mueq ch = .ok F) :
    DFacsOK mueq ch F ∧ F.v.Pxx.IsSymm := by
  induction ch with
  | last k =>
    unfold backwardStages at h
    split at h
    · cases h
    · rename_i F' hF'
      injection h with h
      subst h
      have E := terminalSolve_eqs hl hs.2 hF'
      exact ⟨E, E.P_symm hs.1 hs.2⟩
  | cons k tl ih =>
    unfold backwardStages at h
    split at h
    · cases h
    · rename_i Ft hFt
      obtain ⟨hok, hsym⟩ := ih hs.2 Ft hFt
      split at h
      · cases h
      · rename_i F' hF'
        injection h with h
        subst h
        have E := stageKernelSolve_eqs hl hsym hs.1.2 hF'
        exact ⟨⟨hsym, E, hok⟩, E.P_symm hsym hs.1.1 hs.1.2⟩

@[simp] theorem forwardStages_x0 (θ : Vec 𝕜 nth) {nx : ℕ} {ch : Chain 𝕜 nth nx} (F : DFacs ch)
    (x : Vec 𝕜 nx) : (forwardStages θ F x).x0 = x := by
  cases F <;> rfl

theorem forwardStages_tailKKT {mueq : 𝕜} (θ : Vec 𝕜 nth) {nx : ℕ} (ch : Chain 𝕜 nth nx)
    (hs : ch.Symm) (F : DFacs ch) (hF : DFacsOK mueq ch F) (x : Vec 𝕜 nx) :
    TailKKT mueq θ ch (F.v.px + F.v.Pxx *ᵥ x + F.v.Pxt *ᵥ θ) (forwardStages θ F x) := by
  induction ch with
  | last k =>
    cases F with
    | last F =>
      have E : DTermEqs k mueq F := hF
      have hc := congrArg (fun M => M *ᵥ θ) (E.cross hs.2)
      have h1 := E.k1
      have h2 := congrArg (fun M => M *ᵥ x) E.K1
      have h3 := congrArg (fun M => M *ᵥ θ) E.T1
      have g1 := E.k2
      have g2 := congrArg (fun M => M *ᵥ x) E.K2
      have g3 := congrArg (fun M => M *ᵥ θ) E.T2
      simp only [forwardStages, TailKKT, gradX, gradU, gradV, DFacs.v, E.px, E.Pxx, E.Pxt]
      simp only [neg_mulVec, add_mulVec, sub_mulVec, smul_mulVec, mulVec_add, smul_add,
        ← mulVec_mulVec] at hc h1 h2 h3 g1 g2 g3 ⊢
      refine ⟨?_, ?_, ?_⟩
      · linear_combination (norm := module) -hc
      · linear_combination (norm := module) h1 + h2 + h3
      · linear_combination (norm := module) g1 + g2 + g3
  | cons k tl ih =>
    cases F with
    | cons F Ft =>
      obtain ⟨hV, E, hFt⟩ := hF
      have hc := congrArg (fun M => M *ᵥ θ) (E.cross hV hs.1.2)
      have h1 := E.k1
      have h2 := congrArg (fun M => M *ᵥ x) E.K1
      have h3 := congrArg (fun M => M *ᵥ θ) E.T1
      have g1 := E.k2
      have g2 := congrArg (fun M => M *ᵥ x) E.K2
      have g3 := congrArg (fun M => M *ᵥ θ) E.T2
      have e1 := E.k3
      have e2 := congrArg (fun M => M *ᵥ x) E.K3
      have e3 := congrArg (fun M => M *ᵥ θ) E.T3
      have f1 := E.k4
      have f2 := congrArg (fun M => M *ᵥ x) E.K4
      have f3 := congrArg (fun M => M *ᵥ θ) E.T4
      have hi := ih hs.2 Ft hFt (F.yff + F.Y *ᵥ x + F.Yth *ᵥ θ)
      have hl : Ft.v.px + Ft.v.Pxx *ᵥ (F.yff + F.Y *ᵥ x + F.Yth *ᵥ θ) + Ft.v.Pxt *ᵥ θ =
          F.lff + F.L *ᵥ x + F.Lth *ᵥ θ := by
        simp only [neg_mulVec, zero_mulVec, sub_mulVec, mulVec_add, ← mulVec_mulVec] at f1 f2 f3 ⊢
        linear_combination (norm := module) f1 + f2 + f3
      rw [hl] at hi
      simp only [forwardStages, TailKKT, forwardStages_x0]
      refine ⟨?_, ?_, ?_, ?_, hi⟩
      · rw [show (DFacs.cons (k := k) F Ft).v = F.v from rfl]
        simp only [gradX, E.px, E.Pxx, E.Pxt]
        simp only [add_mulVec, mulVec_add, ← mulVec_mulVec] at hc ⊢
        linear_combination (norm := module) -hc
      · simp only [gradU]
        simp only [neg_mulVec, add_mulVec, mulVec_add, ← mulVec_mulVec] at h1 h2 h3 ⊢
        linear_combination (norm := module) h1 + h2 + h3
      · simp only [gradV]
        simp only [neg_mulVec, sub_mulVec, smul_mulVec, mulVec_add, smul_add,
          ← mulVec_mulVec] at g1 g2 g3 ⊢
        linear_combination (norm := module) g1 + g2 + g3
      · simp only [neg_mulVec, zero_mulVec, sub_mulVec, mulVec_add, ← mulVec_mulVec] at e1 e2 e3 ⊢
        linear_combination (norm := module) e1 + e2 + e3

theorem dtailKKT_unique {mueq : 𝕜} (θ : Vec 𝕜 nth) {nx : ℕ} (ch : Chain 𝕜 nth nx)
    (hs : ch.Symm) (F : DFacs ch) (hF : DFacsOK mueq ch F) (p : Vec 𝕜 nx)
    (t : Traj ch) (h : TailKKT mueq θ ch p t) :
    p = F.v.px + F.v.Pxx *ᵥ t.x0 + F.v.Pxt *ᵥ θ ∧ t = forwardStages θ F t.x0 := by
  induction ch with
  | last k =>
    cases F with
    | last F =>
      cases t with
      | last n =>
        obtain ⟨x, u, v⟩ := n
        have hf := forwardStages_tailKKT θ (.last k) hs (.last F) hF x
        have E : DTermEqs k mueq F := hF
        simp only [forwardStages, TailKKT, gradX, gradU, gradV] at h hf
        obtain ⟨h1, h2, h3⟩ := h
        obtain ⟨f1, f2, f3⟩ := hf
        obtain ⟨hu, hv⟩ := E.inj (u - (F.kff + F.K *ᵥ x + F.Kth *ᵥ θ))
          (v - (F.zff + F.Z *ᵥ x + F.Zth *ᵥ θ))
          (by simp only [mulVec_sub]; linear_combination (norm := module) h2 - f2)
          (by simp only [mulVec_sub, smul_sub]; linear_combination (norm := module) h3 - f3)
        rw [sub_eq_zero] at hu hv
        subst hu hv
        exact ⟨h1.symm.trans f1, rfl⟩
  | cons k tl ih =>
    cases F with
    | cons F Ft =>
      cases t with
      | cons n lam t =>
        obtain ⟨x, u, v⟩ := n
        have hf := forwardStages_tailKKT θ (.cons k tl) hs (.cons F Ft) hF x
        obtain ⟨hV, E, hFt⟩ := hF
        simp only [forwardStages, TailKKT, gradX, gradU, gradV] at h hf
        obtain ⟨h1, h2, h3, h4, h5⟩ := h
        obtain ⟨f1, f2, f3, f4, f5⟩ := hf
        obtain ⟨hl, ht⟩ := ih hs.2 Ft hFt lam t h5
        obtain ⟨hl', -⟩ := ih hs.2 Ft hFt _ _ f5
        rw [forwardStages_x0] at f4 hl'
        obtain ⟨hu, hv, hlam, hx⟩ := E.inj (u - (F.kff + F.K *ᵥ x + F.Kth *ᵥ θ))
          (v - (F.zff + F.Z *ᵥ x + F.Zth *ᵥ θ)) (lam - (F.lff + F.L *ᵥ x + F.Lth *ᵥ θ))
          (t.x0 - (F.yff + F.Y *ᵥ x + F.Yth *ᵥ θ))
          (by simp only [mulVec_sub]; linear_combination (norm := module) h2 - f2)
          (by simp only [mulVec_sub, smul_sub]; linear_combination (norm := module) h3 - f3)
          (by simp only [mulVec_sub]; linear_combination (norm := module) h4 - f4)
          (by simp only [mulVec_sub]; linear_combination (norm := module) hl' - hl)
        rw [sub_eq_zero] at hu hv hlam hx
        subst hu hv hlam
        refine ⟨h1.symm.trans f1, ?_⟩
        simp only [Traj.x0, forwardStages]
        rw [← hx, ← ht]

/-- What the recursion of the code forgets: `pt + Ptt θ` of every knot but the first. -/
def laterTerms (θ : Vec 𝕜 nth) : {nx : ℕ} → {ch : Chain 𝕜 nth nx} → DFacs ch → Vec 𝕜 nth
  | _, _, .last F => F.v.pt + F.v.Ptt *ᵥ θ
  | _, _, .cons F Ft => F.v.pt + F.v.Ptt *ᵥ θ + laterTerms θ Ft

theorem forwardStages_thetaGrad {mueq : 𝕜} (θ : Vec 𝕜 nth) {nx : ℕ} (ch : Chain 𝕜 nth nx)
    (hs : ch.Symm) (F : DFacs ch) (hF : DFacsOK mueq ch F) (x : Vec 𝕜 nx) :
    laterTerms θ F + F.v.Pxtᵀ *ᵥ x = thetaGrad θ ch (forwardStages θ F x) := by
  induction ch with
  | last k =>
    cases F with
    | last F =>
      have E : DTermEqs k mueq F := hF
      simp only [DFacs.v, laterTerms, forwardStages, thetaGrad, E.pt, E.Pxt, E.Ptt,
        transpose_add, transpose_mul, transpose_transpose, add_mulVec, mulVec_add,
        ← mulVec_mulVec]
      module
  | cons k tl ih =>
    cases F with
    | cons F Ft =>
      obtain ⟨hV, E, hFt⟩ := hF
      simp only [DFacs.v, laterTerms, forwardStages, thetaGrad]
      rw [← ih hs.2 Ft hFt]
      have htt := congrArg (fun M => M *ᵥ θ) (E.tt hV hs.1.2)
      simp only [E.pt, E.Pxt, E.Ptt, transpose_add, transpose_mul, transpose_transpose, add_mulVec,
        mulVec_add, ← mulVec_mulVec] at htt ⊢
      linear_combination (norm := module) htt

end Aligator.Gar.Dense
