import Verif.Model.Riccati
import Verif.Spec.Lqr
import Mathlib.Tactic.Abel
import Mathlib.Tactic.Module
import Mathlib.Tactic.NoncommRing
import Mathlib.Tactic.LinearCombination

set_option linter.unusedSectionVars false

namespace Aligator.Gar

open Matrix

variable {𝕜 : Type*} [Field 𝕜] [DecidableEq 𝕜] {nth : ℕ}

/-- What the Riccati proofs assume about the symmetric solver: a successful factorisation yields an exact
inverse of the symmetric matrix given by the lower triangle. -/
def LDL.Exact (ldl : LDL 𝕜) : Prop :=
  ∀ n (M X : Mat 𝕜 n n), ldl.inv? n M = some X → symLower M * X = 1

/-- The symmetric solver succeeds on every invertible matrix. -/
def LDL.Complete (ldl : LDL 𝕜) : Prop :=
  ∀ n (M : Mat 𝕜 n n), IsUnit (symLower M).det → (ldl.inv? n M).isSome

theorem symLower_of_isSymm {n : ℕ} {M : Mat 𝕜 n n} (h : M.IsSymm) : symLower M = M := by
  ext i j
  simp only [symLower]
  split
  · rfl
  · exact h.apply i j

theorem symLower_isSymm {n : ℕ} (M : Mat 𝕜 n n) : (symLower M).IsSymm := by
  ext i j
  simp only [symLower, transpose_apply]
  by_cases h : i ≤ j <;> by_cases h' : j ≤ i
  · have : i = j := le_antisymm h h'
    subst this; simp
  · simp [h, h']
  · simp [h, h']
  · exact absurd (le_of_not_ge h) h'

theorem blk2_isSymm {a b : ℕ} {M11 : Mat 𝕜 a a} {M21 : Mat 𝕜 b a} {M22 : Mat 𝕜 b b}
    (h1 : M11.IsSymm) (h2 : M22.IsSymm) : (blk2 M11 M21ᵀ M21 M22).IsSymm := by
  unfold blk2
  rw [Matrix.IsSymm, transpose_submatrix, fromBlocks_transpose, h1.eq, h2.eq, transpose_transpose]

section solve
variable {a b m : ℕ} {M11 : Mat 𝕜 a a} {M12 : Mat 𝕜 a b} {M21 : Mat 𝕜 b a} {M22 : Mat 𝕜 b b}

theorem blk2_mulVec (y : Vec 𝕜 a) (z : Vec 𝕜 b) :
    blk2 M11 M12 M21 M22 *ᵥ (Sum.elim y z ∘ finSumFinEquiv.symm) =
      Sum.elim (M11 *ᵥ y + M12 *ᵥ z) (M21 *ᵥ y + M22 *ᵥ z) ∘ finSumFinEquiv.symm := by
  unfold blk2
  rw [submatrix_mulVec_equiv]
  rw [Function.comp_assoc]
  simp [fromBlocks_mulVec]

theorem blk2_mul (Y : Mat 𝕜 a m) (Z : Mat 𝕜 b m) :
    blk2 M11 M12 M21 M22 * (fromRows Y Z).submatrix finSumFinEquiv.symm id =
      (fromRows (M11 * Y + M12 * Z) (M21 * Y + M22 * Z)).submatrix finSumFinEquiv.symm id := by
  unfold blk2
  rw [submatrix_mul_equiv, fromBlocks_mul_fromRows]

theorem solveVec_join (X : Mat 𝕜 (a + b) (a + b)) (y : Vec 𝕜 a) (z : Vec 𝕜 b) :
    Sum.elim (solveVec X y z).1 (solveVec X y z).2 ∘ finSumFinEquiv.symm =
      X *ᵥ (Sum.elim y z ∘ finSumFinEquiv.symm) := by
  funext i
  obtain ⟨i, rfl⟩ := finSumFinEquiv.surjective i
  cases i <;> simp only [solveVec, Function.comp_apply, Equiv.symm_apply_apply, Sum.elim_inl,
    Sum.elim_inr]

theorem solveMat_join (X : Mat 𝕜 (a + b) (a + b)) (Y : Mat 𝕜 a m) (Z : Mat 𝕜 b m) :
    (fromRows (solveMat X Y Z).1 (solveMat X Y Z).2).submatrix finSumFinEquiv.symm id =
      X * (fromRows Y Z).submatrix finSumFinEquiv.symm id := by
  ext i j
  obtain ⟨i, rfl⟩ := finSumFinEquiv.surjective i
  cases i
  · rw [submatrix_apply, Equiv.symm_apply_apply]; rfl
  · rw [submatrix_apply, Equiv.symm_apply_apply]; rfl

theorem sumElim_comp_inj {y y' : Vec 𝕜 a} {z z' : Vec 𝕜 b}
    (h : Sum.elim y z ∘ finSumFinEquiv.symm = Sum.elim y' z' ∘ finSumFinEquiv.symm) :
    y = y' ∧ z = z' := by
  constructor
  · funext i
    have := congrFun h (finSumFinEquiv (Sum.inl i))
    simpa only [Function.comp_apply, Equiv.symm_apply_apply, Sum.elim_inl] using this
  · funext i
    have := congrFun h (finSumFinEquiv (Sum.inr i))
    simpa only [Function.comp_apply, Equiv.symm_apply_apply, Sum.elim_inr] using this

theorem fromRows_sub_inj {y y' : Mat 𝕜 a m} {z z' : Mat 𝕜 b m}
    (h : (fromRows y z).submatrix finSumFinEquiv.symm id =
      (fromRows y' z').submatrix finSumFinEquiv.symm id) :
    y = y' ∧ z = z' := by
  constructor
  · ext i j
    have := congrFun (congrFun h (finSumFinEquiv (Sum.inl i))) j
    simpa only [submatrix_apply, Equiv.symm_apply_apply, fromRows_apply_inl, id] using this
  · ext i j
    have := congrFun (congrFun h (finSumFinEquiv (Sum.inr i))) j
    simpa only [submatrix_apply, Equiv.symm_apply_apply, fromRows_apply_inr, id] using this

theorem solveVec_spec {X : Mat 𝕜 (a + b) (a + b)} (h : blk2 M11 M12 M21 M22 * X = 1)
    (y : Vec 𝕜 a) (z : Vec 𝕜 b) :
    M11 *ᵥ (solveVec X y z).1 + M12 *ᵥ (solveVec X y z).2 = y ∧
    M21 *ᵥ (solveVec X y z).1 + M22 *ᵥ (solveVec X y z).2 = z := by
  apply sumElim_comp_inj
  rw [← blk2_mulVec, solveVec_join, mulVec_mulVec, h, one_mulVec]

theorem solveMat_spec {X : Mat 𝕜 (a + b) (a + b)} (h : blk2 M11 M12 M21 M22 * X = 1)
    (Y : Mat 𝕜 a m) (Z : Mat 𝕜 b m) :
    M11 * (solveMat X Y Z).1 + M12 * (solveMat X Y Z).2 = Y ∧
    M21 * (solveMat X Y Z).1 + M22 * (solveMat X Y Z).2 = Z := by
  apply fromRows_sub_inj
  rw [← blk2_mul, solveMat_join, ← Matrix.mul_assoc, h, Matrix.one_mul]

theorem blk2_inj {X : Mat 𝕜 (a + b) (a + b)} (h : blk2 M11 M12 M21 M22 * X = 1)
    {y y' : Vec 𝕜 a} {z z' : Vec 𝕜 b}
    (h1 : M11 *ᵥ y + M12 *ᵥ z = M11 *ᵥ y' + M12 *ᵥ z')
    (h2 : M21 *ᵥ y + M22 *ᵥ z = M21 *ᵥ y' + M22 *ᵥ z') : y = y' ∧ z = z' := by
  have h' := mul_eq_one_comm.1 h
  apply sumElim_comp_inj
  have e := congrArg (fun w => X *ᵥ w)
    (show blk2 M11 M12 M21 M22 *ᵥ (Sum.elim y z ∘ finSumFinEquiv.symm) =
      blk2 M11 M12 M21 M22 *ᵥ (Sum.elim y' z' ∘ finSumFinEquiv.symm) by
        rw [blk2_mulVec, blk2_mulVec, h1, h2])
  simpa only [mulVec_mulVec, h', one_mulVec] using e

end solve

/-- The equations satisfied by the gains of one stage. -/
structure StageEqs {nx nu nc nx2 : ℕ} (m : Knot 𝕜 nth nx nu nc nx2) (vn : CostToGo 𝕜 nth nx2)
    (mueq : 𝕜) (F : Factor 𝕜 nth nx nu nc nx2) : Prop where
  k1 : (m.R + m.Bᵀ * vn.Vxx * m.B) *ᵥ F.kff + m.Dᵀ *ᵥ F.zff =
    -(m.r + m.Bᵀ *ᵥ (vn.vx + vn.Vxx *ᵥ m.f))
  k2 : m.D *ᵥ F.kff + (-mueq • (1 : Mat 𝕜 nc nc)) *ᵥ F.zff = -m.d
  K1 : (m.R + m.Bᵀ * vn.Vxx * m.B) * F.K + m.Dᵀ * F.Z = -(m.S + m.Aᵀ * vn.Vxx * m.B)ᵀ
  K2 : m.D * F.K + (-mueq • (1 : Mat 𝕜 nc nc)) * F.Z = -m.C
  T1 : (m.R + m.Bᵀ * vn.Vxx * m.B) * F.Kth + m.Dᵀ * F.Zth = -(m.Gu + m.Bᵀ * vn.Vxt)
  T2 : m.D * F.Kth + (-mueq • (1 : Mat 𝕜 nc nc)) * F.Zth = -m.Gv
  yff : F.yff = m.f + m.B *ᵥ F.kff
  Aff : F.Aff = m.A + m.B * F.K
  Yth : F.Yth = m.B * F.Kth
  Vxx : F.vm.Vxx = m.Q + m.Aᵀ * vn.Vxx * m.A + (m.S + m.Aᵀ * vn.Vxx * m.B) * F.K + m.Cᵀ * F.Z
  vx : F.vm.vx = m.q + m.Aᵀ *ᵥ (vn.vx + vn.Vxx *ᵥ m.f) + (m.S + m.Aᵀ * vn.Vxx * m.B) *ᵥ F.kff +
    m.Cᵀ *ᵥ F.zff
  Vxt : F.vm.Vxt = m.Gx + F.Kᵀ * m.Gu + F.Affᵀ * vn.Vxt
  Vtt : F.vm.Vtt = m.Gth + vn.Vtt + m.Guᵀ * F.Kth + vn.Vxtᵀ * F.Yth
  vt : F.vm.vt = m.gamma + vn.vt + m.Guᵀ *ᵥ F.kff + vn.Vxtᵀ *ᵥ F.yff
  inj : ∀ (y y' : Vec 𝕜 nu) (z z' : Vec 𝕜 nc),
    (m.R + m.Bᵀ * vn.Vxx * m.B) *ᵥ y + m.Dᵀ *ᵥ z =
      (m.R + m.Bᵀ * vn.Vxx * m.B) *ᵥ y' + m.Dᵀ *ᵥ z' →
    m.D *ᵥ y + (-mueq • (1 : Mat 𝕜 nc nc)) *ᵥ z = m.D *ᵥ y' + (-mueq • (1 : Mat 𝕜 nc nc)) *ᵥ z' →
    y = y' ∧ z = z'

theorem smul_one_isSymm {n : ℕ} (c : 𝕜) : (c • (1 : Mat 𝕜 n n)).IsSymm := by
  rw [Matrix.IsSymm, transpose_smul, transpose_one]

theorem isSymm_congr {n m : ℕ} {V : Mat 𝕜 n n} (h : V.IsSymm) (A : Mat 𝕜 n m) :
    (Aᵀ * V * A).IsSymm := by
  rw [Matrix.IsSymm, transpose_mul, transpose_mul, transpose_transpose, h.eq, Matrix.mul_assoc]

theorem stageKernelSolve_eqs {ldl : LDL 𝕜} (hl : ldl.Exact) {nx nu nc nx2 : ℕ}
    {m : Knot 𝕜 nth nx nu nc nx2} {vn : CostToGo 𝕜 nth nx2} {mueq : 𝕜}
    {F : Factor 𝕜 nth nx nu nc nx2} (hV : vn.Vxx.IsSymm) (hR : m.R.IsSymm)
    (h : stageKernelSolve ldl m vn mueq = .ok F) : StageEqs m vn mueq F := by
  unfold stageKernelSolve at h
  dsimp only at h
  split at h
  · cases h
  · rename_i X hX
    have hsym : (blk2 (m.R + m.Bᵀ * vn.Vxx * m.B) m.Dᵀ m.D (-mueq • (1 : Mat 𝕜 nc nc))).IsSymm :=
      blk2_isSymm (hR.add (isSymm_congr hV _)) (smul_one_isSymm _)
    have hM := hl _ _ _ hX
    rw [symLower_of_isSymm (symLower_isSymm _), symLower_of_isSymm hsym] at hM
    injection h with h
    subst h
    exact
      { k1 := (solveVec_spec hM _ _).1
        k2 := (solveVec_spec hM _ _).2
        K1 := (solveMat_spec hM _ _).1
        K2 := (solveMat_spec hM _ _).2
        T1 := (solveMat_spec hM _ _).1
        T2 := (solveMat_spec hM _ _).2
        yff := rfl
        Aff := rfl
        Yth := rfl
        Vxx := rfl
        vx := rfl
        Vxt := rfl
        Vtt := rfl
        vt := rfl
        inj := fun y y' z z' h1 h2 => blk2_inj hM h1 h2 }

/-- Normal form of matrix-vector expressions used below. -/
theorem neg_smul_one_mulVec {n : ℕ} (c : 𝕜) (v : Vec 𝕜 n) :
    (-c • (1 : Mat 𝕜 n n)) *ᵥ v = -(c • v) := by
  rw [smul_mulVec, one_mulVec, neg_smul]

section stage
variable {nx nu nc nx2 : ℕ} {m : Knot 𝕜 nth nx nu nc nx2} {vn : CostToGo 𝕜 nth nx2} {mueq : 𝕜}
  {F : Factor 𝕜 nth nx nu nc nx2}

theorem StageEqs.V_symm (E : StageEqs m vn mueq F) (hV : vn.Vxx.IsSymm) (hQ : m.Q.IsSymm)
    (hR : m.R.IsSymm) : F.vm.Vxx.IsSymm := by
  have hRh : (m.R + m.Bᵀ * vn.Vxx * m.B).IsSymm := hR.add (isSymm_congr hV _)
  set Rh := m.R + m.Bᵀ * vn.Vxx * m.B with hRhdef
  set Sh := m.S + m.Aᵀ * vn.Vxx * m.B with hShdef
  have e1 : Sh = -(F.Kᵀ * Rh + F.Zᵀ * m.D) := by
    have := congrArg transpose E.K1
    rw [transpose_neg, transpose_transpose, transpose_add, transpose_mul, transpose_mul,
      hRh.eq, transpose_transpose] at this
    rw [this, neg_neg]
  have e2 : m.Cᵀ = -(F.Kᵀ * m.Dᵀ + F.Zᵀ * (-mueq • (1 : Mat 𝕜 nc nc))) := by
    have := congrArg transpose E.K2
    rw [transpose_neg, transpose_add, transpose_mul, transpose_mul,
      (smul_one_isSymm (-mueq)).eq] at this
    rw [this, neg_neg]
  have e3 : Sh * F.K + m.Cᵀ * F.Z =
      -(F.Kᵀ * (Rh * F.K) + F.Zᵀ * (m.D * F.K) + F.Kᵀ * (m.Dᵀ * F.Z) +
        F.Zᵀ * ((-mueq • (1 : Mat 𝕜 nc nc)) * F.Z)) := by
    rw [e1, e2]
    simp only [Matrix.neg_mul, Matrix.add_mul, Matrix.mul_assoc]
    abel
  rw [E.Vxx, add_assoc, e3]
  refine (hQ.add (isSymm_congr hV _)).add ?_
  rw [Matrix.IsSymm]
  simp only [transpose_neg, transpose_add, transpose_mul, transpose_transpose, hRh.eq,
    (smul_one_isSymm (-mueq)).eq, Matrix.mul_assoc]
  abel

theorem StageEqs.u_eq (E : StageEqs m vn mueq F) (hV : vn.Vxx.IsSymm) (θ : Vec 𝕜 nth)
    (x : Vec 𝕜 nx) :
    gradU m θ ⟨x, F.kff + F.K *ᵥ x + F.Kth *ᵥ θ, F.zff + F.Z *ᵥ x + F.Zth *ᵥ θ⟩ +
      m.Bᵀ *ᵥ (vn.vx + vn.Vxx *ᵥ (F.yff + F.Aff *ᵥ x + F.Yth *ᵥ θ) + vn.Vxt *ᵥ θ) = 0 := by
  have h1 := E.k1
  have h2 := congrArg (fun M => M *ᵥ x) E.K1
  have h3 := congrArg (fun M => M *ᵥ θ) E.T1
  simp only [gradU, E.yff, E.Aff, E.Yth]
  simp only [transpose_add, transpose_mul, transpose_transpose, hV.eq, neg_mulVec, add_mulVec,
    mulVec_add, ← mulVec_mulVec] at h1 h2 h3 ⊢
  linear_combination (norm := module) h1 + h2 + h3

theorem StageEqs.v_eq (E : StageEqs m vn mueq F) (θ : Vec 𝕜 nth) (x : Vec 𝕜 nx) :
    gradV m mueq θ ⟨x, F.kff + F.K *ᵥ x + F.Kth *ᵥ θ, F.zff + F.Z *ᵥ x + F.Zth *ᵥ θ⟩ = 0 := by
  have h1 := E.k2
  have h2 := congrArg (fun M => M *ᵥ x) E.K2
  have h3 := congrArg (fun M => M *ᵥ θ) E.T2
  simp only [gradV]
  simp only [neg_mulVec, add_mulVec, mulVec_add, ← mulVec_mulVec, neg_smul_one_mulVec] at h1 h2 h3 ⊢
  linear_combination (norm := module) h1 + h2 + h3

theorem StageEqs.dyn_eq (E : StageEqs m vn mueq F) (θ : Vec 𝕜 nth) (x : Vec 𝕜 nx) :
    m.A *ᵥ x + m.B *ᵥ (F.kff + F.K *ᵥ x + F.Kth *ᵥ θ) + m.f =
      F.yff + F.Aff *ᵥ x + F.Yth *ᵥ θ := by
  simp only [E.yff, E.Aff, E.Yth, add_mulVec, mulVec_add, ← mulVec_mulVec]
  abel

/-- Relation between the parametric gains and the cross term, including the `Gv` contribution which the
code omits. -/
theorem StageEqs.cross (E : StageEqs m vn mueq F) (hV : vn.Vxx.IsSymm) (hR : m.R.IsSymm) :
    (m.S + m.Aᵀ * vn.Vxx * m.B) * F.Kth + m.Cᵀ * F.Zth =
      F.Kᵀ * (m.Gu + m.Bᵀ * vn.Vxt) + F.Zᵀ * m.Gv := by
  have hRh : (m.R + m.Bᵀ * vn.Vxx * m.B).IsSymm := hR.add (isSymm_congr hV _)
  have e1 := congrArg transpose E.K1
  rw [transpose_neg, transpose_transpose, transpose_add, transpose_mul, transpose_mul,
      hRh.eq, transpose_transpose] at e1
  have e2 := congrArg transpose E.K2
  rw [transpose_neg, transpose_add, transpose_mul, transpose_mul,
      (smul_one_isSymm (-mueq)).eq] at e2
  have e3 := congrArg (fun M => M * F.Kth) e1
  have e4 := congrArg (fun M => M * F.Zth) e2
  have e5 := congrArg (fun M => F.Kᵀ * M) E.T1
  have e6 := congrArg (fun M => F.Zᵀ * M) E.T2
  simp only [Matrix.add_mul, Matrix.mul_add, Matrix.neg_mul, Matrix.mul_neg, Matrix.mul_assoc]
    at e3 e4 e5 e6 ⊢
  linear_combination (norm := module) e3 + e4 - e5 - e6

theorem StageEqs.x_eq (E : StageEqs m vn mueq F) (hV : vn.Vxx.IsSymm) (hR : m.R.IsSymm)
    (θ : Vec 𝕜 nth) (x : Vec 𝕜 nx) :
    gradX m θ ⟨x, F.kff + F.K *ᵥ x + F.Kth *ᵥ θ, F.zff + F.Z *ᵥ x + F.Zth *ᵥ θ⟩ +
      m.Aᵀ *ᵥ (vn.vx + vn.Vxx *ᵥ (F.yff + F.Aff *ᵥ x + F.Yth *ᵥ θ) + vn.Vxt *ᵥ θ) =
    F.vm.vx + F.vm.Vxx *ᵥ x + F.vm.Vxt *ᵥ θ + F.Zᵀ *ᵥ m.Gv *ᵥ θ := by
  have hc := congrArg (fun M => M *ᵥ θ) (E.cross hV hR)
  simp only [gradX, E.vx, E.Vxx, E.Vxt, E.yff, E.Aff, E.Yth]
  simp only [transpose_add, transpose_mul, add_mulVec, mulVec_add, ← mulVec_mulVec] at hc ⊢
  linear_combination (norm := module) hc

/-- The equations satisfied by the gains of the terminal knot. -/
structure TermEqs (m : Knot 𝕜 nth nx nu nc nx2) (mueq : 𝕜) (F : Factor 𝕜 nth nx nu nc nx2) :
    Prop where
  k1 : m.R *ᵥ F.kff + m.Dᵀ *ᵥ F.zff = -m.r
  k2 : m.D *ᵥ F.kff + (-mueq • (1 : Mat 𝕜 nc nc)) *ᵥ F.zff = -m.d
  K1 : m.R * F.K + m.Dᵀ * F.Z = -m.Sᵀ
  K2 : m.D * F.K + (-mueq • (1 : Mat 𝕜 nc nc)) * F.Z = -m.C
  T1 : m.R * F.Kth + m.Dᵀ * F.Zth = -m.Gu
  T2 : m.D * F.Kth + (-mueq • (1 : Mat 𝕜 nc nc)) * F.Zth = 0
  Vxx : F.vm.Vxx = m.Q + m.Cᵀ * F.Z + m.S * F.K
  vx : F.vm.vx = m.q + m.Cᵀ *ᵥ F.zff + m.S *ᵥ F.kff
  Vxt : F.vm.Vxt = m.Gx + F.Kᵀ * m.Gu
  Vtt : F.vm.Vtt = m.Gth + m.Guᵀ * F.Kth
  vt : F.vm.vt = m.gamma + m.Guᵀ *ᵥ F.kff
  inj : ∀ (y y' : Vec 𝕜 nu) (z z' : Vec 𝕜 nc),
    m.R *ᵥ y + m.Dᵀ *ᵥ z = m.R *ᵥ y' + m.Dᵀ *ᵥ z' →
    m.D *ᵥ y + (-mueq • (1 : Mat 𝕜 nc nc)) *ᵥ z = m.D *ᵥ y' + (-mueq • (1 : Mat 𝕜 nc nc)) *ᵥ z' →
    y = y' ∧ z = z'

theorem terminalSolve_eqs {ldl : LDL 𝕜} (hl : ldl.Exact) (hR : m.R.IsSymm)
    (h : terminalSolve ldl m mueq = .ok F) : TermEqs m mueq F := by
  unfold terminalSolve at h
  split at h
  · rename_i hnu
    subst hnu
    split at h
    · cases h
    · rename_i hmu
      have hmu' : mueq ≠ 0 ∨ nc = 0 := by tauto
      have cancelV : ∀ w : Vec 𝕜 nc, mueq • mueq⁻¹ • w = w := by
        intro w
        rcases hmu' with h0 | h0
        · rw [smul_smul, mul_inv_cancel₀ h0, one_smul]
        · subst h0; exact Subsingleton.elim _ _
      have cancelM : ∀ {l : ℕ} (w : Mat 𝕜 nc l), mueq • mueq⁻¹ • w = w := by
        intro l w
        rcases hmu' with h0 | h0
        · rw [smul_smul, mul_inv_cancel₀ h0, one_smul]
        · subst h0; ext i; exact i.elim0
      injection h with h
      subst h
      refine ⟨Subsingleton.elim _ _, ?_, ?_, ?_, ?_, ?_, ?_, ?_, rfl, rfl, rfl, ?_⟩
      · dsimp only
        rw [mulVec_zero, zero_add, neg_smul_one_mulVec, cancelV]
      · ext i; exact i.elim0
      · dsimp only
        rw [Matrix.mul_zero, zero_add, Matrix.smul_mul, Matrix.one_mul, neg_smul, cancelM]
      · ext i; exact i.elim0
      · dsimp only
        rw [Matrix.mul_zero, zero_add, Matrix.mul_zero]
      · dsimp only
        rw [Matrix.mul_zero, add_zero]
      · dsimp only
        rw [mulVec_zero, add_zero]
      · intro y y' z z' _ h2
        have hy : y = y' := Subsingleton.elim _ _
        subst hy
        refine ⟨rfl, ?_⟩
        rw [neg_smul_one_mulVec, neg_smul_one_mulVec] at h2
        have h3 : mueq • z = mueq • z' := neg_injective (add_left_cancel h2)
        rcases hmu' with h0 | h0
        · exact smul_right_injective _ h0 h3
        · subst h0; exact Subsingleton.elim _ _
  · split at h
    · cases h
    · rename_i X hX
      have hsym : (blk2 m.R m.Dᵀ m.D (-mueq • (1 : Mat 𝕜 nc nc))).IsSymm :=
        blk2_isSymm hR (smul_one_isSymm _)
      have hM := hl _ _ _ hX
      rw [symLower_of_isSymm hsym] at hM
      injection h with h
      subst h
      exact
        { k1 := (solveVec_spec hM _ _).1
          k2 := (solveVec_spec hM _ _).2
          K1 := (solveMat_spec hM _ _).1
          K2 := (solveMat_spec hM _ _).2
          T1 := (solveMat_spec hM _ _).1
          T2 := (solveMat_spec hM _ _).2
          Vxx := rfl
          vx := rfl
          Vxt := rfl
          Vtt := rfl
          vt := rfl
          inj := fun y y' z z' h1 h2 => blk2_inj hM h1 h2 }

theorem TermEqs.V_symm (E : TermEqs m mueq F) (hQ : m.Q.IsSymm) (hR : m.R.IsSymm) :
    F.vm.Vxx.IsSymm := by
  have e1 : m.S = -(F.Kᵀ * m.R + F.Zᵀ * m.D) := by
    have := congrArg transpose E.K1
    rw [transpose_neg, transpose_transpose, transpose_add, transpose_mul, transpose_mul,
      hR.eq, transpose_transpose] at this
    rw [this, neg_neg]
  have e2 : m.Cᵀ = -(F.Kᵀ * m.Dᵀ + F.Zᵀ * (-mueq • (1 : Mat 𝕜 nc nc))) := by
    have := congrArg transpose E.K2
    rw [transpose_neg, transpose_add, transpose_mul, transpose_mul,
      (smul_one_isSymm (-mueq)).eq] at this
    rw [this, neg_neg]
  have e3 : m.Cᵀ * F.Z + m.S * F.K =
      -(F.Kᵀ * (m.R * F.K) + F.Zᵀ * (m.D * F.K) + F.Kᵀ * (m.Dᵀ * F.Z) +
        F.Zᵀ * ((-mueq • (1 : Mat 𝕜 nc nc)) * F.Z)) := by
    rw [e1, e2]
    simp only [Matrix.neg_mul, Matrix.add_mul, Matrix.mul_assoc]
    abel
  rw [E.Vxx, add_assoc, e3]
  refine hQ.add ?_
  rw [Matrix.IsSymm]
  simp only [transpose_neg, transpose_add, transpose_mul, transpose_transpose, hR.eq,
    (smul_one_isSymm (-mueq)).eq, Matrix.mul_assoc]
  abel

theorem TermEqs.u_eq (E : TermEqs m mueq F) (θ : Vec 𝕜 nth) (x : Vec 𝕜 nx) :
    gradU m θ ⟨x, F.kff + F.K *ᵥ x + F.Kth *ᵥ θ, F.zff + F.Z *ᵥ x + F.Zth *ᵥ θ⟩ = 0 := by
  have h1 := E.k1
  have h2 := congrArg (fun M => M *ᵥ x) E.K1
  have h3 := congrArg (fun M => M *ᵥ θ) E.T1
  simp only [gradU]
  simp only [neg_mulVec, add_mulVec, mulVec_add, ← mulVec_mulVec] at h1 h2 h3 ⊢
  linear_combination (norm := module) h1 + h2 + h3

theorem TermEqs.v_eq (E : TermEqs m mueq F) (θ : Vec 𝕜 nth) (x : Vec 𝕜 nx) :
    gradV m mueq θ ⟨x, F.kff + F.K *ᵥ x + F.Kth *ᵥ θ, F.zff + F.Z *ᵥ x + F.Zth *ᵥ θ⟩ =
      m.Gv *ᵥ θ := by
  have h1 := E.k2
  have h2 := congrArg (fun M => M *ᵥ x) E.K2
  have h3 := congrArg (fun M => M *ᵥ θ) E.T2
  simp only [gradV]
  simp only [neg_mulVec, add_mulVec, mulVec_add, ← mulVec_mulVec, neg_smul_one_mulVec,
    zero_mulVec] at h1 h2 h3 ⊢
  linear_combination (norm := module) h1 + h2 + h3

theorem TermEqs.cross (E : TermEqs m mueq F) (hR : m.R.IsSymm) :
    m.S * F.Kth + m.Cᵀ * F.Zth = F.Kᵀ * m.Gu := by
  have e1 := congrArg transpose E.K1
  rw [transpose_neg, transpose_transpose, transpose_add, transpose_mul, transpose_mul,
      hR.eq, transpose_transpose] at e1
  have e2 := congrArg transpose E.K2
  rw [transpose_neg, transpose_add, transpose_mul, transpose_mul,
      (smul_one_isSymm (-mueq)).eq] at e2
  have e3 := congrArg (fun M => M * F.Kth) e1
  have e4 := congrArg (fun M => M * F.Zth) e2
  have e5 := congrArg (fun M => F.Kᵀ * M) E.T1
  have e6 := congrArg (fun M => F.Zᵀ * M) E.T2
  simp only [Matrix.add_mul, Matrix.mul_add, Matrix.neg_mul, Matrix.mul_neg, Matrix.mul_assoc,
    Matrix.mul_zero] at e3 e4 e5 e6 ⊢
  linear_combination (norm := module) e3 + e4 - e5 - e6

theorem TermEqs.x_eq (E : TermEqs m mueq F) (hR : m.R.IsSymm) (θ : Vec 𝕜 nth) (x : Vec 𝕜 nx) :
    gradX m θ ⟨x, F.kff + F.K *ᵥ x + F.Kth *ᵥ θ, F.zff + F.Z *ᵥ x + F.Zth *ᵥ θ⟩ =
    F.vm.vx + F.vm.Vxx *ᵥ x + F.vm.Vxt *ᵥ θ := by
  have hc := congrArg (fun M => M *ᵥ θ) (E.cross hR)
  simp only [gradX, E.vx, E.Vxx, E.Vxt]
  simp only [add_mulVec, mulVec_add, ← mulVec_mulVec] at hc ⊢
  linear_combination (norm := module) hc

end stage

/-- All factors of a chain satisfy their defining equations. -/
def FacsOK (mueq : 𝕜) : {nx : ℕ} → (ch : Chain 𝕜 nth nx) → Facs ch → Prop
  | _, .last k, .last F => TermEqs k mueq F
  | _, .cons k tl, .cons F Ft => Ft.vm.Vxx.IsSymm ∧ StageEqs k Ft.vm mueq F ∧ FacsOK mueq tl Ft

theorem Facs.symHead_eq {nx : ℕ} {ch : Chain 𝕜 nth nx} (F : Facs ch) (h : F.vm.Vxx.IsSymm) :
    F.symHead = F := by
  cases F with
  | last F =>
    simp only [Facs.symHead, Factor.symVxx]
    rw [show symLower F.vm.Vxx = F.vm.Vxx from symLower_of_isSymm h]
  | cons F Ft =>
    simp only [Facs.symHead, Factor.symVxx]
    rw [show symLower F.vm.Vxx = F.vm.Vxx from symLower_of_isSymm h]

theorem backwardImpl_ok {ldl : LDL 𝕜} (hl : ldl.Exact) {mueq : 𝕜} {nx : ℕ} (ch : Chain 𝕜 nth nx)
    (hs : ch.Symm) (F : Facs ch) (h : backwardImpl ldl mueq ch = .ok F) :
    FacsOK mueq ch F ∧ F.vm.Vxx.IsSymm := by
  induction ch with
  | last k =>
    unfold backwardImpl at h
    split at h
    · cases h
    · rename_i F' hF'
      injection h with h
      subst h
      have E := terminalSolve_eqs hl hs.2 hF'
      exact ⟨E, E.V_symm hs.1 hs.2⟩
  | cons k tl ih =>
    unfold backwardImpl at h
    split at h
    · cases h
    · rename_i Ft hFt
      obtain ⟨hok, hsym⟩ := ih hs.2 Ft hFt
      dsimp only at h
      rw [Ft.symHead_eq hsym] at h
      split at h
      · cases h
      · rename_i F' hF'
        injection h with h
        subst h
        have E := stageKernelSolve_eqs hl hsym hs.1.2 hF'
        exact ⟨⟨hsym, E, hok⟩, E.V_symm hsym hs.1.1 hs.1.2⟩

@[simp] theorem forwardImpl_x0 (θ : Vec 𝕜 nth) {nx : ℕ} {ch : Chain 𝕜 nth nx} (F : Facs ch)
    (x : Vec 𝕜 nx) : (forwardImpl θ F x).x0 = x := by
  cases F <;> rfl

/-- `Gv θ = 0` at every knot. -/
def Chain.GvZero (θ : Vec 𝕜 nth) {nx : ℕ} (ch : Chain 𝕜 nth nx) : Prop :=
  ch.All (fun k => k.Gv *ᵥ θ = 0)

theorem forwardImpl_tailKKT {mueq : 𝕜} (θ : Vec 𝕜 nth) {nx : ℕ} (ch : Chain 𝕜 nth nx)
    (hs : ch.Symm) (hG : ch.GvZero θ) (F : Facs ch) (hF : FacsOK mueq ch F) (x : Vec 𝕜 nx) :
    TailKKT mueq θ ch (F.vm.vx + F.vm.Vxx *ᵥ x + F.vm.Vxt *ᵥ θ) (forwardImpl θ F x) := by
  induction ch with
  | last k =>
    cases F with
    | last F =>
      refine ⟨TermEqs.x_eq hF hs.2 θ x, TermEqs.u_eq hF θ x, ?_⟩
      rw [TermEqs.v_eq hF θ x]; exact hG
  | cons k tl ih =>
    cases F with
    | cons F Ft =>
      obtain ⟨hV, E, hFt⟩ := hF
      refine ⟨?_, E.u_eq hV θ x, E.v_eq θ x, ?_, ih hs.2 hG.2 Ft hFt _⟩
      · have := E.x_eq hV hs.1.2 θ x
        rw [hG.1, mulVec_zero, add_zero] at this
        exact this
      · rw [forwardImpl_x0]; exact E.dyn_eq θ x

theorem tailKKT_unique {mueq : 𝕜} (θ : Vec 𝕜 nth) {nx : ℕ} (ch : Chain 𝕜 nth nx)
    (hs : ch.Symm) (hG : ch.GvZero θ) (F : Facs ch) (hF : FacsOK mueq ch F) (p : Vec 𝕜 nx)
    (t : Traj ch) (h : TailKKT mueq θ ch p t) :
    p = F.vm.vx + F.vm.Vxx *ᵥ t.x0 + F.vm.Vxt *ᵥ θ ∧ t = forwardImpl θ F t.x0 := by
  induction ch with
  | last k =>
    cases F with
    | last F =>
      cases t with
      | last n =>
        obtain ⟨x, u, v⟩ := n
        have hf := forwardImpl_tailKKT θ (.last k) hs hG (.last F) hF x
        obtain ⟨f1, f2, f3⟩ := hf
        obtain ⟨h1, h2, h3⟩ := h
        simp only [gradX, gradU, gradV] at h1 h2 h3 f1 f2 f3
        obtain ⟨hu, hv⟩ := TermEqs.inj hF u (F.kff + F.K *ᵥ x + F.Kth *ᵥ θ) v
          (F.zff + F.Z *ᵥ x + F.Zth *ᵥ θ)
          (by linear_combination (norm := module) h2 - f2)
          (by
            rw [neg_smul_one_mulVec, neg_smul_one_mulVec]
            linear_combination (norm := module) h3 - f3)
        subst hu hv
        exact ⟨h1.symm.trans f1, rfl⟩
  | cons k tl ih =>
    cases F with
    | cons F Ft =>
      cases t with
      | cons n lam t =>
        obtain ⟨x, u, v⟩ := n
        have hf := forwardImpl_tailKKT θ (.cons k tl) hs hG (.cons F Ft) hF x
        obtain ⟨f1, f2, f3, f4, -⟩ := hf
        obtain ⟨hV, E, hFt⟩ := hF
        obtain ⟨h1, h2, h3, h4, h5⟩ := h
        obtain ⟨hl, ht⟩ := ih hs.2 hG.2 Ft hFt lam t h5
        rw [← h4] at hl ht
        subst hl
        rw [forwardImpl_x0] at f4
        rw [← f4] at f1 f2
        simp only [gradX, gradU, gradV] at h1 h2 h3 f1 f2 f3
        obtain ⟨hu, hv⟩ := E.inj u (F.kff + F.K *ᵥ x + F.Kth *ᵥ θ) v
          (F.zff + F.Z *ᵥ x + F.Zth *ᵥ θ)
          (by
            simp only [mulVec_add, add_mulVec, ← mulVec_mulVec] at h2 f2 ⊢
            linear_combination (norm := module) h2 - f2)
          (by
            rw [neg_smul_one_mulVec, neg_smul_one_mulVec]
            linear_combination (norm := module) h3 - f3)
        subst hu hv
        refine ⟨h1.symm.trans f1, ?_⟩
        simp only [Traj.x0, forwardImpl]
        rw [← f4, ← ht]

theorem forwardImpl_thetaGrad {mueq : 𝕜} (θ : Vec 𝕜 nth) {nx : ℕ} (ch : Chain 𝕜 nth nx)
    (hG : ch.NoGv) (F : Facs ch) (hF : FacsOK mueq ch F) (x : Vec 𝕜 nx) :
    F.vm.vt + F.vm.Vxtᵀ *ᵥ x + F.vm.Vtt *ᵥ θ = thetaGrad θ ch (forwardImpl θ F x) := by
  induction ch with
  | last k =>
    cases F with
    | last F =>
      have E : TermEqs k mueq F := hF
      have hG' : k.Gv = 0 := hG
      simp only [Facs.vm, forwardImpl, thetaGrad, E.vt, E.Vxt, E.Vtt, hG', transpose_zero,
        zero_mulVec, transpose_add, transpose_mul, transpose_transpose, add_mulVec, mulVec_add,
        ← mulVec_mulVec]
      module
  | cons k tl ih =>
    cases F with
    | cons F Ft =>
      obtain ⟨hV, E, hFt⟩ := hF
      have hG' : k.Gv = 0 := hG.1
      simp only [Facs.vm, forwardImpl, thetaGrad]
      rw [← ih hG.2 Ft hFt]
      simp only [E.vt, E.Vxt, E.Vtt, E.Yth, hG', transpose_zero,
        zero_mulVec, transpose_add, transpose_mul, transpose_transpose, add_mulVec, mulVec_add,
        ← mulVec_mulVec]
      module

end Aligator.Gar
