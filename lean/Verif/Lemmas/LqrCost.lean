import Verif.Lemmas.Riccati
import Verif.Spec.LqrCost
import Mathlib.Tactic.FieldSimp
import Mathlib.Tactic.Linarith
import Mathlib.Tactic.Positivity
import Mathlib.Algebra.Order.BigOperators.Ring.Finset
import Mathlib.LinearAlgebra.Matrix.ToLinearEquiv

set_option linter.unusedSectionVars false

namespace Aligator.Gar

open Matrix

variable {𝕜 : Type*} [Field 𝕜] [LinearOrder 𝕜] [IsStrictOrderedRing 𝕜] {nth : ℕ}

theorem dot_symm {n : ℕ} {M : Mat 𝕜 n n} (h : M.IsSymm) (x y : Vec 𝕜 n) :
    x ⬝ᵥ M *ᵥ y = y ⬝ᵥ M *ᵥ x := by
  rw [dotProduct_mulVec, ← mulVec_transpose, h.eq, dotProduct_comm]

theorem dot_tr {n m : ℕ} (M : Mat 𝕜 n m) (x : Vec 𝕜 m) (y : Vec 𝕜 n) :
    x ⬝ᵥ Mᵀ *ᵥ y = y ⬝ᵥ M *ᵥ x := by
  rw [dotProduct_mulVec, vecMul_transpose, dotProduct_comm]

/-- Trapezoidal identity for the (quadratic) stage cost, in all of `(x, u, θ)`. -/
theorem stageCost_trapezoid {nx nu nc nx2 : ℕ} (k : Knot 𝕜 nth nx nu nc nx2) {mu : 𝕜} (hmu : mu ≠ 0)
    (hQ : k.Q.IsSymm) (hR : k.R.IsSymm) (hT : k.Gth.IsSymm) (θ θ' : Vec 𝕜 nth)
    (n n' : Node 𝕜 nx nu nc) (hv : gradV k mu θ n = 0) (hv' : gradV k mu θ' n' = 0) :
    2 * (stageCost k mu θ' n'.x n'.u - stageCost k mu θ n.x n.u) =
      (gradX k θ n + gradX k θ' n') ⬝ᵥ (n'.x - n.x) +
      (gradU k θ n + gradU k θ' n') ⬝ᵥ (n'.u - n.u) +
      ((k.gamma + k.Gxᵀ *ᵥ n.x + k.Guᵀ *ᵥ n.u + k.Gvᵀ *ᵥ n.v + k.Gth *ᵥ θ) +
       (k.gamma + k.Gxᵀ *ᵥ n'.x + k.Guᵀ *ᵥ n'.u + k.Gvᵀ *ᵥ n'.v + k.Gth *ᵥ θ')) ⬝ᵥ (θ' - θ) := by
  have e1 : k.C *ᵥ n.x + k.D *ᵥ n.u + k.d + k.Gv *ᵥ θ = mu • n.v := sub_eq_zero.1 hv
  have e2 : k.C *ᵥ n'.x + k.D *ᵥ n'.u + k.d + k.Gv *ᵥ θ' = mu • n'.v := sub_eq_zero.1 hv'
  have e3 : k.C *ᵥ (n'.x - n.x) + k.D *ᵥ (n'.u - n.u) + k.Gv *ᵥ (θ' - θ) = mu • (n'.v - n.v) := by
    simp only [mulVec_sub, smul_sub]
    linear_combination (norm := module) e2 - e1
  have e4 : mu * ((n.v + n'.v) ⬝ᵥ (n'.v - n.v)) =
      (n.v + n'.v) ⬝ᵥ (k.C *ᵥ (n'.x - n.x) + k.D *ᵥ (n'.u - n.u) + k.Gv *ᵥ (θ' - θ)) := by
    rw [e3, dotProduct_smul, smul_eq_mul]
  unfold stageCost gradX gradU
  rw [e1, e2]
  have h1 := dot_symm hQ n.x n'.x
  have h2 := dot_symm hR n.u n'.u
  have h3 := dot_symm hT θ θ'
  simp only [add_dotProduct, dotProduct_sub, dotProduct_add, mulVec_sub, smul_dotProduct, dotProduct_smul,
    smul_eq_mul] at e4 ⊢
  simp only [dotProduct_comm (_ *ᵥ _), dot_tr] at e4 ⊢
  have c1 := dotProduct_comm n.v n'.v
  have c2 := dotProduct_comm θ k.gamma
  have c3 := dotProduct_comm θ' k.gamma
  field_simp
  linear_combination h1 + h2 + h3 + e4 - mu * c1

theorem trapezoid_chain {mu : 𝕜} (hmu : mu ≠ 0) (θ θ' : Vec 𝕜 nth) {nx : ℕ} (ch : Chain 𝕜 nth nx)
    (hs : ch.Symm) (hT : ch.GthSymm) (p p' : Vec 𝕜 nx) (t t' : Traj ch)
    (h : TailKKT mu θ ch p t) (h' : TailKKT mu θ' ch p' t') :
    2 * (cost mu θ' ch t' - cost mu θ ch t) =
      (p + p') ⬝ᵥ (t'.x0 - t.x0) + (thetaGrad θ ch t + thetaGrad θ' ch t') ⬝ᵥ (θ' - θ) := by
  induction ch with
  | last k =>
    cases t with
    | last n =>
      cases t' with
      | last n' =>
        obtain ⟨h1, h2, h3⟩ := h
        obtain ⟨h1', h2', h3'⟩ := h'
        have := stageCost_trapezoid k hmu hs.1 hs.2 hT θ θ' n n' h3 h3'
        rw [h1, h1', h2, h2'] at this
        simp only [cost, thetaGrad, Traj.x0]
        rw [this, add_zero, zero_dotProduct, add_zero]
  | cons k tl ih =>
    cases t with
    | cons n lam t =>
      cases t' with
      | cons n' lam' t' =>
        obtain ⟨h1, h2, h3, h4, h5⟩ := h
        obtain ⟨h1', h2', h3', h4', h5'⟩ := h'
        have e := stageCost_trapezoid k hmu hs.1.1 hs.1.2 hT.1 θ θ' n n' h3 h3'
        have e' := ih hs.2 hT.2 lam lam' t t' h5 h5'
        rw [← h4, ← h4'] at e'
        have g1 : gradX k θ n = p - k.Aᵀ *ᵥ lam := eq_sub_of_add_eq h1
        have g1' : gradX k θ' n' = p' - k.Aᵀ *ᵥ lam' := eq_sub_of_add_eq h1'
        have g2 : gradU k θ n = 0 - k.Bᵀ *ᵥ lam := eq_sub_of_add_eq h2
        have g2' : gradU k θ' n' = 0 - k.Bᵀ *ᵥ lam' := eq_sub_of_add_eq h2'
        rw [g1, g1', g2, g2'] at e
        simp only [cost, thetaGrad, Traj.x0]
        have : ∀ a b c d : 𝕜, 2 * (a + b - (c + d)) = 2 * (a - c) + 2 * (b - d) := by
          intros; ring
        rw [this, e, e']
        simp only [add_dotProduct, sub_dotProduct, zero_dotProduct, dotProduct_sub, dotProduct_add, mulVec_sub]
        simp only [dotProduct_comm (_ *ᵥ _), dot_tr]
        ring

/-- Exact expansion of the stage cost around a node at which the constraint equation holds. -/
theorem stageCost_expand {nx nu nc nx2 : ℕ} (k : Knot 𝕜 nth nx nu nc nx2) {mu : 𝕜} (hmu : mu ≠ 0)
    (hQ : k.Q.IsSymm) (hR : k.R.IsSymm) (θ : Vec 𝕜 nth)
    (n : Node 𝕜 nx nu nc) (x' : Vec 𝕜 nx) (u' : Vec 𝕜 nu) (hv : gradV k mu θ n = 0) :
    stageCost k mu θ x' u' - stageCost k mu θ n.x n.u =
      gradX k θ n ⬝ᵥ (x' - n.x) + gradU k θ n ⬝ᵥ (u' - n.u) +
      (1/2) * ((x' - n.x) ⬝ᵥ k.Q *ᵥ (x' - n.x) + 2 * ((x' - n.x) ⬝ᵥ k.S *ᵥ (u' - n.u)) +
        (u' - n.u) ⬝ᵥ k.R *ᵥ (u' - n.u)) +
      (1/(2*mu)) * ((k.C *ᵥ (x' - n.x) + k.D *ᵥ (u' - n.u)) ⬝ᵥ
        (k.C *ᵥ (x' - n.x) + k.D *ᵥ (u' - n.u))) := by
  obtain ⟨x, u, v⟩ := n
  obtain ⟨dx, rfl⟩ : ∃ dx, x' = x + dx := ⟨x' - x, by abel⟩
  obtain ⟨du, rfl⟩ : ∃ du, u' = u + du := ⟨u' - u, by abel⟩
  have e1 : k.C *ᵥ x + k.D *ᵥ u + k.d + k.Gv *ᵥ θ = mu • v := sub_eq_zero.1 hv
  have e2 : k.C *ᵥ (x + dx) + k.D *ᵥ (u + du) + k.d + k.Gv *ᵥ θ =
      mu • v + (k.C *ᵥ dx + k.D *ᵥ du) := by
    rw [← e1, mulVec_add, mulVec_add]; abel
  simp only [add_sub_cancel_left]
  unfold stageCost gradX gradU
  dsimp only
  rw [e1, e2]
  have h1 := dot_symm hQ x dx
  have h2 := dot_symm hR u du
  generalize hw : k.C *ᵥ dx + k.D *ᵥ du = w
  have hw' : v ⬝ᵥ w = v ⬝ᵥ k.C *ᵥ dx + v ⬝ᵥ k.D *ᵥ du := by rw [← hw, dotProduct_add]
  have c1 := dotProduct_comm w v
  simp only [add_dotProduct, dotProduct_add, mulVec_add, smul_dotProduct, dotProduct_smul,
    smul_eq_mul]
  simp only [dotProduct_comm (_ *ᵥ _), dot_tr]
  field_simp
  linear_combination mu * h1 + mu * h2 + mu * c1 + 2 * mu * hw'

theorem dot_self_nonneg {n : ℕ} (w : Vec 𝕜 n) : 0 ≤ w ⬝ᵥ w :=
  Finset.sum_nonneg fun i _ => mul_self_nonneg (w i)

theorem dot_self_eq_zero {n : ℕ} {w : Vec 𝕜 n} (h : w ⬝ᵥ w = 0) : w = 0 := by
  funext i
  have := (Finset.sum_eq_zero_iff_of_nonneg (fun i _ => mul_self_nonneg (w i))).1 h i
    (Finset.mem_univ i)
  simpa using this

/-- Convexity: a tail KKT point is optimal up to the linear term of its costate. -/
theorem convex_chain {mu : 𝕜} (hmu : 0 < mu) (θ : Vec 𝕜 nth) {nx : ℕ} (ch : Chain 𝕜 nth nx)
    (hs : ch.Symm) (hc : ch.Convex) (p : Vec 𝕜 nx) (t t' : Traj ch)
    (h : TailKKT mu θ ch p t) (h' : Dyn ch t') :
    p ⬝ᵥ (t'.x0 - t.x0) ≤ cost mu θ ch t' - cost mu θ ch t := by
  induction ch with
  | last k =>
    cases t with
    | last n =>
      cases t' with
      | last n' =>
        obtain ⟨h1, h2, h3⟩ := h
        have e := stageCost_expand k hmu.ne' hs.1 hs.2 θ n n'.x n'.u h3
        rw [h1, h2, zero_dotProduct] at e
        simp only [cost, Traj.x0]
        have c1 := hc (n'.x - n.x) (n'.u - n.u)
        have c2 := mul_nonneg (by positivity : (0:𝕜) ≤ 1/(2*mu))
          (dot_self_nonneg (k.C *ᵥ (n'.x - n.x) + k.D *ᵥ (n'.u - n.u)))
        linarith
  | cons k tl ih =>
    cases t with
    | cons n lam t =>
      cases t' with
      | cons n' lam' t' =>
        obtain ⟨h1, h2, h3, h4, h5⟩ := h
        obtain ⟨h4', h5'⟩ := h'
        have e := stageCost_expand k hmu.ne' hs.1.1 hs.1.2 θ n n'.x n'.u h3
        have e' := ih hs.2 hc.2 lam t t' h5 h5'
        rw [← h4, ← h4'] at e'
        have g1 : gradX k θ n = p - k.Aᵀ *ᵥ lam := eq_sub_of_add_eq h1
        have g2 : gradU k θ n = 0 - k.Bᵀ *ᵥ lam := eq_sub_of_add_eq h2
        rw [g1, g2] at e
        simp only [cost, Traj.x0]
        have c1 := hc.1 (n'.x - n.x) (n'.u - n.u)
        have c2 := mul_nonneg (by positivity : (0:𝕜) ≤ 1/(2*mu))
          (dot_self_nonneg (k.C *ᵥ (n'.x - n.x) + k.D *ᵥ (n'.u - n.u)))
        have d : lam ⬝ᵥ (k.A *ᵥ n'.x + k.B *ᵥ n'.u + k.f - (k.A *ᵥ n.x + k.B *ᵥ n.u + k.f)) =
            (k.Aᵀ *ᵥ lam) ⬝ᵥ (n'.x - n.x) + (k.Bᵀ *ᵥ lam) ⬝ᵥ (n'.u - n.u) := by
          simp only [dotProduct_sub, dotProduct_add]
          simp only [dotProduct_comm (_ *ᵥ _), dot_tr]
          ring
        rw [d] at e'
        rw [sub_dotProduct, sub_dotProduct, zero_dotProduct] at e
        linarith

section success
variable {nx nu nc nx2 : ℕ} {m : Knot 𝕜 nth nx nu nc nx2} {vn : CostToGo 𝕜 nth nx2} {mueq : 𝕜}
  {F : Factor 𝕜 nth nx nu nc nx2}

/-- A saddle-point matrix with positive definite `(1,1)` block and negative definite `(2,2)` block is
invertible. -/
theorem blk2_isUnit {a b : ℕ} {M : Mat 𝕜 a a} {D : Mat 𝕜 b a} {mu : 𝕜} (hmu : 0 < mu)
    (hM : ∀ u : Vec 𝕜 a, u ≠ 0 → 0 < u ⬝ᵥ M *ᵥ u) :
    IsUnit (blk2 M Dᵀ D (-mu • (1 : Mat 𝕜 b b))).det := by
  rw [isUnit_iff_ne_zero]
  intro h0
  obtain ⟨w, hw0, hw⟩ := Matrix.exists_mulVec_eq_zero_iff.2 h0
  apply hw0
  have hwj : w = Sum.elim (fun i => w (finSumFinEquiv (Sum.inl i)))
      (fun i => w (finSumFinEquiv (Sum.inr i))) ∘ finSumFinEquiv.symm := by
    funext i
    obtain ⟨i, rfl⟩ := finSumFinEquiv.surjective i
    cases i <;> simp only [Function.comp_apply, Equiv.symm_apply_apply, Sum.elim_inl, Sum.elim_inr]
  set y : Vec 𝕜 a := fun i => w (finSumFinEquiv (Sum.inl i))
  set z : Vec 𝕜 b := fun i => w (finSumFinEquiv (Sum.inr i))
  rw [hwj, blk2_mulVec] at hw
  have hz : (0 : Vec 𝕜 (a + b)) = Sum.elim (0 : Vec 𝕜 a) (0 : Vec 𝕜 b) ∘ finSumFinEquiv.symm := by
    funext i
    obtain ⟨i, rfl⟩ := finSumFinEquiv.surjective i
    cases i <;> simp only [Function.comp_apply, Equiv.symm_apply_apply, Sum.elim_inl, Sum.elim_inr,
      Pi.zero_apply]
  rw [hz] at hw
  obtain ⟨h1, h2⟩ := sumElim_comp_inj hw
  rw [neg_smul_one_mulVec] at h2
  have q1 : y ⬝ᵥ (M *ᵥ y + Dᵀ *ᵥ z) = 0 := by rw [h1, dotProduct_zero]
  have q2 : z ⬝ᵥ (D *ᵥ y + -(mu • z)) = 0 := by rw [h2, dotProduct_zero]
  rw [dotProduct_add, dot_tr] at q1
  rw [dotProduct_add, dotProduct_neg, dotProduct_smul, smul_eq_mul] at q2
  have hzz := mul_nonneg hmu.le (dot_self_nonneg z)
  have hy : y = 0 := by
    by_contra hy
    have := hM y hy
    linarith
  have hzz' : z = 0 := by
    apply dot_self_eq_zero
    rw [hy, mulVec_zero, dotProduct_zero] at q1
    rw [hy, mulVec_zero, dotProduct_zero] at q2
    have : mu * (z ⬝ᵥ z) = 0 := by linarith
    exact (mul_eq_zero.1 this).resolve_left hmu.ne'
  rw [hwj, hy, hzz', ← hz]

theorem stageKernelSolve_success {ldl : LDL 𝕜} (hc : ldl.Complete) (hV : vn.Vxx.IsSymm)
    (hVp : ∀ x, 0 ≤ x ⬝ᵥ vn.Vxx *ᵥ x) (hR : m.R.IsSymm)
    (hRp : ∀ u : Vec 𝕜 nu, u ≠ 0 → 0 < u ⬝ᵥ m.R *ᵥ u) (hmu : 0 < mueq) :
    ∃ F, stageKernelSolve ldl m vn mueq = .ok F := by
  unfold stageKernelSolve
  dsimp only
  have hsym : (blk2 (m.R + m.Bᵀ * vn.Vxx * m.B) m.Dᵀ m.D (-mueq • (1 : Mat 𝕜 nc nc))).IsSymm :=
    blk2_isSymm (hR.add (isSymm_congr hV _)) (smul_one_isSymm _)
  have hu := blk2_isUnit (D := m.D) hmu (M := m.R + m.Bᵀ * vn.Vxx * m.B) (by
    intro u hu
    have h1 := hRp u hu
    have h2 := hVp (m.B *ᵥ u)
    rw [add_mulVec, dotProduct_add, ← mulVec_mulVec, ← mulVec_mulVec, dot_tr, dotProduct_comm]
    rw [dotProduct_comm] at h2
    linarith [dotProduct_comm (m.R *ᵥ u) u])
  have hs := hc _ (symLower (blk2 (m.R + m.Bᵀ * vn.Vxx * m.B) m.Dᵀ m.D
    (-mueq • (1 : Mat 𝕜 nc nc)))) (by
      rw [symLower_of_isSymm (symLower_isSymm _), symLower_of_isSymm hsym]; exact hu)
  obtain ⟨X, hX⟩ := Option.isSome_iff_exists.1 hs
  rw [hX]
  exact ⟨_, rfl⟩

theorem terminalSolve_success {ldl : LDL 𝕜} (hc : ldl.Complete) (hR : m.R.IsSymm)
    (hRp : ∀ u : Vec 𝕜 nu, u ≠ 0 → 0 < u ⬝ᵥ m.R *ᵥ u) (hmu : 0 < mueq) :
    ∃ F, terminalSolve ldl m mueq = .ok F := by
  unfold terminalSolve
  split
  · rw [if_neg (fun h => hmu.ne' h.1)]
    exact ⟨_, rfl⟩
  · have hsym : (blk2 m.R m.Dᵀ m.D (-mueq • (1 : Mat 𝕜 nc nc))).IsSymm :=
      blk2_isSymm hR (smul_one_isSymm _)
    have hs := hc _ (blk2 m.R m.Dᵀ m.D (-mueq • (1 : Mat 𝕜 nc nc))) (by
      rw [symLower_of_isSymm hsym]; exact blk2_isUnit hmu hRp)
    obtain ⟨X, hX⟩ := Option.isSome_iff_exists.1 hs
    rw [hX]
    exact ⟨_, rfl⟩

theorem StageEqs.quad (E : StageEqs m vn mueq F) (hV : vn.Vxx.IsSymm) (x : Vec 𝕜 nx) :
    x ⬝ᵥ F.vm.Vxx *ᵥ x =
      (x ⬝ᵥ m.Q *ᵥ x + 2 * (x ⬝ᵥ m.S *ᵥ (F.K *ᵥ x)) + (F.K *ᵥ x) ⬝ᵥ m.R *ᵥ (F.K *ᵥ x)) +
      (F.Aff *ᵥ x) ⬝ᵥ vn.Vxx *ᵥ (F.Aff *ᵥ x) + mueq * ((F.Z *ᵥ x) ⬝ᵥ (F.Z *ᵥ x)) := by
  have h1 := congrArg (fun M => (F.K *ᵥ x) ⬝ᵥ M *ᵥ x) E.K1
  have h2 := congrArg (fun M => (F.Z *ᵥ x) ⬝ᵥ M *ᵥ x) E.K2
  rw [E.Vxx, E.Aff]
  simp only [transpose_add, transpose_mul, transpose_transpose, hV.eq, neg_mulVec, add_mulVec,
    mulVec_add, ← mulVec_mulVec, neg_smul_one_mulVec, dotProduct_add, add_dotProduct,
    dotProduct_neg, dotProduct_smul, smul_eq_mul, dot_tr] at h1 h2 ⊢
  simp only [dotProduct_comm (vn.Vxx *ᵥ _)] at h1 h2 ⊢
  linear_combination -h1 + h2

theorem TermEqs.quad (E : TermEqs m mueq F) (x : Vec 𝕜 nx) :
    x ⬝ᵥ F.vm.Vxx *ᵥ x =
      (x ⬝ᵥ m.Q *ᵥ x + 2 * (x ⬝ᵥ m.S *ᵥ (F.K *ᵥ x)) + (F.K *ᵥ x) ⬝ᵥ m.R *ᵥ (F.K *ᵥ x)) +
      mueq * ((F.Z *ᵥ x) ⬝ᵥ (F.Z *ᵥ x)) := by
  have h1 := congrArg (fun M => (F.K *ᵥ x) ⬝ᵥ M *ᵥ x) E.K1
  have h2 := congrArg (fun M => (F.Z *ᵥ x) ⬝ᵥ M *ᵥ x) E.K2
  rw [E.Vxx]
  simp only [transpose_add, transpose_mul, transpose_transpose, neg_mulVec, add_mulVec,
    mulVec_add, ← mulVec_mulVec, neg_smul_one_mulVec, dotProduct_add, add_dotProduct,
    dotProduct_neg, dotProduct_smul, smul_eq_mul, dot_tr] at h1 h2 ⊢
  linear_combination -h1 + h2

end success

theorem FacsOK.psd {mueq : 𝕜} (hmu : 0 < mueq) {nx : ℕ} (ch : Chain 𝕜 nth nx) (hc : ch.Convex)
    (F : Facs ch) (hF : FacsOK mueq ch F) (x : Vec 𝕜 nx) : 0 ≤ x ⬝ᵥ F.vm.Vxx *ᵥ x := by
  induction ch with
  | last k =>
    cases F with
    | last F =>
      have h := TermEqs.quad hF x
      have c1 := hc x (F.K *ᵥ x)
      have c2 := mul_nonneg hmu.le (dot_self_nonneg (F.Z *ᵥ x))
      simp only [Facs.vm]
      linarith
  | cons k tl ih =>
    cases F with
    | cons F Ft =>
      obtain ⟨hV, E, hFt⟩ := hF
      have h := E.quad hV x
      have c0 := ih hc.2 Ft hFt (F.Aff *ᵥ x)
      have c1 := hc.1 x (F.K *ᵥ x)
      have c2 := mul_nonneg hmu.le (dot_self_nonneg (F.Z *ᵥ x))
      simp only [Facs.vm]
      linarith

theorem FacsOK.pd_of_head {mueq : 𝕜} (hmu : 0 < mueq) {nx : ℕ} (ch : Chain 𝕜 nth nx)
    (hc : ch.Convex) (F : Facs ch) (hF : FacsOK mueq ch F) (x : Vec 𝕜 nx) (hx : ch.HeadPos x) :
    0 < x ⬝ᵥ F.vm.Vxx *ᵥ x := by
  cases ch with
  | last k =>
    cases F with
    | last F =>
      have h := TermEqs.quad hF x
      have c1 := hx (F.K *ᵥ x)
      have c2 := mul_nonneg hmu.le (dot_self_nonneg (F.Z *ᵥ x))
      simp only [Facs.vm]
      linarith
  | cons k tl =>
    cases F with
    | cons F Ft =>
      obtain ⟨hV, E, hFt⟩ := hF
      have h := E.quad hV x
      have c0 := FacsOK.psd hmu tl hc.2 Ft hFt (F.Aff *ᵥ x)
      have c1 := hx (F.K *ᵥ x)
      have c2 := mul_nonneg hmu.le (dot_self_nonneg (F.Z *ᵥ x))
      simp only [Facs.vm]
      linarith

theorem backwardImpl_success {ldl : LDL 𝕜} (hl : ldl.Exact) (hcm : ldl.Complete) {mueq : 𝕜}
    (hmu : 0 < mueq) {nx : ℕ} (ch : Chain 𝕜 nth nx) (hs : ch.Symm) (hc : ch.Convex)
    (hR : ch.RPos) : ∃ F, backwardImpl ldl mueq ch = .ok F := by
  induction ch with
  | last k =>
    obtain ⟨F, h⟩ := terminalSolve_success (m := k) hcm hs.2 hR hmu
    exact ⟨.last F, by simp only [backwardImpl, h]⟩
  | cons k tl ih =>
    obtain ⟨Ft, hFt⟩ := ih hs.2 hc.2 hR.2
    obtain ⟨hok, hsym⟩ := backwardImpl_ok hl tl hs.2 Ft hFt
    obtain ⟨F, h⟩ := stageKernelSolve_success (m := k) (vn := Ft.vm) hcm hsym
      (FacsOK.psd hmu tl hc.2 Ft hok) hs.1.2 hR.1 hmu
    exact ⟨.cons F Ft, by simp only [backwardImpl, hFt, Ft.symHead_eq hsym, h]⟩

/-- KKT matrix of the initial stage: invertible when `V` is positive definite on the kernel of `G` and
`G` has full row rank. -/
theorem blk2_init_isUnit {a b : ℕ} {V : Mat 𝕜 a a} {G : Mat 𝕜 b a}
    (hV : ∀ x : Vec 𝕜 a, G *ᵥ x = 0 → x ≠ 0 → 0 < x ⬝ᵥ V *ᵥ x)
    (hG : ∀ z : Vec 𝕜 b, Gᵀ *ᵥ z = 0 → z = 0) :
    IsUnit (blk2 V Gᵀ G (0 : Mat 𝕜 b b)).det := by
  rw [isUnit_iff_ne_zero]
  intro h0
  obtain ⟨w, hw0, hw⟩ := Matrix.exists_mulVec_eq_zero_iff.2 h0
  apply hw0
  have hwj : w = Sum.elim (fun i => w (finSumFinEquiv (Sum.inl i)))
      (fun i => w (finSumFinEquiv (Sum.inr i))) ∘ finSumFinEquiv.symm := by
    funext i
    obtain ⟨i, rfl⟩ := finSumFinEquiv.surjective i
    cases i <;> simp only [Function.comp_apply, Equiv.symm_apply_apply, Sum.elim_inl, Sum.elim_inr]
  set y : Vec 𝕜 a := fun i => w (finSumFinEquiv (Sum.inl i))
  set z : Vec 𝕜 b := fun i => w (finSumFinEquiv (Sum.inr i))
  rw [hwj, blk2_mulVec] at hw
  have hz : (0 : Vec 𝕜 (a + b)) = Sum.elim (0 : Vec 𝕜 a) (0 : Vec 𝕜 b) ∘ finSumFinEquiv.symm := by
    funext i
    obtain ⟨i, rfl⟩ := finSumFinEquiv.surjective i
    cases i <;> simp only [Function.comp_apply, Equiv.symm_apply_apply, Sum.elim_inl, Sum.elim_inr,
      Pi.zero_apply]
  rw [hz] at hw
  obtain ⟨h1, h2⟩ := sumElim_comp_inj hw
  rw [zero_mulVec, add_zero] at h2
  have hy : y = 0 := by
    by_contra hy
    have q1 : y ⬝ᵥ (V *ᵥ y + Gᵀ *ᵥ z) = 0 := by rw [h1, dotProduct_zero]
    rw [dotProduct_add, dot_tr, h2, dotProduct_zero, add_zero] at q1
    exact (hV y h2 hy).ne' q1
  have hz' : z = 0 := by
    apply hG
    rw [hy, mulVec_zero, zero_add] at h1
    exact h1
  rw [hwj, hy, hz', ← hz]

end Aligator.Gar
