import Verif.Model.FDDPPasses
import Verif.Spec.FDDPPasses
import Mathlib.Tactic.Linarith
import Mathlib.Tactic.Ring

/-!
# Lemmas: backward and forward pass of FDDP
-/

namespace Aligator.FDDP

open Matrix Finset

variable {n : ℕ} {m : ℕ → ℕ}

/-- The derivatives as data of the specification. -/
def Deriv.quad (D : Deriv n m) : Spec.Quad n m := ⟨D.lx, D.lu, D.lxx, D.lxu, D.luu, D.fx, D.fu, D.lNx, D.lNxx⟩

theorem lower_symm (M : Matrix (Fin n) (Fin n) ℝ) : (lower M)ᵀ = lower M := by
  ext a b
  simp only [transpose_apply, lower, of_apply]
  split_ifs with h1 h2 h2
  · rw [le_antisymm h1 h2]
  · rfl
  · rfl
  · exact absurd (le_of_lt (not_le.mp h1)) h2

theorem lower_eq {M : Matrix (Fin n) (Fin n) ℝ} (h : Mᵀ = M) : lower M = M := by
  ext a b
  simp only [lower, of_apply]
  split_ifs
  · rfl
  · conv_rhs => rw [← h]
    rfl

theorem value_succ (llt : LLT) (D : Deriv n m) (preg : ℝ) {N : ℕ} (f : ℕ → Fin n → ℝ) {i : ℕ} (hi : i < N) :
    value llt D preg N f i = vfun preg (qpar llt D preg N f i) (f i) := by
  unfold value qpar value
  obtain ⟨j, hj⟩ : ∃ j, N - i = j + 1 := ⟨N - i - 1, by omega⟩
  rw [hj, valueRev, show N - (j + 1) = i by omega, show N - (i + 1) = j by omega]

theorem value_last (llt : LLT) (D : Deriv n m) (preg : ℝ) (N : ℕ) (f : ℕ → Fin n → ℝ) :
    value llt D preg N f N = close preg D.lNx D.lNxx (f N) := by
  rw [value, Nat.sub_self, valueRev]

theorem value_ft (llt : LLT) (D : Deriv n m) (preg : ℝ) {N : ℕ} (f : ℕ → Fin n → ℝ) {i : ℕ} (hi : i ≤ N) :
    (value llt D preg N f i).ft = (value llt D preg N f i).Vxx *ᵥ f i := by
  rcases hi.lt_or_eq with h | rfl
  · rw [value_succ _ _ _ _ h]; rfl
  · rw [value_last]; rfl

theorem value_symm (llt : LLT) (D : Deriv n m) (preg : ℝ) {N : ℕ} (f : ℕ → Fin n → ℝ) (hN : D.lNxxᵀ = D.lNxx) {i : ℕ} (hi : i ≤ N) :
    (value llt D preg N f i).Vxxᵀ = (value llt D preg N f i).Vxx := by
  rcases hi.lt_or_eq with h | rfl
  · rw [value_succ _ _ _ _ h]
    simp only [vfun, close, transpose_add, transpose_smul, transpose_one, lower_symm]
  · rw [value_last]
    simp only [close, transpose_add, transpose_smul, transpose_one, hN]

theorem dot_comm_symm {k : ℕ} {M : Matrix (Fin k) (Fin k) ℝ} (h : Mᵀ = M) (x y : Fin k → ℝ) : x ⬝ᵥ M *ᵥ y = y ⬝ᵥ M *ᵥ x := by
  rw [dotProduct_mulVec, ← mulVec_transpose, h, dotProduct_comm]

theorem dot_transpose {k l : ℕ} (M : Matrix (Fin k) (Fin l) ℝ) (x : Fin l → ℝ) (y : Fin k → ℝ) : x ⬝ᵥ Mᵀ *ᵥ y = (M *ᵥ x) ⬝ᵥ y := by
  rw [dotProduct_mulVec, vecMul_transpose]

theorem dot_triple {k l p : ℕ} (A : Matrix (Fin p) (Fin k) ℝ) (V : Matrix (Fin p) (Fin p) ℝ) (B : Matrix (Fin p) (Fin l) ℝ) (x : Fin k → ℝ)
    (y : Fin l → ℝ) : x ⬝ᵥ (Aᵀ * V * B) *ᵥ y = (A *ᵥ x) ⬝ᵥ V *ᵥ (B *ᵥ y) := by
  rw [← mulVec_mulVec, ← mulVec_mulVec, dot_transpose]

/-- Change of the value model when a node moves by `y` plus the fraction `a` of its gap. -/
theorem value_expand {V : Matrix (Fin n) (Fin n) ℝ} (hV : Vᵀ = V) (g f y : Fin n → ℝ) (a : ℝ) :
    (g - V *ᵥ f) ⬝ᵥ (y + a • f) + 1 / 2 * ((y + a • f) ⬝ᵥ V *ᵥ (y + a • f)) =
      g ⬝ᵥ y + 1 / 2 * (y ⬝ᵥ V *ᵥ y) +
        (a * (g ⬝ᵥ f) - 1 / 2 * a ^ 2 * (V *ᵥ f ⬝ᵥ f) + (a - 1) * ((y + a • f) ⬝ᵥ V *ᵥ f)) := by
  simp only [sub_dotProduct, add_dotProduct, dotProduct_add, mulVec_add, mulVec_smul, dotProduct_smul, smul_dotProduct,
    smul_eq_mul, dotProduct_comm (V *ᵥ f), dot_comm_symm hV f y]
  ring

/-- Completing the square in the control. -/
theorem complete_square {mi : ℕ} {Quu : Matrix (Fin mi) (Fin mi) ℝ} (hs : Quuᵀ = Quu) {Qu k : Fin mi → ℝ}
    {Qxu : Matrix (Fin n) (Fin mi) ℝ} {K : Matrix (Fin mi) (Fin n) ℝ} (hk : Quu *ᵥ k = -Qu) (hK : Quu * K = -Qxuᵀ)
    (Qx : Fin n → ℝ) (Qxx : Matrix (Fin n) (Fin n) ℝ) (d : Fin n → ℝ) (u : Fin mi → ℝ) :
    Qx ⬝ᵥ d + Qu ⬝ᵥ u + 1 / 2 * (d ⬝ᵥ Qxx *ᵥ d) + d ⬝ᵥ Qxu *ᵥ u + 1 / 2 * (u ⬝ᵥ Quu *ᵥ u) =
      (Qx + Kᵀ *ᵥ Qu) ⬝ᵥ d + 1 / 2 * (d ⬝ᵥ (Qxx + Qxu * K) *ᵥ d) +
        (1 / 2 * ((u - k - K *ᵥ d) ⬝ᵥ Quu *ᵥ (u - k - K *ᵥ d)) - 1 / 2 * (k ⬝ᵥ Quu *ᵥ k)) := by
  have h1 : ∀ z, Quu *ᵥ (K *ᵥ z) = -(Qxuᵀ *ᵥ z) := fun z => by rw [mulVec_mulVec, hK, neg_mulVec]
  have h2 : ∀ z w, z ⬝ᵥ Qxu *ᵥ w = (Qxuᵀ *ᵥ z) ⬝ᵥ w := fun z w => by rw [mulVec_transpose, dotProduct_mulVec]
  have e1 : k ⬝ᵥ Quu *ᵥ u = -(Qu ⬝ᵥ u) := by rw [dot_comm_symm hs, hk, dotProduct_neg, dotProduct_comm]
  have e2 : (K *ᵥ d) ⬝ᵥ Quu *ᵥ u = -((Qxuᵀ *ᵥ d) ⬝ᵥ u) := by rw [dot_comm_symm hs, h1, dotProduct_neg, dotProduct_comm]
  have e3 : (Kᵀ *ᵥ Qu) ⬝ᵥ d = Qu ⬝ᵥ K *ᵥ d := by rw [dotProduct_comm, dot_transpose, dotProduct_comm]
  simp only [add_dotProduct, add_mulVec, dotProduct_add, sub_dotProduct, dotProduct_sub, mulVec_sub, ← mulVec_mulVec, h1, h2, hk, e1, e2, e3,
    dotProduct_neg]
  rw [dotProduct_comm u (Qxuᵀ *ᵥ d), dotProduct_comm u Qu, dotProduct_comm (K *ᵥ d) Qu,
    dotProduct_comm (K *ᵥ d) (Qxuᵀ *ᵥ d)]
  have e4 : k ⬝ᵥ Qxuᵀ *ᵥ d = Qu ⬝ᵥ K *ᵥ d := by
    have := dot_comm_symm hs k (K *ᵥ d)
    rw [h1, hk, dotProduct_neg, dotProduct_neg, dotProduct_comm (K *ᵥ d)] at this
    linarith
  rw [e4]
  ring

/-- The gains of stage `i` solve their equations. -/
def Solved {mi : ℕ} (q : QP n mi) : Prop := q.Quu *ᵥ q.k = -q.Qu ∧ q.Quu * q.K = -q.Qxuᵀ

theorem Quu_symm {llt : LLT} {D : Deriv n m} {preg : ℝ} {N : ℕ} {f : ℕ → Fin n → ℝ} (hs : D.quad.Symm N) {i : ℕ} (hi : i < N) :
    (qpar llt D preg N f i).Quuᵀ = (qpar llt D preg N f i).Quu := by
  have hV := value_symm llt D preg f hs.N (i := i + 1) hi
  have hu : (D.luu i)ᵀ = D.luu i := hs.uu i hi
  simp only [qpar, qfun, transpose_add, transpose_smul, transpose_one, transpose_mul, transpose_transpose, hV, hu, Matrix.mul_assoc]

theorem Qxx_symm {llt : LLT} {D : Deriv n m} {preg : ℝ} {N : ℕ} {f : ℕ → Fin n → ℝ} (hs : D.quad.Symm N) {i : ℕ} (hi : i < N) :
    (qpar llt D preg N f i).Qxxᵀ = (qpar llt D preg N f i).Qxx := by
  have hV := value_symm llt D preg f hs.N (i := i + 1) hi
  have hu : (D.lxx i)ᵀ = D.lxx i := hs.xx i hi
  simp only [qpar, qfun, transpose_add, transpose_mul, transpose_transpose, hV, hu, Matrix.mul_assoc]

theorem lower_value {mi : ℕ} {q : QP n mi} (hx : q.Qxxᵀ = q.Qxx) (hu : q.Quuᵀ = q.Quu) (h : q.Quu * q.K = -q.Qxuᵀ) :
    lower (q.Qxx + q.Qxu * q.K) = q.Qxx + q.Qxu * q.K := by
  apply lower_eq
  have e : q.Qxu = -(q.Kᵀ * q.Quu) := by
    rw [← hu, ← transpose_mul, h, transpose_neg, transpose_transpose, neg_neg]
  rw [transpose_add, hx, e, Matrix.neg_mul, transpose_neg, transpose_mul, transpose_mul, transpose_transpose, hu, Matrix.mul_assoc]

/-- The value model of a node. -/
noncomputable def VP.at (v : VP n) (z : Fin n → ℝ) : ℝ := (v.Vx - v.ft) ⬝ᵥ z + 1 / 2 * (z ⬝ᵥ v.Vxx *ᵥ z)

/-- What the gap of a node contributes. -/
noncomputable def VP.gapTerm (v : VP n) (f : Fin n → ℝ) (a : ℝ) (dx : Fin n → ℝ) : ℝ :=
  a * (v.Vx ⬝ᵥ f) - 1 / 2 * a ^ 2 * (v.ft ⬝ᵥ f) + (a - 1) * (dx ⬝ᵥ v.ft)

/-- What a control contributes. -/
noncomputable def QP.ctrlTerm {mi : ℕ} (q : QP n mi) (dx : Fin n → ℝ) (du : Fin mi → ℝ) : ℝ :=
  1 / 2 * ((du - q.k - q.K *ᵥ dx) ⬝ᵥ q.Quu *ᵥ (du - q.k - q.K *ᵥ dx)) - 1 / 2 * (q.k ⬝ᵥ q.Quu *ᵥ q.k)

/-- The regularised model cost of one stage. -/
noncomputable def Deriv.stage (D : Deriv n m) (preg : ℝ) (i : ℕ) (d : Fin n → ℝ) (u : Fin (m i) → ℝ) : ℝ :=
  D.lx i ⬝ᵥ d + D.lu i ⬝ᵥ u + (1 / 2 * (d ⬝ᵥ D.lxx i *ᵥ d) + d ⬝ᵥ D.lxu i *ᵥ u + 1 / 2 * (u ⬝ᵥ D.luu i *ᵥ u)) +
    preg * (1 / 2 * (d ⬝ᵥ d + u ⬝ᵥ u))

theorem stage_identity {llt : LLT} {D : Deriv n m} {preg : ℝ} {N : ℕ} {f : ℕ → Fin n → ℝ} (hs : D.quad.Symm N) {i : ℕ} (hi : i < N)
    (hsol : Solved (qpar llt D preg N f i)) (a : ℝ) (d : Fin n → ℝ) (u : Fin (m i) → ℝ) :
    D.stage preg i d u + (value llt D preg N f (i + 1)).at (D.fx i *ᵥ d + D.fu i *ᵥ u + a • f (i + 1)) =
      (value llt D preg N f i).at d + (qpar llt D preg N f i).ctrlTerm d u +
        (value llt D preg N f (i + 1)).gapTerm (f (i + 1)) a (D.fx i *ᵥ d + D.fu i *ᵥ u + a • f (i + 1)) := by
  have hft := value_ft llt D preg f (i := i + 1) hi
  have hV := value_symm llt D preg f hs.N (i := i + 1) hi
  have e1 := value_expand hV (value llt D preg N f (i + 1)).Vx (f (i + 1)) (D.fx i *ᵥ d + D.fu i *ᵥ u) a
  have hsq := complete_square (Quu_symm hs hi) hsol.1 hsol.2 (qpar llt D preg N f i).Qx (qpar llt D preg N f i).Qxx d u
  have e2 : (value llt D preg N f i).at d = ((qpar llt D preg N f i).Qx + (qpar llt D preg N f i).Kᵀ *ᵥ (qpar llt D preg N f i).Qu) ⬝ᵥ d +
      1 / 2 * (d ⬝ᵥ ((qpar llt D preg N f i).Qxx + (qpar llt D preg N f i).Qxu * (qpar llt D preg N f i).K) *ᵥ d) +
        preg * (1 / 2 * (d ⬝ᵥ d)) := by
    rw [value_succ llt D preg f hi]
    simp only [VP.at, vfun, close, add_sub_cancel_right]
    rw [lower_value (Qxx_symm hs hi) (Quu_symm hs hi) hsol.2, add_mulVec, dotProduct_add, smul_mulVec, one_mulVec, dotProduct_smul, smul_eq_mul]
    ring
  have e3 : (qpar llt D preg N f i).Qx ⬝ᵥ d + (qpar llt D preg N f i).Qu ⬝ᵥ u + 1 / 2 * (d ⬝ᵥ (qpar llt D preg N f i).Qxx *ᵥ d) +
      d ⬝ᵥ (qpar llt D preg N f i).Qxu *ᵥ u + 1 / 2 * (u ⬝ᵥ (qpar llt D preg N f i).Quu *ᵥ u) =
      D.stage 0 i d u + preg * (1 / 2 * (u ⬝ᵥ u)) + (value llt D preg N f (i + 1)).Vx ⬝ᵥ (D.fx i *ᵥ d + D.fu i *ᵥ u) +
        1 / 2 * ((D.fx i *ᵥ d + D.fu i *ᵥ u) ⬝ᵥ (value llt D preg N f (i + 1)).Vxx *ᵥ (D.fx i *ᵥ d + D.fu i *ᵥ u)) := by
    have t1 : ∀ {k : ℕ} (M : Matrix (Fin n) (Fin k) ℝ) (y : Fin k → ℝ),
        (Mᵀ *ᵥ (value llt D preg N f (i + 1)).Vx) ⬝ᵥ y = (value llt D preg N f (i + 1)).Vx ⬝ᵥ M *ᵥ y := fun M y => by
      rw [dotProduct_comm, dot_transpose, dotProduct_comm]
    simp only [qpar, qfun, Deriv.stage, add_dotProduct, add_mulVec, dotProduct_add, mulVec_add, dot_triple, t1, smul_mulVec, one_mulVec,
      dotProduct_smul, smul_eq_mul]
    rw [dot_comm_symm hV (D.fu i *ᵥ u) (D.fx i *ᵥ d)]
    ring
  rw [VP.at, hft, e1, e2, VP.gapTerm, QP.ctrlTerm, hft]
  have e4 : D.stage preg i d u = D.stage 0 i d u + preg * (1 / 2 * (u ⬝ᵥ u)) + preg * (1 / 2 * (d ⬝ᵥ d)) := by
    simp only [Deriv.stage]; ring
  rw [e4]
  linarith

/-- The regularised model cost of any displacement that removes the fraction `a` of the gaps. -/
theorem change_eq {llt : LLT} {D : Deriv n m} {preg : ℝ} {N : ℕ} {f : ℕ → Fin n → ℝ} (hs : D.quad.Symm N)
    (hsol : ∀ i, i < N → Solved (qpar llt D preg N f i)) {a : ℝ} {dx : ℕ → Fin n → ℝ} {du : ∀ i, Fin (m i) → ℝ}
    (hc : D.quad.Closes N f a dx du) :
    D.quad.change N dx du + preg * Spec.half N dx du =
      ∑ i ∈ range N, (qpar llt D preg N f i).ctrlTerm (dx i) (du i) +
        ∑ i ∈ range (N + 1), (value llt D preg N f i).gapTerm (f i) a (dx i) := by
  have key : ∀ k, k ≤ N → ∑ i ∈ range k, D.stage preg i (dx i) (du i) + (value llt D preg N f k).at (dx k) =
      (value llt D preg N f 0).at (dx 0) + ∑ i ∈ range k, ((qpar llt D preg N f i).ctrlTerm (dx i) (du i) +
        (value llt D preg N f (i + 1)).gapTerm (f (i + 1)) a (dx (i + 1))) := by
    intro k
    induction k with
    | zero => intro _; simp
    | succ k ih =>
      intro hk
      have := stage_identity hs (Nat.lt_of_succ_le hk) (hsol k hk) a (dx k) (du k)
      have hd : dx (k + 1) = D.fx k *ᵥ dx k + D.fu k *ᵥ du k + a • f (k + 1) := hc.2 k hk
      rw [← hd] at this
      rw [sum_range_succ, sum_range_succ, add_assoc, this]
      have := ih (by omega)
      linarith
  have hN := key N le_rfl
  have h0 : (value llt D preg N f 0).at (dx 0) = (value llt D preg N f 0).gapTerm (f 0) a (dx 0) := by
    have hft := value_ft llt D preg f (Nat.zero_le N)
    have := value_expand (value_symm llt D preg f hs.N (Nat.zero_le N)) (value llt D preg N f 0).Vx (f 0) 0 a
    rw [zero_add, zero_dotProduct, dotProduct_zero] at this
    rw [hc.1, VP.at, VP.gapTerm, hft, this]
    ring
  have hT : (value llt D preg N f N).at (dx N) = D.lNx ⬝ᵥ dx N + 1 / 2 * (dx N ⬝ᵥ D.lNxx *ᵥ dx N) + preg * (1 / 2 * (dx N ⬝ᵥ dx N)) := by
    rw [value_last]
    simp only [VP.at, close, add_sub_cancel_right, add_mulVec, dotProduct_add, smul_mulVec, one_mulVec, dotProduct_smul, smul_eq_mul]
    ring
  have hL : D.quad.change N dx du + preg * Spec.half N dx du = ∑ i ∈ range N, D.stage preg i (dx i) (du i) + (value llt D preg N f N).at (dx N) := by
    rw [hT]
    simp only [Spec.Quad.change, Spec.Quad.slope, Spec.half, Deriv.quad, Deriv.stage, sum_add_distrib, sum_range_succ, ← mul_sum]
    ring
  rw [hL, hN, sum_add_distrib, h0, sum_range_succ' (fun i => (value llt D preg N f i).gapTerm (f i) a (dx i))]
  ring

end Aligator.FDDP
