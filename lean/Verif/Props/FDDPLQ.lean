import Verif.Props.FDDPPasses
import Mathlib.Analysis.Calculus.Deriv.Pow
import Mathlib.Analysis.Calculus.Deriv.Mul

/-!
# C59 FDDP: convex models and linear-quadratic problems
-/

namespace Aligator.FDDP

open Matrix Finset Linesearch

variable {n : ℕ} {m : ℕ → ℕ}

/-! ### Convex models -/

theorem posDef_of {k : ℕ} {M : Matrix (Fin k) (Fin k) ℝ} (hs : Mᵀ = M) (h : ∀ z, z ≠ 0 → 0 < z ⬝ᵥ M *ᵥ z) : M.PosDef :=
  .of_dotProduct_mulVec_pos (by rw [Matrix.IsHermitian, conjTranspose_eq_transpose_of_trivial, hs]) fun {z} hz => by
    rw [star_trivial]; exact h z hz

theorem dot_self_pos {k : ℕ} {z : Fin k → ℝ} (hz : z ≠ 0) : 0 < z ⬝ᵥ z := by
  have : 0 ≤ z ⬝ᵥ z := by
    rw [dotProduct]; exact sum_nonneg fun i _ => mul_self_nonneg _
  exact lt_of_le_of_ne this fun h => hz (dotProduct_self_eq_zero.mp h.symm)

/-- With convex costs, all matrices that the backward pass factorises are positive definite: when it regularises, or when the costs
are strictly convex in the controls. -/
theorem C59_convex_posDef {llt : LLT} (hl : Spec.SolvesPosDef llt) {D : Deriv n m} {N : ℕ} (hs : D.quad.Symm N) (hc : D.quad.Convex N)
    {preg : ℝ} (hp : 0 ≤ preg) (hu : 0 < preg ∨ ∀ i, i < N → (D.luu i).PosDef) (f : ℕ → Fin n → ℝ) {i : ℕ} (hi : i < N) :
    ((passAt llt D N preg f).q i).Quu.PosDef := by
  have one : ∀ i, i < N → (∀ z, 0 ≤ z ⬝ᵥ (value llt D preg N f (i + 1)).Vxx *ᵥ z) → (qpar llt D preg N f i).Quu.PosDef := by
    intro i hi hV
    refine posDef_of (Quu_symm hs hi) fun z hz => ?_
    have e : z ⬝ᵥ (qpar llt D preg N f i).Quu *ᵥ z = z ⬝ᵥ D.luu i *ᵥ z + (D.fu i *ᵥ z) ⬝ᵥ (value llt D preg N f (i + 1)).Vxx *ᵥ (D.fu i *ᵥ z) +
        preg * (z ⬝ᵥ z) := by
      simp only [qpar, qfun, add_mulVec, dotProduct_add, dot_triple, smul_mulVec, one_mulVec, dotProduct_smul, smul_eq_mul]
    rw [e]
    have h1 := hV (D.fu i *ᵥ z)
    have h2 := hc.stage i hi 0 z
    simp only [zero_dotProduct, mul_zero, zero_add, Deriv.quad] at h2
    have h3 := dot_self_pos hz
    rcases hu with hu | hu
    · have : 0 < preg * (z ⬝ᵥ z) := mul_pos hu h3
      linarith
    · have h4 := (hu i hi).dotProduct_mulVec_pos hz
      rw [star_trivial] at h4
      have : 0 ≤ preg * (z ⬝ᵥ z) := mul_nonneg hp h3.le
      linarith
  have psd : ∀ j i, i + j = N → ∀ z, 0 ≤ z ⬝ᵥ (value llt D preg N f i).Vxx *ᵥ z := by
    intro j
    induction j with
    | zero =>
      intro i hi z
      obtain rfl : i = N := by omega
      have h1 : 0 ≤ z ⬝ᵥ D.lNxx *ᵥ z := hc.final z
      have h2 : 0 ≤ z ⬝ᵥ z := by rw [dotProduct]; exact sum_nonneg fun i _ => mul_self_nonneg _
      rw [value_last]
      simp only [close, add_mulVec, dotProduct_add, smul_mulVec, one_mulVec, dotProduct_smul, smul_eq_mul]
      exact add_nonneg h1 (mul_nonneg hp h2)
    | succ j ih =>
      intro i hij z
      have hi : i < N := by omega
      have hV := ih (i + 1) (by omega)
      have hsol := solved_of_posDef hl (one i hi hV)
      have h2 : 0 ≤ z ⬝ᵥ z := by rw [dotProduct]; exact sum_nonneg fun i _ => mul_self_nonneg _
      rw [value_succ llt D preg f hi]
      simp only [vfun, close, lower_value (Qxx_symm hs hi) (Quu_symm hs hi) hsol.2, add_mulVec, dotProduct_add, smul_mulVec, one_mulVec,
        dotProduct_smul, smul_eq_mul]
      refine add_nonneg ?_ (mul_nonneg hp h2)
      have h3 := hc.stage i hi z ((qpar llt D preg N f i).K *ᵥ z)
      have h4 := hV (D.fx i *ᵥ z + D.fu i *ᵥ ((qpar llt D preg N f i).K *ᵥ z))
      have hVs := value_symm llt D preg f hs.N (i := i + 1) hi
      have h5 : ((qpar llt D preg N f i).K *ᵥ z) ⬝ᵥ (qpar llt D preg N f i).Quu *ᵥ ((qpar llt D preg N f i).K *ᵥ z) =
          -(z ⬝ᵥ (qpar llt D preg N f i).Qxu *ᵥ ((qpar llt D preg N f i).K *ᵥ z)) := by
        rw [mulVec_mulVec, hsol.2, neg_mulVec, dotProduct_neg, dot_transpose, dotProduct_comm]
      have h6 : 0 ≤ ((qpar llt D preg N f i).K *ᵥ z) ⬝ᵥ ((qpar llt D preg N f i).K *ᵥ z) := by
        rw [dotProduct]; exact sum_nonneg fun i _ => mul_self_nonneg _
      have h7 := mul_nonneg hp h6
      simp only [Deriv.quad] at h3
      simp only [mulVec_add, add_dotProduct, dotProduct_add] at h4
      rw [dot_comm_symm hVs (D.fu i *ᵥ _) (D.fx i *ᵥ z)] at h4
      have e1 : z ⬝ᵥ (qpar llt D preg N f i).Qxx *ᵥ z = z ⬝ᵥ D.lxx i *ᵥ z + (D.fx i *ᵥ z) ⬝ᵥ (value llt D preg N f (i + 1)).Vxx *ᵥ (D.fx i *ᵥ z) := by
        simp only [qpar, qfun, add_mulVec, dotProduct_add, dot_triple]
      have e2 : ∀ w, z ⬝ᵥ (qpar llt D preg N f i).Qxu *ᵥ w = z ⬝ᵥ D.lxu i *ᵥ w +
          (D.fx i *ᵥ z) ⬝ᵥ (value llt D preg N f (i + 1)).Vxx *ᵥ (D.fu i *ᵥ w) := fun w => by
        simp only [qpar, qfun, add_mulVec, dotProduct_add, dot_triple]
      have e3 : ∀ w, w ⬝ᵥ (qpar llt D preg N f i).Quu *ᵥ w = w ⬝ᵥ D.luu i *ᵥ w +
          (D.fu i *ᵥ w) ⬝ᵥ (value llt D preg N f (i + 1)).Vxx *ᵥ (D.fu i *ᵥ w) + preg * (w ⬝ᵥ w) := fun w => by
        simp only [qpar, qfun, add_mulVec, dotProduct_add, dot_triple, smul_mulVec, one_mulVec, dotProduct_smul, smul_eq_mul]
      rw [e3] at h5
      rw [← mulVec_mulVec, e1]
      rw [e2] at h5 ⊢
      linarith
  exact one i hi (psd (N - (i + 1)) (i + 1) (by omega))

/-! ### Linear-quadratic problems -/

/-- A linear-quadratic problem with the derivatives of its costs and dynamics (modelling/costs/quad-costs.hpp:89-112,
modelling/linear-discrete-dynamics.hpp:34-47); the terminal cost ignores its control. -/
noncomputable def lqProblem (L : Spec.LQ n m) (N : ℕ) : Problem (Fin n → ℝ) (fun i => Fin (m i) → ℝ) n m where
  space _ := vecSpace n
  next _ := vecSpace n
  term := vecSpace n
  uint _ u v := u + v
  vec _ u := List.ofFn u
  x0 := L.x0
  f i x u := L.A i *ᵥ x + L.B i *ᵥ u + L.b i
  l := L.stage
  lN x _ := L.final x
  nuT := 0
  deriv it :=
    { lx := fun i => L.Q i *ᵥ it.x i + L.S i *ᵥ it.u i + L.q i
      lu := fun i => (L.S i)ᵀ *ᵥ it.x i + L.R i *ᵥ it.u i + L.r i
      lxx := L.Q
      lxu := L.S
      luu := L.R
      fx := L.A
      fu := L.B
      lNx := L.QN *ᵥ it.x N + L.qN
      lNxx := L.QN }

/-- A trajectory of vectors. -/
abbrev VIter (n : ℕ) (m : ℕ → ℕ) := Iterate (Fin n → ℝ) fun i => Fin (m i) → ℝ

theorem lq_evaluate (L : Spec.LQ n m) (N : ℕ) (it : VIter n m) : evaluate (lqProblem L N) N it = L.cost N it.x it.u := by
  rw [evaluate, foldl_add_eq (fun i => (lqProblem L N).l i (it.x i) (it.u i)), zero_add]; rfl

theorem lq_trialCost (L : Spec.LQ n m) (N : ℕ) (it : VIter n m) : trialCost (lqProblem L N) N it = L.cost N it.x it.u := by
  rw [trialCost, foldl_add_eq (fun i => (lqProblem L N).l i (it.x i) (it.u i)), zero_add]; rfl

/-- The quadratic model is exact. -/
theorem lq_change {L : Spec.LQ n m} {N : ℕ} (hs : L.Symm N) (it : VIter n m) (dx : ℕ → Fin n → ℝ) (du : ∀ i, Fin (m i) → ℝ) :
    L.cost N (fun i => it.x i + dx i) (fun i => it.u i + du i) =
      L.cost N it.x it.u + ((lqProblem L N).deriv it).quad.change N dx du := by
  have e1 : ∀ i ∈ range N, L.stage i (it.x i + dx i) (it.u i + du i) = L.stage i (it.x i) (it.u i) +
      ((L.Q i *ᵥ it.x i + L.S i *ᵥ it.u i + L.q i) ⬝ᵥ dx i + ((L.S i)ᵀ *ᵥ it.x i + L.R i *ᵥ it.u i + L.r i) ⬝ᵥ du i) +
      (1 / 2 * (dx i ⬝ᵥ L.Q i *ᵥ dx i) + dx i ⬝ᵥ L.S i *ᵥ du i + 1 / 2 * (du i ⬝ᵥ L.R i *ᵥ du i)) := by
    intro i hi
    have hi := mem_range.mp hi
    simp only [Spec.LQ.stage, mulVec_add, dotProduct_add, add_dotProduct]
    rw [dot_comm_symm (hs.Q i hi) (dx i) (it.x i), dot_comm_symm (hs.R i hi) (du i) (it.u i),
      dotProduct_comm (L.Q i *ᵥ it.x i), dot_comm_symm (hs.Q i hi) (dx i) (it.x i),
      dotProduct_comm (L.R i *ᵥ it.u i), dot_comm_symm (hs.R i hi) (du i) (it.u i), dotProduct_comm (L.S i *ᵥ it.u i),
      dotProduct_comm ((L.S i)ᵀ *ᵥ it.x i), dot_transpose, dotProduct_comm (L.S i *ᵥ du i)]
    ring
  have e2 : L.final (it.x N + dx N) = L.final (it.x N) + (L.QN *ᵥ it.x N + L.qN) ⬝ᵥ dx N + 1 / 2 * (dx N ⬝ᵥ L.QN *ᵥ dx N) := by
    simp only [Spec.LQ.final, mulVec_add, dotProduct_add, add_dotProduct]
    rw [dot_comm_symm hs.QN (dx N) (it.x N), dotProduct_comm (L.QN *ᵥ it.x N), dot_comm_symm hs.QN (dx N) (it.x N)]
    ring
  simp only [Spec.LQ.cost]
  rw [sum_congr rfl e1, e2, sum_add_distrib, sum_add_distrib]
  simp only [Spec.Quad.change, Spec.Quad.slope, Deriv.quad, lqProblem]
  ring

theorem lq_closes (L : Spec.LQ n m) (N : ℕ) (it : VIter n m) (dx : ℕ → Fin n → ℝ) (du : ∀ i, Fin (m i) → ℝ) :
    ((lqProblem L N).deriv it).quad.Closes N (gaps (lqProblem L N) it) 1 dx du ↔
      L.Feasible N (fun i => it.x i + dx i) (fun i => it.u i + du i) := by
  simp only [Spec.Quad.Closes, Spec.LQ.Feasible, gaps, one_smul]
  refine and_congr ?_ (forall_congr' fun i => imp_congr_right fun _ => ?_)
  · show dx 0 = L.x0 - it.x 0 ↔ _
    rw [eq_sub_iff_add_eq']
  · show dx (i + 1) = L.A i *ᵥ dx i + L.B i *ᵥ du i + (L.A i *ᵥ it.x i + L.B i *ᵥ it.u i + L.b i - it.x (i + 1)) ↔ _
    rw [mulVec_add, mulVec_add, ← sub_eq_zero, ← sub_eq_zero (a := it.x (i + 1) + dx (i + 1))]
    constructor <;> intro h <;> rw [← h] <;> abel

theorem lq_roll (L : Spec.LQ n m) (N : ℕ) (it : VIter n m) (g : Gains n m) (f : ℕ → Fin n → ℝ) (a : ℝ) (i : ℕ) :
    (roll (lqProblem L N) it g f a i).2 = (trial (lqProblem L N) it g f a).x i - it.x i := by
  cases i with
  | zero => simp [trial, roll, lqProblem, vecSpace]
  | succ i => rfl

theorem lq_devs (L : Spec.LQ n m) (N : ℕ) (it : VIter n m) (g : Gains n m) (f : ℕ → Fin n → ℝ) (a : ℝ) :
    devs (lqProblem L N) N it g f a = fun i => (trial (lqProblem L N) it g f a).x i - it.x i := by
  funext i
  rw [devs]
  split_ifs with h
  · rw [h]; rfl
  · exact lq_roll L N it g f a i

theorem lq_trial_closes (L : Spec.LQ n m) (N : ℕ) (it : VIter n m) (g : Gains n m) (a : ℝ) :
    ((lqProblem L N).deriv it).quad.Closes N (gaps (lqProblem L N) it) a
      (fun i => (trial (lqProblem L N) it g (gaps (lqProblem L N) it) a).x i - it.x i)
      (fun i => (trial (lqProblem L N) it g (gaps (lqProblem L N) it) a).u i - it.u i) := by
  constructor
  · simp [trial, roll, lqProblem, vecSpace]
  · intro i _
    set t := trial (lqProblem L N) it g (gaps (lqProblem L N) it) a with ht
    have e : t.x (i + 1) = L.A i *ᵥ t.x i + L.B i *ᵥ t.u i + L.b i + (a - 1) • gaps (lqProblem L N) it (i + 1) := rfl
    have hg : gaps (lqProblem L N) it (i + 1) = L.A i *ᵥ it.x i + L.B i *ᵥ it.u i + L.b i - it.x (i + 1) := rfl
    show t.x (i + 1) - it.x (i + 1) = L.A i *ᵥ (t.x i - it.x i) + L.B i *ᵥ (t.u i - it.u i) + a • gaps (lqProblem L N) it (i + 1)
    rw [e, hg, mulVec_sub, mulVec_sub]
    module

theorem lq_trial_policy (llt : LLT) (L : Spec.LQ n m) (N : ℕ) (preg : ℝ) (it : VIter n m) (a : ℝ) :
    Policy (pass llt (lqProblem L N) N preg it) N a
      (fun i => (trial (lqProblem L N) it (pass llt (lqProblem L N) N preg it).gains (gaps (lqProblem L N) it) a).x i - it.x i)
      (fun i => (trial (lqProblem L N) it (pass llt (lqProblem L N) N preg it).gains (gaps (lqProblem L N) it) a).u i - it.u i) := by
  intro i _
  have : (trial (lqProblem L N) it (pass llt (lqProblem L N) N preg it).gains (gaps (lqProblem L N) it) a).u i =
      it.u i + (a • ((pass llt (lqProblem L N) N preg it).q i).k + ((pass llt (lqProblem L N) N preg it).q i).K *ᵥ
        (roll (lqProblem L N) it (pass llt (lqProblem L N) N preg it).gains (gaps (lqProblem L N) it) a i).2) := rfl
  dsimp only
  rw [this, lq_roll, add_sub_cancel_left]

theorem lq_symm {L : Spec.LQ n m} {N : ℕ} (hs : L.Symm N) (it : VIter n m) : ((lqProblem L N).deriv it).quad.Symm N :=
  ⟨hs.Q, hs.R, hs.QN⟩

theorem lq_convex {L : Spec.LQ n m} {N : ℕ} (hc : L.Convex N) (it : VIter n m) : ((lqProblem L N).deriv it).quad.Convex N :=
  ⟨hc.stage, hc.final⟩

theorem half_nonneg (N : ℕ) (dx : ℕ → Fin n → ℝ) (du : ∀ i, Fin (m i) → ℝ) : 0 ≤ Spec.half N dx du := by
  have h : ∀ {k : ℕ} (z : Fin k → ℝ), 0 ≤ z ⬝ᵥ z := fun z => by
    rw [dotProduct]; exact sum_nonneg fun i _ => mul_self_nonneg _
  exact mul_nonneg (by norm_num) (add_nonneg (sum_nonneg fun i _ => h _) (sum_nonneg fun i _ => h _))

/-- Objective of one iteration: cost plus the weighted squared distance to the iterate. -/
noncomputable def prox (L : Spec.LQ n m) (N : ℕ) (preg : ℝ) (it : VIter n m) (x : ℕ → Fin n → ℝ) (u : ∀ i, Fin (m i) → ℝ) : ℝ :=
  L.cost N x u + preg * Spec.half N (fun i => x i - it.x i) (fun i => u i - it.u i)

/-- One iteration on a convex linear-quadratic problem: the line search takes the full step, to the feasible trajectory that
minimises cost plus weighted squared distance to the iterate over all feasible ones. -/
theorem C59_lq_step {llt : LLT} (hl : Spec.SolvesPosDef llt) {L : Spec.LQ n m} {N : ℕ} (hs : L.Symm N) (hc : L.Convex N)
    {preg : ℝ} (hp : 0 ≤ preg) (hu : 0 < preg ∨ ∀ i, i < N → (L.R i).PosDef) {p : LSParams} (ha : p.o.alphaMin + p.eps ≤ 1)
    (h1 : p.thAccept ≤ 1) (h2 : 1 ≤ p.thAcceptNeg) (thGrad : ℝ) {fuel : ℕ} (hf : 0 < fuel) (it : VIter n m) :
    ∃ t, search llt p thGrad fuel (lqProblem L N) N it preg (L.cost N it.x it.u) = some t ∧ t.alpha = 1 ∧
      t.cost = L.cost N t.x.x t.x.u ∧ L.Feasible N t.x.x t.x.u ∧
      ∀ y w, L.Feasible N y w → prox L N preg it t.x.x t.x.u ≤ prox L N preg it y w ∧
        (prox L N preg it t.x.x t.x.u = prox L N preg it y w → (∀ i, i ≤ N → y i = t.x.x i) ∧ ∀ i, i < N → w i = t.x.u i) := by
  have hq : ∀ i, i < N → ((passAt llt ((lqProblem L N).deriv it) N preg (gaps (lqProblem L N) it)).q i).Quu.PosDef := fun i hi =>
    C59_convex_posDef hl (lq_symm hs it) (lq_convex hc it) hp hu _ hi
  set g := (pass llt (lqProblem L N) N preg it).gains with hg
  set t := trial (lqProblem L N) it g (gaps (lqProblem L N) it) 1 with ht
  have hcl := lq_trial_closes L N it g 1
  have hpo := lq_trial_policy llt L N preg it 1
  rw [← hg] at hpo
  rw [← ht] at hcl hpo
  have back : ∀ (y : ℕ → Fin n → ℝ), (fun i => it.x i + (y i - it.x i)) = y := fun y => by funext i; abel
  have backu : ∀ (w : ∀ i, Fin (m i) → ℝ), (fun i => it.u i + (w i - it.u i)) = w := fun w => by funext i; abel
  have hcost : ∀ y w, L.cost N y w = L.cost N it.x it.u +
      ((lqProblem L N).deriv it).quad.change N (fun i => y i - it.x i) (fun i => w i - it.u i) := by
    intro y w
    rw [← lq_change hs, back, backu]
  have hmod := C59_prediction_exact_partial hl (lq_symm hs it) hq hcl hpo (L.cost N it.x it.u) (Or.inl rfl)
  have hn := mul_nonneg hp (half_nonneg N (fun i => t.x i - it.x i) (fun i => t.u i - it.u i))
  refine ⟨⟨1, trialCost (lqProblem L N) N t, t, (pass llt (lqProblem L N) N preg it).d1 N fun i => t.x i - it.x i⟩, ?_, rfl, lq_trialCost L N t, ?_, ?_⟩
  · rw [search]
    obtain ⟨k, rfl⟩ : ∃ k, fuel = k + 1 := ⟨fuel - 1, by omega⟩
    rw [searchLoop, if_neg (not_lt.mpr ha)]
    dsimp only
    have hdev : devs (lqProblem L N) N it (pass llt (lqProblem L N) N preg it).gains (pass llt (lqProblem L N) N preg it).f 1 =
        fun i => t.x i - it.x i := lq_devs L N it g (gaps (lqProblem L N) it) 1
    have hm : (pass llt (lqProblem L N) N preg it).model N (L.cost N it.x it.u) 1 (fun i => t.x i - it.x i) = _ := hmod
    rw [hdev, hm]
    rw [if_pos]
    · rw [Option.map_some]
      dsimp only
      rw [hdev]
      rfl
    · show (_ ∧ (_ ∨ trialCost (lqProblem L N) N t - _ ≤ _)) ∨ (_ ∧ trialCost (lqProblem L N) N t - _ ≤ _)
      rw [lq_trialCost, hcost t.x t.u]
      simp only [add_sub_cancel_left]
      by_cases hneg : ((lqProblem L N).deriv it).quad.change N (fun i => t.x i - it.x i) (fun i => t.u i - it.u i) +
          preg * Spec.half N (fun i => t.x i - it.x i) (fun i => t.u i - it.u i) < 0
      · refine Or.inl ⟨hneg, Or.inr ?_⟩
        nlinarith
      · refine Or.inr ⟨hneg, ?_⟩
        nlinarith
  · have := (lq_closes L N it _ _).mp hcl
    rwa [back, backu] at this
  · intro y w hy
    have hyc : ((lqProblem L N).deriv it).quad.Closes N (gaps (lqProblem L N) it) 1 (fun i => y i - it.x i) (fun i => w i - it.u i) := by
      rw [lq_closes, back, backu]; exact hy
    have := C59_gains_optimal hl (lq_symm hs it) hq hcl hpo hyc
    simp only [prox]
    rw [hcost y w, hcost t.x t.u, add_assoc, add_assoc]
    refine ⟨add_le_add_right this.1 _, fun h => ?_⟩
    obtain ⟨h1, h2⟩ := this.2 (add_left_cancel h)
    exact ⟨fun i hi => sub_left_injective (h1 i hi), fun i hi => sub_left_injective (h2 i hi)⟩

/-- At a feasible trajectory that no feasible one undercuts, the control gradients of the backward pass vanish, whatever the
regularisation. -/
theorem lq_optimal_grad (llt : LLT) {L : Spec.LQ n m} {N : ℕ} (hs : L.Symm N) {it : VIter n m} (ho : L.Optimal N it.x it.u) (preg : ℝ)
    {i : ℕ} (hi : i < N) : ((pass llt (lqProblem L N) N preg it).q i).Qu = 0 := by
  let b := pass llt (lqProblem L N) N preg it
  let dx : ℕ → Fin n → ℝ := fun i => Nat.rec 0 (fun i x => L.A i *ᵥ x + L.B i *ᵥ ((b.q i).K *ᵥ x + (b.q i).Qu)) i
  let du : ∀ i, Fin (m i) → ℝ := fun i => (b.q i).K *ᵥ dx i + (b.q i).Qu
  have hd : ∀ i, i < N → dx (i + 1) = L.A i *ᵥ dx i + L.B i *ᵥ du i := fun i _ => rfl
  have hf : ∀ i, i ≤ N → gaps (lqProblem L N) it i = 0 := by
    intro i hi
    cases i with
    | zero => exact sub_eq_zero.mpr ho.1.1.symm
    | succ i => exact sub_eq_zero.mpr (ho.1.2 i hi).symm
  have hsl := C59_slope llt ((lqProblem L N).deriv it) N preg (gaps (lqProblem L N) it) (dx := dx) (du := du) hd
  have h0 : dx 0 = 0 := rfl
  rw [h0, dotProduct_zero, zero_add, sum_eq_zero (s := range (N + 1)) (fun i hi => by
    rw [hf i (Nat.lt_succ_iff.mp (mem_range.mp hi)), zero_dotProduct]), sub_zero] at hsl
  have hd2 : ∀ i, du i - (b.q i).K *ᵥ dx i = (b.q i).Qu := fun i => add_sub_cancel_left _ _
  have hsl : ((lqProblem L N).deriv it).quad.slope N dx du = ∑ i ∈ range N, (b.q i).Qu ⬝ᵥ (b.q i).Qu := by
    rw [hsl]; exact sum_congr rfl fun i _ => congrArg ((b.q i).Qu ⬝ᵥ ·) (hd2 i)
  have hch : ∀ t : ℝ, ((lqProblem L N).deriv it).quad.change N (fun i => t • dx i) (fun i => t • du i) =
      t * ((lqProblem L N).deriv it).quad.slope N dx du + t ^ 2 *
        (((lqProblem L N).deriv it).quad.change N dx du - ((lqProblem L N).deriv it).quad.slope N dx du) := by
    intro t
    simp only [Spec.Quad.change, Spec.Quad.slope, mulVec_smul, dotProduct_smul, smul_dotProduct, smul_eq_mul]
    simp only [mul_add, mul_sub, mul_sum, sum_add_distrib]
    ring_nf
  have hpos : ∀ t : ℝ, 0 ≤ t * ((lqProblem L N).deriv it).quad.slope N dx du + t ^ 2 *
        (((lqProblem L N).deriv it).quad.change N dx du - ((lqProblem L N).deriv it).quad.slope N dx du) := by
    intro t
    rw [← hch]
    have hcl : ((lqProblem L N).deriv it).quad.Closes N (gaps (lqProblem L N) it) 1 (fun i => t • dx i) (fun i => t • du i) := by
      refine ⟨by rw [hf 0 (Nat.zero_le _)]; show t • dx 0 = _; rw [h0, smul_zero, smul_zero], fun i hi => ?_⟩
      show t • dx (i + 1) = L.A i *ᵥ (t • dx i) + L.B i *ᵥ (t • du i) + (1 : ℝ) • gaps (lqProblem L N) it (i + 1)
      rw [hf (i + 1) hi, hd i hi, mulVec_smul, mulVec_smul]
      module
    have := ho.2 _ _ ((lq_closes L N it _ _).mp hcl)
    rw [lq_change hs] at this
    linarith
  have hz : ((lqProblem L N).deriv it).quad.slope N dx du = 0 := by
    generalize ((lqProblem L N).deriv it).quad.slope N dx du = s at hpos
    generalize ((lqProblem L N).deriv it).quad.change N dx du - s = c at hpos
    by_contra hne
    have hc : 0 < |c| + 1 := by positivity
    have h1 := hpos (-s / (|c| + 1))
    have h2 : -s / (|c| + 1) * s + (-s / (|c| + 1)) ^ 2 * c = s ^ 2 * (c - (|c| + 1)) / (|c| + 1) ^ 2 := by
      field_simp
      ring
    rw [h2] at h1
    have h3 : 0 < s ^ 2 := by positivity
    have h4 : c - (|c| + 1) < 0 := by linarith [le_abs_self c]
    have h5 : s ^ 2 * (c - (|c| + 1)) / (|c| + 1) ^ 2 < 0 := div_neg_of_neg_of_pos (mul_neg_of_pos_of_neg h3 h4) (by positivity)
    linarith
  rw [hz] at hsl
  have hn : ∀ i ∈ range N, 0 ≤ (b.q i).Qu ⬝ᵥ (b.q i).Qu := fun i _ => by
    rw [dotProduct]; exact sum_nonneg fun i _ => mul_self_nonneg _
  exact dotProduct_self_eq_zero.mp ((sum_eq_zero_iff_of_nonneg hn).mp hsl.symm i (mem_range.mpr hi))

theorem norm_zero' (k : ℕ) : norm (0 : Fin k → ℝ) = .fin 0 := by
  have : ∀ l : List ℝ, (∀ a ∈ l, a = 0) → l.foldr (fun a s => max |a| s) 0 = 0 := by
    intro l
    induction l with
    | nil => intro _; rfl
    | cons b l ih =>
      intro h
      rw [List.foldr_cons, ih fun a ha => h a (List.mem_cons_of_mem _ ha), h b List.mem_cons_self]
      simp
  rw [norm, this]
  intro a ha
  obtain ⟨j, rfl⟩ := List.mem_ofFn.mp ha
  rfl

theorem maxNorm_zero {k : ℕ → ℕ} {v : ∀ i, Fin (k i) → ℝ} {M : ℕ} (h : ∀ i, i < M → v i = 0) :
    maxNorm ((List.range M).map fun i => norm (v i)) = .fin 0 := by
  have : ((List.range M).map fun i => norm (v i)) = (List.range M).map fun _ => Fl.fin 0 :=
    List.map_congr_left fun i hi => by rw [h i (List.mem_range.mp hi), norm_zero']
  rw [this, maxNorm]
  have : ∀ l : List ℕ, (l.map fun _ => Fl.fin 0).foldl stdMax (.fin 0) = .fin 0 := by
    intro l
    induction l with
    | nil => rfl
    | cons b l ih => rw [List.map_cons, List.foldl_cons, show stdMax (.fin 0) (.fin 0) = .fin 0 by simp [stdMax], ih]
  exact this _

theorem maxNorm_finite {k : ℕ → ℕ} (v : ∀ i, Fin (k i) → ℝ) (M : ℕ) : ∃ t, maxNorm ((List.range M).map fun i => norm (v i)) = .fin t := by
  have e : ((List.range M).map fun i => norm (v i)) = ((List.range M).map fun i => (List.ofFn (v i)).foldr (fun a s => max |a| s) 0).map Fl.fin := by
    rw [List.map_map]; rfl
  rw [maxNorm, e]
  obtain ⟨t, e', -⟩ := maxNorm_fin ((List.range M).map fun i => (List.ofFn (v i)).foldr (fun a s => max |a| s) 0) 0
  exact ⟨t, e'⟩

/-- One pass of the loop on a convex linear-quadratic problem. -/
theorem lq_loop_step {llt : LLT} (hl : Spec.SolvesPosDef llt) {L : Spec.LQ n m} {N : ℕ} (hs : L.Symm N) (hc : L.Convex N)
    {p : LSParams} (ha : p.o.alphaMin + p.eps ≤ 1) (h1 : p.thAccept ≤ 1) (h2 : 1 ≤ p.thAcceptNeg) {fuel : ℕ} (hf : 0 < fuel)
    {par : Params} (hi : par.thStepInc < 1) (k : ℕ) {s : St (VIter n m)} (hp : 0 ≤ s.preg)
    (hu : 0 < s.preg ∨ ∀ i, i < N → (L.R i).PosDef) (hcost : s.cost = .fin (L.cost N s.x.x s.x.u)) :
    ∃ a b, maxNorm ((problemEnv llt p par.thGrad fuel (lqProblem L N) N).gaps s.x) = .fin a ∧
      maxNorm ((problemEnv llt p par.thGrad fuel (lqProblem L N) N).grads s.x s.preg) = .fin b ∧
      ((max a b < par.targetTol ∧ loop par (problemEnv llt p par.thGrad fuel (lqProblem L N) N) (k + 1) s =
          .done { s with prim := .fin a, dual := .fin b, regs := s.preg :: s.regs, conv := true }) ∨
       ∃ s' : St (VIter n m), s'.cost = .fin (L.cost N s'.x.x s'.x.u) ∧ L.Feasible N s'.x.x s'.x.u ∧
        (∀ y w, L.Feasible N y w → prox L N s.preg s.x s'.x.x s'.x.u ≤ prox L N s.preg s.x y w) ∧
        ((s'.conv = true ∧ loop par (problemEnv llt p par.thGrad fuel (lqProblem L N) N) (k + 1) s = .done s') ∨
          ((s'.preg = s.preg ∨ s'.preg = decreaseReg par s.preg) ∧
            loop par (problemEnv llt p par.thGrad fuel (lqProblem L N) N) (k + 1) s =
              loop par (problemEnv llt p par.thGrad fuel (lqProblem L N) N) k s'))) := by
  obtain ⟨a, hA⟩ := maxNorm_finite (gaps (lqProblem L N) s.x) (N + 1)
  obtain ⟨b, hB⟩ := maxNorm_finite (fun i => ((pass llt (lqProblem L N) N s.preg s.x).q i).Qu) N
  have hA' : maxNorm ((problemEnv llt p par.thGrad fuel (lqProblem L N) N).gaps s.x) = .fin a := hA
  have hB' : maxNorm ((problemEnv llt p par.thGrad fuel (lqProblem L N) N).grads s.x s.preg) = .fin b := hB
  refine ⟨a, b, hA, hB, ?_⟩
  rw [loop, hA', hB']
  dsimp only
  by_cases hm : max a b < par.targetTol
  · exact Or.inl ⟨hm, if_pos hm⟩
  · obtain ⟨t, ht, ha1, htc, htf, htp⟩ := C59_lq_step hl hs hc hp hu ha h1 h2 par.thGrad hf s.x
    have ht' : (problemEnv llt p par.thGrad fuel (lqProblem L N) N).search s.x s.preg (L.cost N s.x.x s.x.u) = some t := ht
    rw [if_neg hm, hcost]
    dsimp only
    rw [ht']
    dsimp only
    refine Or.inr ?_
    have hinc : ¬ t.alpha ≤ par.thStepInc := by rw [ha1]; linarith
    by_cases hd : |t.d1| < par.thGrad
    · refine ⟨⟨t.x, s.preg, .fin t.cost, .fin a, .fin b, true, s.iters, s.preg :: s.regs⟩, by rw [← htc], htf, fun y w hy => (htp y w hy).1, Or.inl ⟨rfl, ?_⟩⟩
      rw [if_pos hd]
    · refine ⟨⟨t.x, if par.thStepDec < t.alpha then decreaseReg par s.preg else s.preg, .fin t.cost, .fin a, .fin b, s.conv, s.iters + 1,
        s.preg :: s.regs⟩, by rw [← htc], htf, fun y w hy => (htp y w hy).1, Or.inr ⟨?_, ?_⟩⟩
      · dsimp only
        split_ifs
        · exact Or.inr rfl
        · exact Or.inl rfl
      · rw [if_neg hd, if_neg hinc]

theorem half_self (N : ℕ) (it : VIter n m) : Spec.half N (fun i => it.x i - it.x i) (fun i => it.u i - it.u i) = 0 := by
  simp [Spec.half]

/-- From a feasible trajectory the cost never goes up. -/
theorem lq_loop {llt : LLT} (hl : Spec.SolvesPosDef llt) {L : Spec.LQ n m} {N : ℕ} (hs : L.Symm N) (hc : L.Convex N)
    {p : LSParams} (ha : p.o.alphaMin + p.eps ≤ 1) (h1 : p.thAccept ≤ 1) (h2 : 1 ≤ p.thAcceptNeg) {fuel : ℕ} (hf : 0 < fuel)
    {par : Params} (hi : par.thStepInc < 1) (hmin : 0 ≤ par.regMin) (hum : 0 < par.regMin ∨ ∀ i, i < N → (L.R i).PosDef) (k : ℕ) :
    ∀ s : St (VIter n m), 0 ≤ s.preg → (0 < s.preg ∨ ∀ i, i < N → (L.R i).PosDef) → s.cost = .fin (L.cost N s.x.x s.x.u) →
      L.Feasible N s.x.x s.x.u → ∃ s', loop par (problemEnv llt p par.thGrad fuel (lqProblem L N) N) k s = .done s' ∧
        s'.cost = .fin (L.cost N s'.x.x s'.x.u) ∧ L.Feasible N s'.x.x s'.x.u ∧ L.cost N s'.x.x s'.x.u ≤ L.cost N s.x.x s.x.u := by
  induction k with
  | zero => intro s _ _ h3 h4; exact ⟨s, rfl, h3, h4, le_rfl⟩
  | succ k ih =>
    intro s hp hu h3 h4
    obtain ⟨a, b, -, -, ⟨-, e⟩ | ⟨s', e1, e2, e3, e⟩⟩ := lq_loop_step hl hs hc ha h1 h2 hf hi k hp hu h3
    · exact ⟨_, e, h3, h4, le_rfl⟩
    · have hle : L.cost N s'.x.x s'.x.u ≤ L.cost N s.x.x s.x.u := by
        have := e3 _ _ h4
        simp only [prox] at this
        rw [half_self, mul_zero, add_zero] at this
        linarith [mul_nonneg hp (half_nonneg N (fun i => s'.x.x i - s.x.x i) (fun i => s'.x.u i - s.x.u i))]
      rcases e with ⟨-, e⟩ | ⟨hr, e⟩
      · exact ⟨s', e, e1, e2, hle⟩
      · have hp' : 0 ≤ s'.preg := by
          rcases hr with hr | hr <;> rw [hr]
          · exact hp
          · exact le_max_of_le_right hmin
        have hu' : 0 < s'.preg ∨ ∀ i, i < N → (L.R i).PosDef := by
          rcases hum with hum | hum
          · rcases hu with hu | hu
            · rcases hr with hr | hr <;> rw [hr]
              · exact Or.inl hu
              · exact Or.inl (lt_max_of_lt_right hum)
            · exact Or.inr hu
          · exact Or.inr hum
        obtain ⟨s2, f1, f2, f3, f4⟩ := ih s' hp' hu' e1 e2
        exact ⟨s2, e ▸ f1, f2, f3, f4.trans hle⟩

/-- A run on a convex linear-quadratic problem, from any guess and with any regularisation: no exception; the result is the guess, if
it meets the criterion or no iteration is allowed, or a feasible trajectory whose cost exceeds that of any other feasible trajectory by
at most the initial regularisation times half the squared distance from the guess to that trajectory.  The reported cost is the cost of the result. -/
theorem C59_lq_run {llt : LLT} (hl : Spec.SolvesPosDef llt) {L : Spec.LQ n m} {N : ℕ} (hs : L.Symm N) (hc : L.Convex N)
    {p : LSParams} (ha : p.o.alphaMin + p.eps ≤ 1) (h1 : p.thAccept ≤ 1) (h2 : 1 ≤ p.thAcceptNeg) {fuel : ℕ} (hf : 0 < fuel)
    {par : Params} (hi : par.thStepInc < 1) (hr : 0 ≤ par.regInit) (hmin : 0 ≤ par.regMin)
    (hu : (0 < par.regInit ∧ 0 < par.regMin) ∨ ∀ i, i < N → (L.R i).PosDef) (it : VIter n m) (prim dual : Fl) :
    ∃ s, runProblem llt par p fuel (lqProblem L N) N it prim dual = .done s ∧ s.cost = .fin (L.cost N s.x.x s.x.u) ∧
      ((s.x = it ∧ (par.maxIters = 0 ∨ ∃ a b, maxNorm ((List.range (N + 1)).map fun i => norm (gaps (lqProblem L N) it i)) = .fin a ∧
        maxNorm ((List.range N).map fun i => norm ((pass llt (lqProblem L N) N par.regInit it).q i).Qu) = .fin b ∧
        max a b < par.targetTol ∧ s.conv = true)) ∨
       (L.Feasible N s.x.x s.x.u ∧ ∀ y w, L.Feasible N y w → L.cost N s.x.x s.x.u ≤
        L.cost N y w + par.regInit * Spec.half N (fun i => y i - it.x i) (fun i => w i - it.u i))) := by
  have hu0 : 0 < par.regInit ∨ ∀ i, i < N → (L.R i).PosDef := hu.imp And.left id
  have hum : 0 < par.regMin ∨ ∀ i, i < N → (L.R i).PosDef := hu.imp And.right id
  rw [runProblem, run, lq_evaluate]
  cases hk : par.maxIters with
  | zero => exact ⟨_, rfl, rfl, Or.inl ⟨rfl, Or.inl rfl⟩⟩
  | succ k =>
    obtain ⟨a, b, hA, hB, ⟨hm, e⟩ | ⟨s', e1, e2, e3, e⟩⟩ := lq_loop_step hl hs hc ha h1 h2 hf hi k
      (s := ⟨it, par.regInit, .fin (L.cost N it.x it.u), prim, dual, false, 0, []⟩) hr hu0 rfl
    · exact ⟨_, e, rfl, Or.inl ⟨rfl, Or.inr ⟨a, b, hA, hB, hm, rfl⟩⟩⟩
    · have hle : ∀ y w, L.Feasible N y w → L.cost N s'.x.x s'.x.u ≤
          L.cost N y w + par.regInit * Spec.half N (fun i => y i - it.x i) (fun i => w i - it.u i) := by
        intro y w hy
        have := e3 y w hy
        simp only [prox] at this
        linarith [mul_nonneg hr (half_nonneg N (fun i => s'.x.x i - it.x i) (fun i => s'.x.u i - it.u i))]
      rcases e with ⟨-, e⟩ | ⟨hr', e⟩
      · exact ⟨s', e, e1, Or.inr ⟨e2, hle⟩⟩
      · have hp' : 0 ≤ s'.preg := by
          rcases hr' with hr' | hr' <;> rw [hr']
          · exact hr
          · exact le_max_of_le_right hmin
        have hu' : 0 < s'.preg ∨ ∀ i, i < N → (L.R i).PosDef := by
          rcases hum with hum | hum
          · rcases hu0 with hu0 | hu0
            · rcases hr' with hr' | hr' <;> rw [hr']
              · exact Or.inl hu0
              · exact Or.inl (lt_max_of_lt_right hum)
            · exact Or.inr hu0
          · exact Or.inr hum
        obtain ⟨s2, f1, f2, f3, f4⟩ := lq_loop hl hs hc ha h1 h2 hf hi hmin hum k s' hp' hu' e1 e2
        exact ⟨s2, e ▸ f1, f2, Or.inr ⟨f3, fun y w hy => f4.trans (hle y w hy)⟩⟩

/-- Without initial regularisation and with strictly convex control costs, two iterations are enough: the run returns `true`, with the
guess if that meets the criterion and with a global optimum otherwise. -/
theorem C59_lq_two_iterations {llt : LLT} (hl : Spec.SolvesPosDef llt) {L : Spec.LQ n m} {N : ℕ} (hs : L.Symm N) (hc : L.Convex N)
    {p : LSParams} (ha : p.o.alphaMin + p.eps ≤ 1) (h1 : p.thAccept ≤ 1) (h2 : 1 ≤ p.thAcceptNeg) {fuel : ℕ} (hf : 0 < fuel)
    {par : Params} (hi : par.thStepInc < 1) (hr : par.regInit = 0) (hmin : 0 ≤ par.regMin) (ht : 0 < par.targetTol)
    (hk : 2 ≤ par.maxIters) (hu : ∀ i, i < N → (L.R i).PosDef) (it : VIter n m) (prim dual : Fl) :
    ∃ s, runProblem llt par p fuel (lqProblem L N) N it prim dual = .done s ∧ s.conv = true ∧
      ((s.x = it ∧ ∃ a b, maxNorm ((List.range (N + 1)).map fun i => norm (gaps (lqProblem L N) it i)) = .fin a ∧
        maxNorm ((List.range N).map fun i => norm ((pass llt (lqProblem L N) N par.regInit it).q i).Qu) = .fin b ∧
        max a b < par.targetTol) ∨ L.Optimal N s.x.x s.x.u) := by
  obtain ⟨k, hk⟩ : ∃ k, par.maxIters = k + 2 := ⟨par.maxIters - 2, by omega⟩
  rw [runProblem, run, lq_evaluate, hk]
  obtain ⟨a, b, hA, hB, ⟨hm, e⟩ | ⟨s', e1, e2, e3, e⟩⟩ := lq_loop_step hl hs hc ha h1 h2 hf hi (k + 1)
    (s := ⟨it, par.regInit, .fin (L.cost N it.x it.u), prim, dual, false, 0, []⟩) hr.ge (Or.inr hu) rfl
  · exact ⟨_, e, rfl, Or.inl ⟨rfl, a, b, hA, hB, hm⟩⟩
  · have ho : L.Optimal N s'.x.x s'.x.u := by
      refine ⟨e2, fun y w hy => ?_⟩
      have := e3 y w hy
      simp only [prox, hr, zero_mul, add_zero] at this
      exact this
    rcases e with ⟨hcv, e⟩ | ⟨hr', e⟩
    · exact ⟨s', e, hcv, Or.inr ho⟩
    · have hp' : 0 ≤ s'.preg := by
        rcases hr' with hr' | hr' <;> rw [hr']
        · exact hr.ge
        · exact le_max_of_le_right hmin
      obtain ⟨a, b, hA, hB, ⟨hm, f⟩ | ⟨s2, -, -, -, -⟩⟩ := lq_loop_step hl hs hc ha h1 h2 hf hi k (s := s') hp' (Or.inr hu) e1
      · exact ⟨_, e.trans f, rfl, Or.inr ho⟩
      all_goals
        have hA0 : maxNorm ((problemEnv llt p par.thGrad fuel (lqProblem L N) N).gaps s'.x) = .fin 0 := by
          refine maxNorm_zero fun i hi => ?_
          cases i with
          | zero => exact sub_eq_zero.mpr ho.1.1.symm
          | succ i => exact sub_eq_zero.mpr (ho.1.2 i (by omega)).symm
        have hB0 : maxNorm ((problemEnv llt p par.thGrad fuel (lqProblem L N) N).grads s'.x s'.preg) = .fin 0 :=
          maxNorm_zero (v := fun i => ((pass llt (lqProblem L N) N s'.preg s'.x).q i).Qu) fun i hi => lq_optimal_grad llt hs ho _ hi
        refine ⟨{ s' with prim := .fin 0, dual := .fin 0, regs := s'.preg :: s'.regs, conv := true }, ?_, rfl, Or.inr ho⟩
        rw [e, loop, hA0, hB0]
        dsimp only
        rw [if_pos (by rw [max_self]; exact ht)]

/-! ### Examples -/

/-- A solver as `SolvesPosDef` asks for. -/
noncomputable def invLLT : LLT := fun _ A b => A⁻¹ *ᵥ b

theorem invLLT_solves : Spec.SolvesPosDef invLLT := fun m A hA b => by
  rw [invLLT, mulVec_mulVec, mul_nonsing_inv _ ((isUnit_iff_isUnit_det A).mp hA.isUnit), one_mulVec]

/-- 1 by 1 matrices and vectors of length 1. -/
def m1 (a : ℝ) : Matrix (Fin 1) (Fin 1) ℝ := Matrix.of fun _ _ => a

/-- Vectors of length 1. -/
def v1 (a : ℝ) : Fin 1 → ℝ := fun _ => a

theorem m1_mul (a b : ℝ) : m1 a * m1 b = m1 (a * b) := by ext i j; simp [m1, mul_apply]
theorem m1_add (a b : ℝ) : m1 a + m1 b = m1 (a + b) := by ext i j; simp [m1]
theorem m1_t (a : ℝ) : (m1 a)ᵀ = m1 a := by ext i j; simp [m1]
theorem m1_smul (a : ℝ) : a • (1 : Matrix (Fin 1) (Fin 1) ℝ) = m1 a := by
  ext i j; rw [Subsingleton.elim i j]; simp [m1]
theorem m1_v1 (a b : ℝ) : m1 a *ᵥ v1 b = v1 (a * b) := by ext i; simp [m1, v1, mulVec, dotProduct]
theorem v1_add (a b : ℝ) : v1 a + v1 b = v1 (a + b) := rfl
theorem v1_sub (a b : ℝ) : v1 a - v1 b = v1 (a - b) := rfl
theorem v1_neg (a : ℝ) : -v1 a = v1 (-a) := rfl
theorem v1_smul (c a : ℝ) : c • v1 a = v1 (c * a) := rfl
theorem v1_dot (a b : ℝ) : v1 a ⬝ᵥ v1 b = a * b := by simp [v1, dotProduct]
theorem m1_lower (a : ℝ) : lower (m1 a) = m1 a := by ext i j; simp [lower, m1]
theorem v1_zero : v1 0 = 0 := rfl

theorem m1_posDef {a : ℝ} (ha : 0 < a) : (m1 a).PosDef := posDef_of (m1_t a) fun z hz => by
  have e : z = v1 (z 0) := by funext i; rw [Subsingleton.elim i 0]; rfl
  have h0 : z 0 ≠ 0 := fun h => hz (by rw [e, h]; rfl)
  rw [e, m1_v1, v1_dot]
  have := mul_self_pos.mpr h0
  nlinarith

theorem m1_llt {llt : LLT} (hl : Spec.SolvesPosDef llt) {a : ℝ} (ha : 0 < a) (b : ℝ) : llt 1 (m1 a) (v1 b) = v1 (b / a) := by
  have h := hl 1 (m1 a) (m1_posDef ha) (v1 b)
  have e : llt 1 (m1 a) (v1 b) = v1 (llt 1 (m1 a) (v1 b) 0) := by funext i; rw [Subsingleton.elim i 0]; rfl
  rw [e, m1_v1] at h
  have := congrFun h 0
  simp only [v1] at this
  rw [e, eq_div_of_mul_eq ha.ne' ((mul_comm _ _).trans this)]

/-- The gain column of the solver for a 1 by 1 matrix. -/
theorem m1_gain {llt : LLT} (hl : Spec.SolvesPosDef llt) {a : ℝ} (ha : 0 < a) (c : ℝ) :
    (Matrix.of fun i j => llt 1 (m1 a) (fun k => -m1 c j k) i) = m1 (-c / a) := by
  ext i j
  have : (fun k => -m1 c j k) = v1 (-c) := rfl
  rw [of_apply, this, m1_llt hl ha]
  rfl

/-- A problem with two state nodes: cost `½ x₀² + ½ u²`, next state 0, initial state 1. -/
noncomputable def gapLQ : Spec.LQ 1 (fun _ => 1) where
  x0 := v1 1
  A _ := m1 0
  B _ := m1 0
  b _ := v1 0
  Q _ := m1 1
  S _ := m1 0
  R _ := m1 1
  q _ := v1 0
  r _ := v1 0
  c _ := 0
  QN := m1 0
  qN := v1 0
  cN := 0

theorem gapLQ_symm (N : ℕ) : gapLQ.Symm N := ⟨fun _ _ => m1_t _, fun _ _ => m1_t _, m1_t _⟩

theorem m1_form (a : ℝ) (z w : Fin 1 → ℝ) : z ⬝ᵥ m1 a *ᵥ w = a * (z 0 * w 0) := by
  simp [m1, mulVec, dotProduct]; ring

theorem gapLQ_convex (N : ℕ) : gapLQ.Convex N := by
  refine ⟨fun i _ x u => ?_, fun x => ?_⟩
  · simp only [gapLQ, m1_form]
    nlinarith [mul_self_nonneg (x 0), mul_self_nonneg (u 0)]
  · simp only [gapLQ, m1_form]
    nlinarith [mul_self_nonneg (x 0)]

/-- All zero. -/
def zeroIter : VIter 1 (fun _ => 1) := ⟨fun _ => v1 0, fun _ => v1 0⟩

/-- For a partial step from an infeasible trajectory the predicted cost is wrong, even when the quadratic model is exact. -/
theorem C59_prediction_wrong {llt : LLT} (hl : Spec.SolvesPosDef llt) :
    let P := lqProblem gapLQ 1
    let b := pass llt P 1 0 zeroIter
    let t := trial P zeroIter b.gains b.f (1 / 2)
    b.model 1 (evaluate P 1 zeroIter) (1 / 2) (devs P 1 zeroIter b.gains b.f (1 / 2)) ≠ evaluate P 1 t := by
  intro P b t
  have hq : ∀ i, i < 1 → ((passAt llt (P.deriv zeroIter) 1 0 (gaps P zeroIter)).q i).Quu.PosDef := fun i hi =>
    C59_convex_posDef hl (lq_symm (gapLQ_symm 1) zeroIter) (lq_convex (gapLQ_convex 1) zeroIter) le_rfl
      (Or.inr fun i _ => m1_posDef one_pos) _ hi
  have hcl := lq_trial_closes gapLQ 1 zeroIter b.gains (1 / 2)
  have hpo := lq_trial_policy llt gapLQ 1 0 zeroIter (1 / 2)
  have hm := C59_prediction_error hl (lq_symm (gapLQ_symm 1) zeroIter) hq hcl hpo (evaluate P 1 zeroIter)
  have hd : devs P 1 zeroIter b.gains b.f (1 / 2) = fun i => t.x i - zeroIter.x i := lq_devs _ _ _ _ _ _
  have hch := lq_change (gapLQ_symm 1) zeroIter (fun i => t.x i - zeroIter.x i) (fun i => t.u i - zeroIter.u i)
  have e1 : (fun i => zeroIter.x i + (t.x i - zeroIter.x i)) = t.x := by funext i; abel
  have e2 : (fun i => zeroIter.u i + (t.u i - zeroIter.u i)) = t.u := by funext i; abel
  rw [e1, e2, ← lq_evaluate, ← lq_evaluate] at hch
  rw [hd]
  intro h
  have h' : (passAt llt (P.deriv zeroIter) 1 0 (gaps P zeroIter)).model 1 (evaluate P 1 zeroIter) (1 / 2)
      (fun i => t.x i - zeroIter.x i) = evaluate P 1 t := h
  have hm' : (passAt llt (P.deriv zeroIter) 1 0 (gaps P zeroIter)).model 1 (evaluate P 1 zeroIter) (1 / 2)
      (fun i => t.x i - zeroIter.x i) = _ := hm
  rw [hm', zero_mul, add_zero] at h'
  have hdv : (passAt llt (P.deriv zeroIter) 1 0 (gaps P zeroIter)).dv 1 (fun i => t.x i - zeroIter.x i) = 0 := by
    have h'' : evaluate P 1 zeroIter + (P.deriv zeroIter).quad.change 1 (fun i => t.x i - zeroIter.x i) (fun i => t.u i - zeroIter.u i) -
      (1 - 1 / 2) ^ 2 * (passAt llt (P.deriv zeroIter) 1 0 (gaps P zeroIter)).dv 1 (fun i => t.x i - zeroIter.x i) = evaluate P 1 t := h'
    have hch' : evaluate P 1 t = evaluate P 1 zeroIter + (P.deriv zeroIter).quad.change 1 (fun i => t.x i - zeroIter.x i)
      (fun i => t.u i - zeroIter.u i) := hch
    linarith
  rw [Pass.dv_eq, sum_range_succ, sum_range_one] at hdv
  have f0 : gaps P zeroIter 0 = v1 1 := by show v1 1 - v1 0 = v1 1; rw [v1_sub]; norm_num
  have f1 : gaps P zeroIter 1 = v1 0 := by
    show m1 0 *ᵥ v1 0 + m1 0 *ᵥ v1 0 + v1 0 - v1 0 = v1 0
    simp only [m1_v1, v1_add, v1_sub]; norm_num
  have g1 : ((passAt llt (P.deriv zeroIter) 1 0 (gaps P zeroIter)).v 1).ft = v1 0 := by
    have := value_ft llt (P.deriv zeroIter) 0 (gaps P zeroIter) (i := 1) (N := 1) le_rfl
    rw [f1, v1_zero, mulVec_zero] at this
    exact this
  have hQ : (qpar llt (P.deriv zeroIter) 0 1 (gaps P zeroIter) 0).Qxx = m1 1 := by
    show m1 1 + (m1 0)ᵀ * (value llt (P.deriv zeroIter) 0 1 (gaps P zeroIter) 1).Vxx * m1 0 = m1 1
    have : m1 0 = 0 := by ext; simp [m1]
    rw [this, mul_zero, add_zero]
  have hS : (qpar llt (P.deriv zeroIter) 0 1 (gaps P zeroIter) 0).Qxu = 0 := by
    show m1 0 + (m1 0)ᵀ * (value llt (P.deriv zeroIter) 0 1 (gaps P zeroIter) 1).Vxx * m1 0 = 0
    have : m1 0 = 0 := by ext; simp [m1]
    rw [this, mul_zero, add_zero]
  have g0 : ((passAt llt (P.deriv zeroIter) 1 0 (gaps P zeroIter)).v 0).ft = v1 1 := by
    show (value llt (P.deriv zeroIter) 0 1 (gaps P zeroIter) 0).ft = v1 1
    rw [value_succ llt (P.deriv zeroIter) 0 (gaps P zeroIter) one_pos, vfun, close]
    dsimp only
    rw [hQ, hS, f0, zero_smul, Matrix.zero_mul, add_zero, add_zero, m1_lower, m1_v1, mul_one]
  have x0 : t.x 0 - zeroIter.x 0 = v1 (1 / 2) := by
    show v1 0 + (1 / 2 : ℝ) • gaps P zeroIter 0 - v1 0 = _
    rw [f0, v1_smul, v1_add, v1_sub]; norm_num
  rw [g0, g1, x0, v1_dot, v1_zero, dotProduct_zero] at hdv
  norm_num at hdv

/-- Constant data of a problem with one stage, one state and one control. -/
def d1x1 (lx lu lxx lxu luu fx fu lN LN : ℝ) : Deriv 1 (fun _ => 1) :=
  ⟨fun _ => v1 lx, fun _ => v1 lu, fun _ => m1 lxx, fun _ => m1 lxu, fun _ => m1 luu, fun _ => m1 fx, fun _ => m1 fu, v1 lN, m1 LN⟩

/-- The passes on such a problem whose initial condition holds. -/
theorem pass1 {llt : LLT} (hl : Spec.SolvesPosDef llt) {P : Problem (Fin 1 → ℝ) (fun _ => Fin 1 → ℝ) 1 (fun _ => 1)}
    {it : VIter 1 (fun _ => 1)} {p lx lu lxx lxu luu fx fu lN LN f : ℝ} (hD : P.deriv it = d1x1 lx lu lxx lxu luu fx fu lN LN)
    (h0 : gaps P it 0 = v1 0) (h1 : gaps P it 1 = v1 f) {Qu Quu k K : ℝ} (hQu : Qu = lu + fu * (lN + (LN + p) * f))
    (hQuu : Quu = luu + fu * (LN + p) * fu + p) (hpos : 0 < Quu) (hk : k = -Qu / Quu) (hK : K = -(lxu + fx * (LN + p) * fu) / Quu) :
    ((pass llt P 1 p it).q 0).Qu = v1 Qu ∧ ((pass llt P 1 p it).q 0).k = v1 k ∧ ((pass llt P 1 p it).q 0).K = m1 K ∧
      (pass llt P 1 p it).dg 1 = Qu * k + (lN + (LN + p) * f) * f ∧ (pass llt P 1 p it).dq 1 = k * (Quu * k) - (LN + p) * f * f ∧
      ∀ dx d, dx 1 = v1 d → (pass llt P 1 p it).dv 1 dx = -(d * ((LN + p) * f)) := by
  have hv : value llt (P.deriv it) p 1 (gaps P it) 1 = ⟨v1 (lN + (LN + p) * f), m1 (LN + p), v1 ((LN + p) * f)⟩ := by
    rw [value_last, hD]
    simp only [d1x1, close, h1, m1_smul, m1_add, m1_v1, v1_add]
  have hft : ((pass llt P 1 p it).v 0).ft = v1 0 := by
    have := value_ft llt (P.deriv it) p (gaps P it) (i := 0) (N := 1) (Nat.zero_le _)
    rw [h0, v1_zero, mulVec_zero] at this
    exact this
  have hq : (pass llt P 1 p it).q 0 = ⟨v1 (lx + fx * (lN + (LN + p) * f)), v1 Qu, m1 (lxx + fx * (LN + p) * fx), m1 (lxu + fx * (LN + p) * fu),
      m1 Quu, v1 k, m1 K, v1 (Quu * k)⟩ := by
    show qpar llt (P.deriv it) p 1 (gaps P it) 0 = _
    rw [qpar, hv, hD]
    simp only [qfun, d1x1, m1_t, m1_v1, v1_add, m1_mul, m1_add, m1_smul, v1_neg, ← hQu, ← hQuu]
    rw [m1_llt hl hpos, m1_gain hl hpos, m1_v1, hk, hK]
  have hv1 : (pass llt P 1 p it).v 1 = ⟨v1 (lN + (LN + p) * f), m1 (LN + p), v1 ((LN + p) * f)⟩ := hv
  have hf0 : (pass llt P 1 p it).f 0 = v1 0 := h0
  have hf1 : (pass llt P 1 p it).f 1 = v1 f := h1
  refine ⟨by rw [hq], by rw [hq], by rw [hq], ?_, ?_, ?_⟩
  · rw [Pass.dg_eq, sum_range_one, sum_range_succ, sum_range_one, hf0, hf1, hq, hv1]
    dsimp only
    rw [v1_dot, v1_dot, v1_zero, dotProduct_zero, zero_add]
  · rw [Pass.dq_eq, sum_range_one, sum_range_succ, sum_range_one, hf0, hf1, hq, hv1]
    dsimp only
    rw [v1_dot, v1_dot, v1_zero, dotProduct_zero, zero_add]
  · intro dx d hd
    rw [Pass.dv_eq, sum_range_succ, sum_range_one, hft, hv1, hd]
    dsimp only
    rw [v1_dot, v1_zero, dotProduct_zero, zero_add]

/-- One control `u`, next state `x + u + u²`, cost `½ (1 - p) u² - u` and terminal cost `½ (1 - p) x² - (1 - p) x`. -/
noncomputable def trapProblem (p : ℝ) : Problem (Fin 1 → ℝ) (fun _ => Fin 1 → ℝ) 1 (fun _ => 1) where
  space _ := vecSpace 1
  next _ := vecSpace 1
  term := vecSpace 1
  uint _ u v := u + v
  vec _ u := List.ofFn u
  x0 := v1 0
  f _ x u := v1 (x 0 + u 0 + u 0 ^ 2)
  l _ _ u := 1 / 2 * (1 - p) * u 0 ^ 2 - u 0
  lN x _ := 1 / 2 * (1 - p) * x 0 ^ 2 - (1 - p) * x 0
  nuT := 0
  deriv it := d1x1 0 ((1 - p) * it.u 0 0 - 1) 0 0 (1 - p) 1 (1 + 2 * it.u 0 0) ((1 - p) * it.x 1 0 - (1 - p)) (1 - p)

/-- The trajectory of `trapProblem` with control `v`. -/
def trapTraj (v : ℝ) : VIter 1 (fun _ => 1) := ⟨fun i => if i = 1 then v1 (v + v ^ 2) else v1 0, fun _ => v1 v⟩

/-- Guess for `trapProblem`. -/
def trapGuess : VIter 1 (fun _ => 1) := ⟨fun i => if i = 1 then v1 1 else v1 0, fun _ => v1 0⟩

theorem trapTraj_feasible (p v : ℝ) : Feasible (trapProblem p) 1 (trapTraj v) := by
  refine ⟨rfl, fun i hi => ?_⟩
  obtain rfl : i = 0 := by omega
  show v1 (v + v ^ 2) = v1 (0 + v + v ^ 2)
  rw [zero_add]

theorem norm_v1 (a : ℝ) : norm (v1 a) = .fin |a| := by
  have : List.ofFn (v1 a) = [a] := rfl
  rw [norm, this]
  simp

/-- FDDP returns `true` at a feasible trajectory that is not stationary, with the default regularisation and any tolerances: the full step from the guess has
predicted slope 0. -/
theorem C59_converged_not_stationary {llt : LLT} (hl : Spec.SolvesPosDef llt) {par : Params} (hr : par.regInit = 1e-9) (hk : 1 ≤ par.maxIters)
    (ht : par.targetTol ≤ 1) (hg : 0 < par.thGrad) {p : LSParams} (ha : p.o.alphaMin + p.eps ≤ 1) {fuel : ℕ} (hf : 0 < fuel) (prim dual : Fl) :
    ∃ s, runProblem llt par p fuel (trapProblem 1e-9) 1 trapGuess prim dual = .done s ∧ s.conv = true ∧
      s.x.x 0 = (trapTraj 1).x 0 ∧ s.x.x 1 = (trapTraj 1).x 1 ∧ s.x.u 0 = (trapTraj 1).u 0 ∧
      HasDerivAt (fun v => evaluate (trapProblem 1e-9) 1 (trapTraj v)) (3 - 4e-9) 1 := by
  have h0 : gaps (trapProblem 1e-9) trapGuess 0 = v1 0 := by show v1 0 - v1 0 = v1 0; rw [v1_sub, sub_zero]
  have h1 : gaps (trapProblem 1e-9) trapGuess 1 = v1 (-1) := by
    show v1 (0 + 0 + 0 ^ 2) - v1 1 = v1 (-1); rw [v1_sub]; norm_num
  have hD : (trapProblem 1e-9).deriv trapGuess = d1x1 0 (-1) 0 0 (1 - 1e-9) 1 1 0 (1 - 1e-9) := by
    show d1x1 0 ((1 - 1e-9) * 0 - 1) 0 0 (1 - 1e-9) 1 (1 + 2 * 0) ((1 - 1e-9) * 1 - (1 - 1e-9)) (1 - 1e-9) = _
    norm_num
  obtain ⟨q1, q2, q3, q4, q5, q6⟩ := pass1 hl (p := 1e-9) hD h0 h1 (Qu := -2) (Quu := 2) (k := 1) (K := -1 / 2) (by norm_num) (by norm_num)
    (by norm_num) (by norm_num) (by norm_num)
  set b := pass llt (trapProblem 1e-9) 1 1e-9 trapGuess with hb
  have t0 : roll (trapProblem 1e-9) trapGuess b.gains b.f 1 0 = (v1 0, v1 0) := by
    show (v1 0 + (1 : ℝ) • gaps (trapProblem 1e-9) trapGuess 0, (1 : ℝ) • gaps (trapProblem 1e-9) trapGuess 0) = _
    rw [h0, v1_smul, v1_add]; norm_num
  have tu : (trial (trapProblem 1e-9) trapGuess b.gains b.f 1).u 0 = v1 1 := by
    show v1 0 + ((1 : ℝ) • (b.q 0).k + (b.q 0).K *ᵥ (roll (trapProblem 1e-9) trapGuess b.gains b.f 1 0).2) = v1 1
    rw [q2, q3, t0, v1_smul, m1_v1, v1_add, v1_add]; norm_num
  have tx0 : (trial (trapProblem 1e-9) trapGuess b.gains b.f 1).x 0 = v1 0 := congrArg Prod.fst t0
  have tx1 : (trial (trapProblem 1e-9) trapGuess b.gains b.f 1).x 1 = v1 2 := by
    show (trapProblem 1e-9).f 0 ((trial (trapProblem 1e-9) trapGuess b.gains b.f 1).x 0)
      ((trial (trapProblem 1e-9) trapGuess b.gains b.f 1).u 0) + ((1 : ℝ) - 1) • gaps (trapProblem 1e-9) trapGuess 1 = v1 2
    rw [tx0, tu, sub_self, zero_smul, add_zero]
    show v1 (0 + 1 + 1 ^ 2) = v1 2
    norm_num
  have td : devs (trapProblem 1e-9) 1 trapGuess b.gains b.f 1 1 = v1 1 := by
    show (trial (trapProblem 1e-9) trapGuess b.gains b.f 1).x 1 - v1 1 = v1 1
    rw [tx1, v1_sub]; norm_num
  have hd1 : b.d1 1 (devs (trapProblem 1e-9) 1 trapGuess b.gains b.f 1) = 0 := by
    rw [Pass.d1, q4, q6 _ _ td]; norm_num
  have hd2 : b.d2 1 (devs (trapProblem 1e-9) 1 trapGuess b.gains b.f 1) = -1 := by
    rw [Pass.d2, q5, q6 _ _ td]; norm_num
  have hs : ∀ phi0, search llt p par.thGrad fuel (trapProblem 1e-9) 1 trapGuess 1e-9 phi0 =
      some ⟨1, trialCost (trapProblem 1e-9) 1 (trial (trapProblem 1e-9) trapGuess b.gains b.f 1), trial (trapProblem 1e-9) trapGuess b.gains b.f 1, 0⟩ := by
    intro phi0
    obtain ⟨k, rfl⟩ : ∃ k, fuel = k + 1 := ⟨fuel - 1, by omega⟩
    rw [search, searchLoop, if_neg (not_lt.mpr ha)]
    dsimp only
    rw [← hb, Pass.model, hd1, hd2, if_pos]
    · rw [Option.map_some]
      dsimp only
      rw [hd1]
    · refine Or.inl ⟨by norm_num, Or.inl ?_⟩
      rw [abs_zero]; exact hg
  obtain ⟨k, hk⟩ : ∃ k, par.maxIters = k + 1 := ⟨par.maxIters - 1, by omega⟩
  have hA : maxNorm ((problemEnv llt p par.thGrad fuel (trapProblem 1e-9) 1).gaps trapGuess) = .fin 1 := by
    show maxNorm [norm (gaps (trapProblem 1e-9) trapGuess 0), norm (gaps (trapProblem 1e-9) trapGuess 1)] = _
    rw [h0, h1, norm_v1, norm_v1]
    simp [maxNorm, stdMax]
  have hB : maxNorm ((problemEnv llt p par.thGrad fuel (trapProblem 1e-9) 1).grads trapGuess 1e-9) = .fin 2 := by
    show maxNorm [norm (b.q 0).Qu] = _
    rw [q1, norm_v1]
    simp [maxNorm, stdMax]
  refine ⟨⟨trial (trapProblem 1e-9) trapGuess b.gains b.f 1, 1e-9,
    .fin (trialCost (trapProblem 1e-9) 1 (trial (trapProblem 1e-9) trapGuess b.gains b.f 1)), .fin 1, .fin 2, true, 0, [1e-9]⟩, ?_, rfl, ?_, ?_, ?_, ?_⟩
  · rw [runProblem, run, hk, hr, loop]
    dsimp only
    rw [hA, hB]
    dsimp only
    rw [if_neg (by norm_num; linarith)]
    have hs' := hs (evaluate (trapProblem 1e-9) 1 trapGuess)
    have hs'' : (problemEnv llt p par.thGrad fuel (trapProblem 1e-9) 1).search trapGuess 1e-9 (evaluate (trapProblem 1e-9) 1 trapGuess) = _ := hs'
    rw [hs'']
    dsimp only
    rw [abs_zero, if_pos hg]
  · exact tx0
  · rw [tx1]; show v1 2 = v1 (1 + 1 ^ 2); norm_num
  · exact tu
  · have e : (fun v => evaluate (trapProblem 1e-9) 1 (trapTraj v)) = fun v : ℝ => 0 + (1 / 2 * (1 - 1e-9) * v ^ 2 - v) +
        (1 / 2 * (1 - 1e-9) * (v + v ^ 2) ^ 2 - (1 - 1e-9) * (v + v ^ 2)) := rfl
    rw [e]
    have hi : HasDerivAt (fun v : ℝ => v) 1 1 := hasDerivAt_id' 1
    have h2 : HasDerivAt (fun v : ℝ => v + v ^ 2) (1 + ((2 : ℕ) : ℝ) * 1 ^ 1 * 1) 1 := hi.fun_add (hi.fun_pow 2)
    have h3 := ((hi.fun_pow 2).const_mul (1 / 2 * (1 - 1e-9 : ℝ))).fun_sub hi
    have h4 := ((h2.fun_pow 2).const_mul (1 / 2 * (1 - 1e-9 : ℝ))).fun_sub (h2.const_mul (1 - 1e-9 : ℝ))
    have h5 := (h3.const_add 0).fun_add h4
    exact h5.congr_deriv (by norm_num)

theorem lq_oneSpace (L : Spec.LQ n m) (N : ℕ) : (lqProblem L N).OneSpace (vecSpace n) := ⟨fun _ => rfl, fun _ => rfl, rfl⟩

/-- The problem of the example is infeasible at the zero guess, so that the statements on gaps say something. -/
example : gaps (lqProblem gapLQ 1) zeroIter 0 ≠ 0 ∧
    ∀ g, gaps (lqProblem gapLQ 1) (trial (lqProblem gapLQ 1) zeroIter g (gaps (lqProblem gapLQ 1) zeroIter) (1 / 4)) 0 = (3 / 4 : ℝ) • v1 1 := by
  have f0 : gaps (lqProblem gapLQ 1) zeroIter 0 = v1 1 := by show v1 1 - v1 0 = v1 1; rw [v1_sub]; norm_num
  refine ⟨fun h => ?_, fun g => ?_⟩
  · rw [f0] at h
    exact one_ne_zero (congrFun h 0)
  · rw [C59_gaps_contract (lq_oneSpace _ _) (vecSpace_laws 1) _ _ (by norm_num) (by norm_num), f0]
    norm_num

/-- Default parameters: tolerance 1e-6, regularisation 1e-9. -/
noncomputable def exPar (regInit : ℝ) (k : ℕ) : Params := ⟨1e-6, regInit, 1e-9, 1e9, 0.1, 10, 1e-12, 0.5, 0.01, k⟩

/-- Line search constants. -/
noncomputable def exLS (o : Options) : LSParams := ⟨o, 1e-16, 0.1, 2⟩

/-- `C59_lq_run` applies with default parameters. -/
example (o : Options) (ho : o.alphaMin = 1e-5) (k : ℕ) (prim dual : Fl) :
    ∃ s, runProblem invLLT (exPar 1e-9 (k + 1)) (exLS o) 30 (lqProblem gapLQ 1) 1 zeroIter prim dual = .done s ∧
      gapLQ.Feasible 1 s.x.x s.x.u ∧ ∀ y w, gapLQ.Feasible 1 y w → gapLQ.cost 1 s.x.x s.x.u ≤
        gapLQ.cost 1 y w + 1e-9 * Spec.half 1 (fun i => y i - v1 0) (fun i => w i - v1 0) := by
  obtain ⟨s, h1, -, h2⟩ := C59_lq_run invLLT_solves (gapLQ_symm 1) (gapLQ_convex 1) (p := exLS o) (by simp only [exLS, ho]; norm_num)
    (by norm_num [exLS]) (by norm_num [exLS]) (fuel := 30) (by norm_num) (par := exPar 1e-9 (k + 1)) (by norm_num [exPar]) (by norm_num [exPar])
    (by norm_num [exPar]) (Or.inl ⟨by norm_num [exPar], by norm_num [exPar]⟩) zeroIter prim dual
  refine ⟨s, h1, ?_⟩
  rcases h2 with ⟨-, h | ⟨a, b, hA, -, hm, -⟩⟩ | h
  · exact absurd h (Nat.succ_ne_zero k)
  · have f0 : gaps (lqProblem gapLQ 1) zeroIter 0 = v1 1 := by show v1 1 - v1 0 = v1 1; rw [v1_sub]; norm_num
    have h1 := maxNorm_bound hA (i := 0) (by norm_num) 0
    rw [f0] at h1
    have : max a b < 1e-6 := hm
    have := (max_lt_iff.mp this).1
    norm_num [v1] at h1
    linarith
  · exact h

/-- `C59_lq_two_iterations` applies without regularisation, and gives an optimum. -/
example (o : Options) (ho : o.alphaMin = 1e-5) (prim dual : Fl) :
    ∃ s, runProblem invLLT (exPar 0 2) (exLS o) 30 (lqProblem gapLQ 1) 1 zeroIter prim dual = .done s ∧ s.conv = true ∧
      gapLQ.Optimal 1 s.x.x s.x.u := by
  obtain ⟨s, h1, h2, h3⟩ := C59_lq_two_iterations invLLT_solves (gapLQ_symm 1) (gapLQ_convex 1) (p := exLS o) (by simp only [exLS, ho]; norm_num)
    (by norm_num [exLS]) (by norm_num [exLS]) (fuel := 30) (by norm_num) (par := exPar 0 2) (by norm_num [exPar]) rfl
    (by norm_num [exPar]) (by norm_num [exPar]) le_rfl (fun i _ => m1_posDef one_pos) zeroIter prim dual
  refine ⟨s, h1, h2, ?_⟩
  rcases h3 with ⟨-, a, b, hA, -, hm⟩ | h
  · have f0 : gaps (lqProblem gapLQ 1) zeroIter 0 = v1 1 := by show v1 1 - v1 0 = v1 1; rw [v1_sub]; norm_num
    have h1 := maxNorm_bound hA (i := 0) (by norm_num) 0
    rw [f0] at h1
    have : max a b < 1e-6 := hm
    have := (max_lt_iff.mp this).1
    norm_num [v1] at h1
    linarith
  · exact h

/-- The derivatives of a linear-quadratic problem are right, as `C59_converged_partial` asks for. -/
theorem lq_rightCosts {L : Spec.LQ n m} {N : ℕ} (hs : L.Symm N) (it : VIter n m) : RightCosts (lqProblem L N) N it := by
  have quad : ∀ c s q : ℝ, HasDerivAt (fun t : ℝ => c + t * s + t ^ 2 * q) s 0 := by
    intro c s q
    have hi : HasDerivAt (fun t : ℝ => t) 1 0 := hasDerivAt_id' 0
    exact (((hi.mul_const s).const_add c).fun_add ((hi.fun_pow 2).mul_const q)).congr_deriv (by norm_num)
  refine ⟨fun i hi dx du => ?_, fun dx => ?_⟩
  · refine (quad (L.stage i (it.x i) (it.u i))
      ((L.Q i *ᵥ it.x i + L.S i *ᵥ it.u i + L.q i) ⬝ᵥ dx + ((L.S i)ᵀ *ᵥ it.x i + L.R i *ᵥ it.u i + L.r i) ⬝ᵥ du)
      (1 / 2 * (dx ⬝ᵥ L.Q i *ᵥ dx) + dx ⬝ᵥ L.S i *ᵥ du + 1 / 2 * (du ⬝ᵥ L.R i *ᵥ du))).congr_of_eventuallyEq (.of_forall fun t => ?_)
    show L.stage i (it.x i + t • dx) (it.u i + t • du) = _
    simp only [Spec.LQ.stage, mulVec_add, dotProduct_add, add_dotProduct, mulVec_smul, dotProduct_smul, smul_dotProduct, smul_eq_mul]
    rw [dot_comm_symm (hs.Q i hi) dx (it.x i), dot_comm_symm (hs.R i hi) du (it.u i),
      dotProduct_comm (L.Q i *ᵥ it.x i), dot_comm_symm (hs.Q i hi) dx (it.x i),
      dotProduct_comm (L.R i *ᵥ it.u i), dot_comm_symm (hs.R i hi) du (it.u i), dotProduct_comm (L.S i *ᵥ it.u i),
      dotProduct_comm ((L.S i)ᵀ *ᵥ it.x i), dot_transpose, dotProduct_comm (L.S i *ᵥ du)]
    ring
  · refine (quad (L.final (it.x N)) ((L.QN *ᵥ it.x N + L.qN) ⬝ᵥ dx) (1 / 2 * (dx ⬝ᵥ L.QN *ᵥ dx))).congr_of_eventuallyEq (.of_forall fun t => ?_)
    show L.final (it.x N + t • dx) = _
    simp only [Spec.LQ.final, mulVec_add, dotProduct_add, add_dotProduct, mulVec_smul, dotProduct_smul, smul_dotProduct, smul_eq_mul]
    rw [dot_comm_symm hs.QN dx (it.x N), dotProduct_comm (L.QN *ᵥ it.x N), dot_comm_symm hs.QN dx (it.x N)]
    ring

/-! ### The reported cost -/

theorem loop_cost {X : Type} {e : Env X} (p : Params) {c : X → ℝ} (hI : ∀ x preg phi0 t, e.search x preg phi0 = some t → t.cost = c t.x) :
    ∀ k (s : St X), s.cost = .fin (c s.x) → (loop p e k s).st.cost = .fin (c (loop p e k s).st.x) := by
  intro k
  induction k with
  | zero => intro s h; exact h
  | succ k ih =>
    intro s h
    rw [loop]
    cases h1 : maxNorm (e.gaps s.x) with
    | nan => exact h
    | inf b => exact h
    | fin prim =>
      dsimp only
      cases h2 : maxNorm (e.grads s.x s.preg) with
      | nan => exact h
      | inf b => exact h
      | fin dual =>
        dsimp only
        split_ifs with h3
        · exact h
        · rw [h]
          dsimp only
          cases h5 : e.search s.x s.preg (c s.x) with
          | none => rfl
          | some t =>
            have ht : Fl.fin t.cost = .fin (c t.x) := congrArg Fl.fin (hI _ _ _ _ h5)
            dsimp only
            split_ifs <;> first | exact ht | exact ih _ ht

/-- Whatever the outcome of a run, the cost in the results is that of the trajectory in the results, if the terminal cost does not depend on
its control argument.  Missing for the full claim: other terminal costs, see `C59_reported_cost_wrong`. -/
theorem C59_reported_cost_partial {X : Type} {U : ℕ → Type} (llt : LLT) (par : Params) (p : LSParams) (fuel : ℕ) (P : Problem X U n m) (N : ℕ)
    (hT : ∀ x w w', P.lN x w = P.lN x w') (it : Iterate X U) (prim dual : Fl) :
    (runProblem llt par p fuel P N it prim dual).st.cost = .fin (evaluate P N (runProblem llt par p fuel P N it prim dual).st.x) := by
  refine loop_cost par (c := evaluate P N) ?_ _ _ rfl
  intro x preg phi0 t h
  simp only [problemEnv, search, Option.map_eq_some_iff] at h
  obtain ⟨r, -, rfl⟩ := h
  simp only [trialCost, evaluate]
  rw [hT]

/-- One control `u`, next state 0, cost `½ (1 - p) u² - u`; the terminal cost is minus its control. -/
noncomputable def lastProblem (p : ℝ) : Problem (Fin 1 → ℝ) (fun _ => Fin 1 → ℝ) 1 (fun _ => 1) where
  space _ := vecSpace 1
  next _ := vecSpace 1
  term := vecSpace 1
  uint _ u v := u + v
  vec _ u := List.ofFn u
  x0 := v1 0
  f _ _ _ := v1 0
  l _ _ u := 1 / 2 * (1 - p) * u 0 ^ 2 - u 0
  lN _ w := -w.headD 0
  nuT := 1
  deriv it := d1x1 0 ((1 - p) * it.u 0 0 - 1) 0 0 (1 - p) 0 0 0 0

/-- FDDP returns `true` with a cost that is not the cost of the trajectory it returns: the forward pass hands the last control to the
terminal cost, the problem itself a zero control.  Default regularisation and tolerance. -/
theorem C59_reported_cost_wrong {llt : LLT} (hl : Spec.SolvesPosDef llt) {par : Params} (hr : par.regInit = 1e-9) (hm : par.regMin = 1e-9)
    (hk : 2 ≤ par.maxIters) (ht : par.targetTol = 1e-6) (hg : par.thGrad ≤ 1) (hi : par.thStepInc < 1) (hdec : par.regDec ≤ 1) {p : LSParams}
    (ha : p.o.alphaMin + p.eps ≤ 1) (h1 : p.thAccept ≤ 1) {fuel : ℕ} (hf : 0 < fuel) (prim dual : Fl) :
    ∃ s c, runProblem llt par p fuel (lastProblem 1e-9) 1 zeroIter prim dual = .done s ∧ s.conv = true ∧ s.cost = .fin c ∧
      c = evaluate (lastProblem 1e-9) 1 s.x - 1 := by
  have gz : ∀ it : VIter 1 (fun _ => 1), it.x 0 = v1 0 → it.x 1 = v1 0 →
      gaps (lastProblem 1e-9) it 0 = v1 0 ∧ gaps (lastProblem 1e-9) it 1 = v1 0 := by
    intro it e0 e1
    refine ⟨?_, ?_⟩
    · show v1 0 - it.x 0 = v1 0; rw [e0, v1_sub, sub_zero]
    · show v1 0 - it.x 1 = v1 0; rw [e1, v1_sub, sub_zero]
  have hA : ∀ it : VIter 1 (fun _ => 1), it.x 0 = v1 0 → it.x 1 = v1 0 →
      maxNorm ((problemEnv llt p par.thGrad fuel (lastProblem 1e-9) 1).gaps it) = .fin 0 := by
    intro it e0 e1
    show maxNorm [norm (gaps (lastProblem 1e-9) it 0), norm (gaps (lastProblem 1e-9) it 1)] = _
    rw [(gz it e0 e1).1, (gz it e0 e1).2, norm_v1]
    simp [maxNorm, stdMax]
  have g0 := gz zeroIter rfl rfl
  have hD : (lastProblem 1e-9).deriv zeroIter = d1x1 0 (-1) 0 0 (1 - 1e-9) 0 0 0 0 := by
    show d1x1 0 ((1 - 1e-9) * 0 - 1) 0 0 (1 - 1e-9) 0 0 0 0 = _
    norm_num
  obtain ⟨q1, q2, q3, q4, q5, q6⟩ := pass1 hl (p := 1e-9) hD g0.1 g0.2 (Qu := -1) (Quu := 1) (k := 1) (K := 0) (by norm_num) (by norm_num)
    (by norm_num) (by norm_num) (by norm_num)
  set b := pass llt (lastProblem 1e-9) 1 1e-9 zeroIter with hb
  set t := trial (lastProblem 1e-9) zeroIter b.gains b.f 1 with htt
  have t0 : roll (lastProblem 1e-9) zeroIter b.gains b.f 1 0 = (v1 0, v1 0) := by
    show (v1 0 + (1 : ℝ) • gaps (lastProblem 1e-9) zeroIter 0, (1 : ℝ) • gaps (lastProblem 1e-9) zeroIter 0) = _
    rw [g0.1, v1_smul, v1_add]; norm_num
  have tu : t.u 0 = v1 1 := by
    show v1 0 + ((1 : ℝ) • (b.q 0).k + (b.q 0).K *ᵥ (roll (lastProblem 1e-9) zeroIter b.gains b.f 1 0).2) = v1 1
    rw [q2, q3, t0, v1_smul, m1_v1, v1_add, v1_add]; norm_num
  have tx0 : t.x 0 = v1 0 := congrArg Prod.fst t0
  have tx1 : t.x 1 = v1 0 := by
    show v1 0 + ((1 : ℝ) - 1) • gaps (lastProblem 1e-9) zeroIter 1 = v1 0
    rw [sub_self, zero_smul, add_zero]
  have td : devs (lastProblem 1e-9) 1 zeroIter b.gains b.f 1 1 = v1 0 := by
    show t.x 1 - v1 0 = v1 0
    rw [tx1, v1_sub, sub_zero]
  have hd1 : b.d1 1 (devs (lastProblem 1e-9) 1 zeroIter b.gains b.f 1) = -1 := by
    rw [Pass.d1, q4, q6 _ _ td]; norm_num
  have hd2 : b.d2 1 (devs (lastProblem 1e-9) 1 zeroIter b.gains b.f 1) = 1 := by
    rw [Pass.d2, q5, q6 _ _ td]; norm_num
  have et : evaluate (lastProblem 1e-9) 1 t = 1 / 2 * (1 - 1e-9) - 1 := by
    show 0 + (1 / 2 * (1 - 1e-9) * (t.u 0 0) ^ 2 - t.u 0 0) + -0 = _
    rw [tu]; simp only [v1]; norm_num
  have ec : trialCost (lastProblem 1e-9) 1 t = 1 / 2 * (1 - 1e-9) - 1 - 1 := by
    show 0 + (1 / 2 * (1 - 1e-9) * (t.u 0 0) ^ 2 - t.u 0 0) + -t.u 0 0 = _
    rw [tu]; simp only [v1]; norm_num
  have e0 : evaluate (lastProblem 1e-9) 1 zeroIter = 0 := by
    show (0 : ℝ) + (1 / 2 * (1 - 1e-9) * 0 ^ 2 - 0) + -0 = _
    norm_num
  have hs : search llt p par.thGrad fuel (lastProblem 1e-9) 1 zeroIter 1e-9 0 = some ⟨1, trialCost (lastProblem 1e-9) 1 t, t, -1⟩ := by
    obtain ⟨k, rfl⟩ : ∃ k, fuel = k + 1 := ⟨fuel - 1, by omega⟩
    rw [search, searchLoop, if_neg (not_lt.mpr ha)]
    dsimp only
    rw [← hb, Pass.model, hd1, hd2, if_pos]
    · rw [Option.map_some]
      dsimp only
      rw [hd1]
    · refine Or.inl ⟨by norm_num, Or.inr ?_⟩
      rw [← htt, ec]
      norm_num
      linarith
  obtain ⟨k, hk⟩ : ∃ k, par.maxIters = k + 2 := ⟨par.maxIters - 2, by omega⟩
  have hB : maxNorm ((problemEnv llt p par.thGrad fuel (lastProblem 1e-9) 1).grads zeroIter 1e-9) = .fin 1 := by
    show maxNorm [norm (b.q 0).Qu] = _
    rw [q1, norm_v1]
    simp [maxNorm, stdMax]
  have hD2 : (lastProblem 1e-9).deriv t = d1x1 0 (-1e-9) 0 0 (1 - 1e-9) 0 0 0 0 := by
    show d1x1 0 ((1 - 1e-9) * t.u 0 0 - 1) 0 0 (1 - 1e-9) 0 0 0 0 = _
    rw [tu]; simp only [v1]; norm_num
  have hr2 : decreaseReg par 1e-9 = 1e-9 := by
    rw [decreaseReg, hm]
    exact max_eq_right (by nlinarith)
  have hB2 : maxNorm ((problemEnv llt p par.thGrad fuel (lastProblem 1e-9) 1).grads t 1e-9) = .fin 1e-9 := by
    have gt := gz t tx0 tx1
    obtain ⟨r1, -⟩ := pass1 hl (p := 1e-9) hD2 gt.1 gt.2 (Qu := -1e-9) (Quu := 1) (k := 1e-9) (K := 0) (by norm_num) (by norm_num)
      (by norm_num) (by norm_num) (by norm_num)
    show maxNorm [norm ((pass llt (lastProblem 1e-9) 1 1e-9 t).q 0).Qu] = _
    rw [r1, norm_v1]
    norm_num [maxNorm, stdMax]
  refine ⟨⟨t, 1e-9, .fin (trialCost (lastProblem 1e-9) 1 t), .fin 0, .fin 1e-9, true, 1, [1e-9, 1e-9]⟩,
    trialCost (lastProblem 1e-9) 1 t, ?_, rfl, rfl, ?_⟩
  · rw [runProblem, run, hk, hr, e0, loop]
    dsimp only
    rw [hA zeroIter rfl rfl, hB]
    dsimp only
    rw [if_neg (by rw [ht]; norm_num)]
    have hs' : (problemEnv llt p par.thGrad fuel (lastProblem 1e-9) 1).search zeroIter 1e-9 0 = _ := hs
    rw [hs']
    dsimp only
    rw [if_neg (by norm_num; exact hg), if_neg (not_le.mpr hi), hr2, ite_self, loop]
    dsimp only
    rw [hA t tx0 tx1, hB2]
    dsimp only
    rw [if_pos (by rw [ht]; norm_num)]
  · rw [ec, et]

end Aligator.FDDP
