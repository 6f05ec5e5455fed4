import Verif.Spec.SolverLQ
import Verif.Lemmas.SolverLQ
import Verif.Props.Solver

/-!
# ProxDDP on linear-quadratic problems (C76)
-/

namespace Aligator.Link

open Matrix CSets Lag LQ

variable {nx nu : ℕ → ℕ} {N : ℕ}

/-- The states of the solver for a problem. -/
abbrev SSt (P : Prob nx nu N) := ProxDDP.St (Iter nx nu P.nc0) (ℕ → List ℝ) (WS nx P.nc0)

/-- The multipliers after a full step. -/
def lamNew {nc0 : ℕ} (l : Lams nx nc0) (d : Dir nx nu nc0) : Lams nx nc0 := ⟨l.init + d.dlam.init, fun i => l.dyn i + d.dlam.dyn i⟩

/-- What the constraint in front of a state contributes to the gradient of the Lagrangian. -/
def coX (P : Prob nx nu N) (x : ∀ i, Fin (nx i) → ℝ) (l : Lams nx P.nc0) : ∀ i, Fin (nx i) → ℝ
  | 0 => (P.hx (x 0))ᵀ *ᵥ l.init
  | i + 1 => -l.dyn i

/-- Gradient of the Lagrangian without path constraints, states. -/
def gX (P : Prob nx nu N) (x : ∀ i, Fin (nx i) → ℝ) (u : ∀ i, Fin (nu i) → ℝ) (l : Lams nx P.nc0) (i : ℕ) : Fin (nx i) → ℝ :=
  coX P x l i + (P.lx i (x i) (u i) + (P.fx i (x i) (u i))ᵀ *ᵥ l.dyn i)

/-- Gradient of the Lagrangian without path constraints, controls. -/
def gU (P : Prob nx nu N) (x : ∀ i, Fin (nx i) → ℝ) (u : ∀ i, Fin (nu i) → ℝ) (l : Lams nx P.nc0) (i : ℕ) : Fin (nu i) → ℝ :=
  P.lu i (x i) (u i) + (P.fu i (x i) (u i))ᵀ *ᵥ l.dyn i

/-- Gradient of the Lagrangian without path constraints, last state. -/
def gN (P : Prob nx nu N) (x : ∀ i, Fin (nx i) → ℝ) (l : Lams nx P.nc0) : Fin (nx N) → ℝ := coX P x l N + P.lNx (x N)

theorem compute_free {P : Prob nx nu N} (hc : ∀ i, P.c i = []) (hcN : P.cN = []) (x : ∀ i, Fin (nx i) → ℝ)
    (u : ∀ i, Fin (nu i) → ℝ) (l : Lams nx P.nc0) (v : ℕ → List ℝ) :
    (∀ i, i < N → (compute (P.data x u) (some l) v).Lxs i = gX P x u l i) ∧
    (compute (P.data x u) (some l) v).Lxs N = gN P x l ∧
    ∀ i, i < N → (compute (P.data x u) (some l) v).Lus i = gU P x u l i := by
  obtain ⟨h1, h2, h3⟩ := compute_eq (P.data x u) (some l) v
  have hb : ∀ i, base (P.data x u) (some l) i = coX P x l i := by intro i; cases i <;> rfl
  have e : ∀ i, (P.data x u).cstr i = [] := fun i => by simp [Prob.data, hc i]
  have eN : (P.data x u).termCstr = [] := by simp [Prob.data, hcN]
  refine ⟨fun i hi => ?_, ?_, fun i hi => ?_⟩
  · rw [h1 i hi, hb, e, cstrX, add_zero]; rfl
  · rw [h2, hb, eN, cstrX, add_zero]; rfl
  · rw [h3 i hi, e, cstrU, add_zero]; rfl

theorem empty_mulVec {n m : ℕ} (h : n = 0) (M : Matrix (Fin n) (Fin m) ℝ) (v : Fin n → ℝ) : Mᵀ *ᵥ v = 0 := by
  subst h
  funext k
  simp [mulVec, dotProduct]

theorem project_free {n m : ℕ} {cs : List (CstrData n m)} (h : cs = []) (op : CSet) (a : ℝ) (sh Lv : CSets.Vec) :
    (project op a sh Lv cs).lx = 0 ∧ (project op a sh Lv cs).lu = 0 := by
  have hd : LQ.dim cs = 0 := by rw [h]; rfl
  constructor
  · show _ - _ = _
    rw [empty_mulVec hd, empty_mulVec hd, sub_zero]
  · show _ - _ = _
    rw [empty_mulVec hd, empty_mulVec hd, sub_zero]

theorem coX_new (P : Prob nx nu N) (x : ∀ i, Fin (nx i) → ℝ) (l : Lams nx P.nc0) (d : Dir nx nu P.nc0) (i : ℕ) :
    coX P x (lamNew l d) i = coX P x l i -
      costate (-((P.hx (x 0))ᵀ *ᵥ d.dlam.init)) (⟨d.dx, d.du, d.dlam.init, d.dlam.dyn, d.dv⟩ : LQ.Spec.Step nx nu P.nc0) i := by
  cases i with
  | zero => simp [coX, lamNew, costate, mulVec_add]
  | succ i => simp only [coX, lamNew, costate]; abel

/-- The linear system on a problem without path constraints and curvature of the dynamics, row by row. -/
theorem lq_rows {P : Prob nx nu N} {H : Hess nx nu N} (hL : Spec.IsLQ P H) {S : Setup} {exact : Bool} {s : SSt P}
    {d : Dir nx nu P.nc0} (hs : Solves P S exact H s d) :
    P.hx (s.x.x 0) *ᵥ d.dx 0 + P.h (s.x.x 0) = 0 ∧
    (∀ i, i < N → P.fx i (s.x.x i) (s.x.u i) *ᵥ d.dx i + P.fu i (s.x.x i) (s.x.u i) *ᵥ d.du i +
      (P.f i (s.x.x i) (s.x.u i) - s.x.x (i + 1)) = d.dx (i + 1)) ∧
    (∀ i, i < N → (S.force = true → i ≠ 0) → gX P s.x.x s.x.u (lamNew s.x.lam d) i +
      (H.Lxx i *ᵥ d.dx i + s.preg • d.dx i + H.Lxu i *ᵥ d.du i) = 0) ∧
    (∀ i, i < N → gU P s.x.x s.x.u (lamNew s.x.lam d) i +
      ((H.Lxu i)ᵀ *ᵥ d.dx i + (H.Luu i *ᵥ d.du i + s.preg • d.du i)) = 0) ∧
    ((S.force = true → N ≠ 0) → gN P s.x.x (lamNew s.x.lam d) + (H.termLxx *ᵥ d.dx N + s.preg • d.dx N) = 0) := by
  let I := inputAt (P.data s.x.x s.x.u) H (P.values s.x.x s.x.u) S.op s.mu s.preg exact S.force s.x.lam s.prevV s.x.vs S.out
  let st : LQ.Spec.Step nx nu P.nc0 := ⟨d.dx, d.du, d.dlam.init, d.dlam.dyn, d.dv⟩
  let pp := -((P.hx (s.x.x 0))ᵀ *ᵥ d.dlam.init)
  obtain ⟨h0, h1, h2, -⟩ := (kkt_iff I s.mu ⟨d.dx, d.du, d.dlam.init, d.dlam.dyn, d.dv⟩).1 hs.1
  obtain ⟨c1, c2, c3⟩ := compute_free hL.c hL.cN s.x.x s.x.u s.x.lam s.x.vs
  obtain ⟨f1, f2, f3, f4⟩ := hL.flat
  have e : ∀ i, (P.data s.x.x s.x.u).cstr i = [] := fun i => by simp [Prob.data, hL.c i]
  have eN : (P.data s.x.x s.x.u).termCstr = [] := by simp [Prob.data, hL.cN]
  have ed : ∀ i, LQ.dim ((P.data s.x.x s.x.u).cstr i) = 0 := fun i => by rw [e]; rfl
  have edN : LQ.dim (P.data s.x.x s.x.u).termCstr = 0 := by rw [eN]; rfl
  have ih : ∀ i, initHess H.initHxx i = 0 := by intro i; rw [f4]; cases i <;> rfl
  have gx : ∀ i, (S.force = true → i ≠ 0) →
      (if S.force then (compute (P.data s.x.x s.x.u) (some s.x.lam) s.x.vs).setX 0 0 else
        compute (P.data s.x.x s.x.u) (some s.x.lam) s.x.vs).Lxs i = (compute (P.data s.x.x s.x.u) (some s.x.lam) s.x.vs).Lxs i := by
    intro i hi
    split
    · rename_i hf
      exact Function.update_of_ne (hi hf) _ _
    · rfl
  have gu : ∀ i, (if S.force then (compute (P.data s.x.x s.x.u) (some s.x.lam) s.x.vs).setX 0 0 else
        compute (P.data s.x.x s.x.u) (some s.x.lam) s.x.vs).Lus i = (compute (P.data s.x.x s.x.u) (some s.x.lam) s.x.vs).Lus i := by
    intro i
    split <;> rfl
  refine ⟨h0, fun i hi => (h1 i hi).2.2.2, fun i hi hf => ?_, fun i hi => ?_, fun hf => ?_⟩
  · have r : (H.Lxx i + s.preg • 1 + (if exact then H.Hxx i else 0) + initHess H.initHxx i) *ᵥ d.dx i +
        (H.Lxu i + (if exact then H.Hxu i else 0)) *ᵥ d.du i +
        ((if S.force then (compute (P.data s.x.x s.x.u) (some s.x.lam) s.x.vs).setX 0 0 else
          compute (P.data s.x.x s.x.u) (some s.x.lam) s.x.vs).Lxs i + (project (S.op i) I.muInv (I.shifted i) (I.Lvs i) ((P.data s.x.x s.x.u).cstr i)).lx) +
        (project (S.op i) I.muInv (I.shifted i) (I.Lvs i) ((P.data s.x.x s.x.u).cstr i)).Cᵀ *ᵥ vec _ (d.dv i) + (0 : Matrix _ (Fin 0) ℝ) *ᵥ 0 +
        (P.fx i (s.x.x i) (s.x.u i))ᵀ *ᵥ d.dlam.dyn i = costate pp st i := (h1 i hi).1
    rw [gx i hf, c1 i hi, (project_free (e i) _ _ _ _).1, empty_mulVec (ed i), ih, f1, f2] at r
    simp only [ite_self, add_zero, mulVec_zero, add_mulVec, smul_mulVec, one_mulVec] at r
    unfold gX at r ⊢
    rw [coX_new]
    show _ + (_ + (P.fx i (s.x.x i) (s.x.u i))ᵀ *ᵥ (s.x.lam.dyn i + d.dlam.dyn i)) + _ = 0
    rw [mulVec_add]
    have r' := sub_eq_zero.2 r
    refine Eq.trans ?_ r'
    show _ = _ - costate (-((P.hx (s.x.x 0))ᵀ *ᵥ d.dlam.init)) _ i
    abel
  · have r : (H.Lxu i + (if exact then H.Hxu i else 0))ᵀ *ᵥ d.dx i +
        (H.Luu i + s.preg • 1 + (if exact then H.Huu i else 0)) *ᵥ d.du i +
        ((if S.force then (compute (P.data s.x.x s.x.u) (some s.x.lam) s.x.vs).setX 0 0 else
          compute (P.data s.x.x s.x.u) (some s.x.lam) s.x.vs).Lus i + (project (S.op i) I.muInv (I.shifted i) (I.Lvs i) ((P.data s.x.x s.x.u).cstr i)).lu) +
        (project (S.op i) I.muInv (I.shifted i) (I.Lvs i) ((P.data s.x.x s.x.u).cstr i)).Dᵀ *ᵥ vec _ (d.dv i) + (0 : Matrix _ (Fin 0) ℝ) *ᵥ 0 +
        (P.fu i (s.x.x i) (s.x.u i))ᵀ *ᵥ d.dlam.dyn i = 0 := (h1 i hi).2.1
    rw [gu i, c3 i hi, (project_free (e i) _ _ _ _).2, empty_mulVec (ed i), f2, f3] at r
    simp only [ite_self, add_zero, mulVec_zero, add_mulVec, smul_mulVec, one_mulVec] at r
    unfold gU at r ⊢
    show P.lu i _ _ + (P.fu i (s.x.x i) (s.x.u i))ᵀ *ᵥ (s.x.lam.dyn i + d.dlam.dyn i) + _ = 0
    rw [mulVec_add]
    refine Eq.trans ?_ r
    abel
  · have r : (H.termLxx + s.preg • 1 + initHess H.initHxx N) *ᵥ d.dx N + (0 : Matrix _ (Fin 0) ℝ) *ᵥ Fin.elim0 +
        ((if S.force then (compute (P.data s.x.x s.x.u) (some s.x.lam) s.x.vs).setX 0 0 else
          compute (P.data s.x.x s.x.u) (some s.x.lam) s.x.vs).Lxs N + (project (S.op N) I.muInv (I.shifted N) (I.Lvs N) (P.data s.x.x s.x.u).termCstr).lx) +
        (project (S.op N) I.muInv (I.shifted N) (I.Lvs N) (P.data s.x.x s.x.u).termCstr).Cᵀ *ᵥ vec _ (d.dv N) + (0 : Matrix _ (Fin 0) ℝ) *ᵥ 0 =
        costate pp st N := h2
    rw [gx N hf, c2, (project_free eN _ _ _ _).1, empty_mulVec edN, ih] at r
    simp only [add_zero, mulVec_zero, add_mulVec, smul_mulVec, one_mulVec, zero_mulVec] at r
    unfold gN at r ⊢
    rw [coX_new]
    have r' := sub_eq_zero.2 r
    refine Eq.trans ?_ r'
    show _ = _ - costate (-((P.hx (s.x.x 0))ᵀ *ᵥ d.dlam.init)) _ N
    abel

/-! ### Sums over a trajectory -/

/-- Values of the constraints times multipliers. -/
def residual (P : Prob nx nu N) (x : ∀ i, Fin (nx i) → ℝ) (u : ∀ i, Fin (nu i) → ℝ) (l : Lams nx P.nc0) : ℝ :=
  l.init ⬝ᵥ P.h (x 0) + ∑ i ∈ Finset.range N, l.dyn i ⬝ᵥ (P.f i (x i) (u i) - x (i + 1))

/-- The quadratic form of the Hessians. -/
def quad (H : Hess nx nu N) (dx : ∀ i, Fin (nx i) → ℝ) (du : ∀ i, Fin (nu i) → ℝ) : ℝ :=
  (∑ i ∈ Finset.range N, (dx i ⬝ᵥ (H.Lxx i *ᵥ dx i) + 2 * (dx i ⬝ᵥ (H.Lxu i *ᵥ du i)) + du i ⬝ᵥ (H.Luu i *ᵥ du i))) +
    dx N ⬝ᵥ (H.termLxx *ᵥ dx N)

/-- Sum of squares of a direction. -/
def sq (N : ℕ) (dx : ∀ i, Fin (nx i) → ℝ) (du : ∀ i, Fin (nu i) → ℝ) : ℝ :=
  (∑ i ∈ Finset.range N, (dx i ⬝ᵥ dx i + du i ⬝ᵥ du i)) + dx N ⬝ᵥ dx N

/-- Derivative of the cost along a direction. -/
def costSlope (P : Prob nx nu N) (x : ∀ i, Fin (nx i) → ℝ) (u : ∀ i, Fin (nu i) → ℝ) (ex : ∀ i, Fin (nx i) → ℝ)
    (eu : ∀ i, Fin (nu i) → ℝ) : ℝ :=
  (∑ i ∈ Finset.range N, (ex i ⬝ᵥ P.lx i (x i) (u i) + eu i ⬝ᵥ P.lu i (x i) (u i))) + ex N ⬝ᵥ P.lNx (x N)

/-- The gradient of the Lagrangian without path constraints along a direction. -/
def lagSlope (P : Prob nx nu N) (x : ∀ i, Fin (nx i) → ℝ) (u : ∀ i, Fin (nu i) → ℝ) (l : Lams nx P.nc0)
    (ex : ∀ i, Fin (nx i) → ℝ) (eu : ∀ i, Fin (nu i) → ℝ) : ℝ :=
  (∑ i ∈ Finset.range N, (ex i ⬝ᵥ gX P x u l i + eu i ⬝ᵥ gU P x u l i)) + ex N ⬝ᵥ gN P x l

theorem dot_transpose {n m : ℕ} (A : Matrix (Fin n) (Fin m) ℝ) (a : Fin m → ℝ) (b : Fin n → ℝ) :
    a ⬝ᵥ (Aᵀ *ᵥ b) = b ⬝ᵥ (A *ᵥ a) := by
  rw [dotProduct_mulVec, vecMul_transpose, dotProduct_comm]

/-- Summation by parts. -/
theorem lagSlope_eq (P : Prob nx nu N) (x : ∀ i, Fin (nx i) → ℝ) (u : ∀ i, Fin (nu i) → ℝ) (l : Lams nx P.nc0)
    (ex : ∀ i, Fin (nx i) → ℝ) (eu : ∀ i, Fin (nu i) → ℝ) :
    lagSlope P x u l ex eu = costSlope P x u ex eu + l.init ⬝ᵥ (P.hx (x 0) *ᵥ ex 0) +
      ∑ i ∈ Finset.range N, l.dyn i ⬝ᵥ (P.fx i (x i) (u i) *ᵥ ex i + P.fu i (x i) (u i) *ᵥ eu i - ex (i + 1)) := by
  have e1 : (∑ i ∈ Finset.range N, ex i ⬝ᵥ coX P x l i) + ex N ⬝ᵥ coX P x l N =
      (∑ i ∈ Finset.range N, -(l.dyn i ⬝ᵥ ex (i + 1))) + l.init ⬝ᵥ (P.hx (x 0) *ᵥ ex 0) := by
    rw [← Finset.sum_range_succ, Finset.sum_range_succ']
    congr 1
    · refine Finset.sum_congr rfl fun i _ => ?_
      show ex (i + 1) ⬝ᵥ -l.dyn i = _
      rw [dotProduct_neg, dotProduct_comm]
    · exact dot_transpose _ _ _
  unfold lagSlope costSlope gX gU gN
  simp only [dotProduct_add, dotProduct_sub, Finset.sum_add_distrib, Finset.sum_sub_distrib, dot_transpose,
    Finset.sum_neg_distrib] at e1 ⊢
  linarith

theorem cost_add {P : Prob nx nu N} {H : Hess nx nu N} (hL : Spec.IsLQ P H) (x : ∀ i, Fin (nx i) → ℝ) (u : ∀ i, Fin (nu i) → ℝ)
    (ex : ∀ i, Fin (nx i) → ℝ) (eu : ∀ i, Fin (nu i) → ℝ) :
    Spec.cost P (fun i => x i + ex i) (fun i => u i + eu i) = Spec.cost P x u + costSlope P x u ex eu + 1 / 2 * quad H ex eu := by
  unfold Spec.cost costSlope quad
  simp only [hL.l, hL.lN, Finset.sum_add_distrib, ← Finset.mul_sum]
  ring

theorem quad_nonneg {H : Hess nx nu N} (hC : Spec.Convex N H) (ex : ∀ i, Fin (nx i) → ℝ) (eu : ∀ i, Fin (nu i) → ℝ) :
    0 ≤ quad H ex eu :=
  add_nonneg (Finset.sum_nonneg fun i hi => hC.stage i (Finset.mem_range.1 hi) _ _) (hC.term _)

theorem dot_self_nonneg {n : ℕ} (a : Fin n → ℝ) : 0 ≤ a ⬝ᵥ a := Finset.sum_nonneg fun k _ => mul_self_nonneg _

theorem sq_nonneg' (dx : ∀ i, Fin (nx i) → ℝ) (du : ∀ i, Fin (nu i) → ℝ) : 0 ≤ sq N dx du :=
  add_nonneg (Finset.sum_nonneg fun _ _ => add_nonneg (dot_self_nonneg _) (dot_self_nonneg _)) (dot_self_nonneg _)

theorem sq_zero {dx : ∀ i, Fin (nx i) → ℝ} {du : ∀ i, Fin (nu i) → ℝ} (h : sq N dx du = 0) :
    (∀ i, i ≤ N → dx i = 0) ∧ ∀ i, i < N → du i = 0 := by
  have h1 : ∀ i ∈ Finset.range N, 0 ≤ dx i ⬝ᵥ dx i + du i ⬝ᵥ du i := fun _ _ => add_nonneg (dot_self_nonneg _) (dot_self_nonneg _)
  have h2 := (add_eq_zero_iff_of_nonneg (Finset.sum_nonneg h1) (dot_self_nonneg (dx N))).1 h
  have h3 := (Finset.sum_eq_zero_iff_of_nonneg h1).1 h2.1
  have h4 : ∀ i, i < N → dx i = 0 ∧ du i = 0 := by
    intro i hi
    have := (add_eq_zero_iff_of_nonneg (dot_self_nonneg (dx i)) (dot_self_nonneg (du i))).1 (h3 i (Finset.mem_range.2 hi))
    exact ⟨dotProduct_self_eq_zero.1 this.1, dotProduct_self_eq_zero.1 this.2⟩
  refine ⟨fun i hi => ?_, fun i hi => (h4 i hi).2⟩
  rcases Nat.lt_or_eq_of_le hi with hi | rfl
  · exact (h4 i hi).1
  · exact dotProduct_self_eq_zero.1 h2.2

/-- The Newton direction decreases the Lagrangian at the new multipliers by its energy. -/
theorem newton_lagSlope {P : Prob nx nu N} {H : Hess nx nu N} (hL : Spec.IsLQ P H) {S : Setup} {exact : Bool} {s : SSt P}
    {d : Dir nx nu P.nc0} (hs : Solves P S exact H s d) (h0 : S.force = true → d.dx 0 = 0) :
    lagSlope P s.x.x s.x.u (lamNew s.x.lam d) d.dx d.du = -(quad H d.dx d.du + s.preg * sq N d.dx d.du) := by
  obtain ⟨-, -, r1, r2, r3⟩ := lq_rows hL hs
  have t : ∀ i, i < N → d.dx i ⬝ᵥ gX P s.x.x s.x.u (lamNew s.x.lam d) i + d.du i ⬝ᵥ gU P s.x.x s.x.u (lamNew s.x.lam d) i =
      -((d.dx i ⬝ᵥ (H.Lxx i *ᵥ d.dx i) + 2 * (d.dx i ⬝ᵥ (H.Lxu i *ᵥ d.du i)) + d.du i ⬝ᵥ (H.Luu i *ᵥ d.du i)) +
        s.preg * (d.dx i ⬝ᵥ d.dx i + d.du i ⬝ᵥ d.du i)) := by
    intro i hi
    have a2 : d.du i ⬝ᵥ gU P s.x.x s.x.u (lamNew s.x.lam d) i = -(d.dx i ⬝ᵥ (H.Lxu i *ᵥ d.du i) + (d.du i ⬝ᵥ (H.Luu i *ᵥ d.du i) +
        s.preg * (d.du i ⬝ᵥ d.du i))) := by
      rw [eq_neg_of_add_eq_zero_left (r2 i hi), dotProduct_neg, dotProduct_add, dotProduct_add, dotProduct_smul, smul_eq_mul,
        dot_transpose]
    have a1 : d.dx i ⬝ᵥ gX P s.x.x s.x.u (lamNew s.x.lam d) i = -(d.dx i ⬝ᵥ (H.Lxx i *ᵥ d.dx i) + s.preg * (d.dx i ⬝ᵥ d.dx i) +
        d.dx i ⬝ᵥ (H.Lxu i *ᵥ d.du i)) := by
      by_cases hf : S.force = true ∧ i = 0
      · obtain ⟨hf, rfl⟩ := hf
        rw [h0 hf]
        simp
      · rw [eq_neg_of_add_eq_zero_left (r1 i hi fun h h' => hf ⟨h, h'⟩), dotProduct_neg, dotProduct_add, dotProduct_add,
          dotProduct_smul, smul_eq_mul]
    rw [a1, a2]
    ring
  have tN : d.dx N ⬝ᵥ gN P s.x.x (lamNew s.x.lam d) = -(d.dx N ⬝ᵥ (H.termLxx *ᵥ d.dx N) + s.preg * (d.dx N ⬝ᵥ d.dx N)) := by
    by_cases hf : S.force = true ∧ N = 0
    · obtain ⟨hf, rfl⟩ := hf
      rw [h0 hf]
      simp
    · rw [eq_neg_of_add_eq_zero_left (r3 fun h h' => hf ⟨h, h'⟩), dotProduct_neg, dotProduct_add, dotProduct_smul, smul_eq_mul]
  unfold lagSlope quad sq
  rw [Finset.sum_congr rfl fun i hi => t i (Finset.mem_range.1 hi), tN, Finset.sum_neg_distrib, Finset.sum_add_distrib,
    ← Finset.mul_sum]
  ring

/-- Slope of the cost along the Newton direction. -/
theorem newton_costSlope {P : Prob nx nu N} {H : Hess nx nu N} (hL : Spec.IsLQ P H) {S : Setup} {exact : Bool} {s : SSt P}
    {d : Dir nx nu P.nc0} (hs : Solves P S exact H s d) (h0 : S.force = true → d.dx 0 = 0) :
    costSlope P s.x.x s.x.u d.dx d.du = residual P s.x.x s.x.u (lamNew s.x.lam d) -
      (quad H d.dx d.du + s.preg * sq N d.dx d.du) := by
  have h1 := newton_lagSlope hL hs h0
  obtain ⟨q0, q1, -⟩ := lq_rows hL hs
  rw [lagSlope_eq] at h1
  have e : ∑ i ∈ Finset.range N, (lamNew s.x.lam d).dyn i ⬝ᵥ (P.fx i (s.x.x i) (s.x.u i) *ᵥ d.dx i +
      P.fu i (s.x.x i) (s.x.u i) *ᵥ d.du i - d.dx (i + 1)) =
      -∑ i ∈ Finset.range N, (lamNew s.x.lam d).dyn i ⬝ᵥ (P.f i (s.x.x i) (s.x.u i) - s.x.x (i + 1)) := by
    rw [← Finset.sum_neg_distrib]
    refine Finset.sum_congr rfl fun i hi => ?_
    rw [← q1 i (Finset.mem_range.1 hi), ← dotProduct_neg]
    congr 1
    abel
  rw [e, eq_neg_of_add_eq_zero_left q0, dotProduct_neg] at h1
  unfold residual
  linarith

/-! ### The full step -/

theorem forced_dx {nc0 : ℕ} {force : Bool} {d : Dir nx nu nc0} (h : force = true → d.dx 0 = 0) :
    (d.forced force).dx = d.dx ∧ (d.forced force).du = d.du ∧ (d.forced force).dlam.dyn = d.dlam.dyn ∧
      (force = false → (d.forced force).dlam.init = d.dlam.init) := by
  cases force with
  | false => exact ⟨rfl, rfl, rfl, fun _ => rfl⟩
  | true =>
    refine ⟨?_, rfl, rfl, fun h => by cases h⟩
    show Function.update d.dx 0 0 = d.dx
    rw [← h rfl, Function.update_eq_self]

/-- A forced initial condition holds at the guess and determines the first state. -/
def GoodStart (P : Prob nx nu N) (force : Bool) (x0 : Fin (nx 0) → ℝ) : Prop :=
  force = true → P.h x0 = 0 ∧ ∀ y, P.hx x0 *ᵥ y = 0 → y = 0

theorem GoodStart.dx0 {P : Prob nx nu N} {H : Hess nx nu N} (hL : Spec.IsLQ P H) {S : Setup} {exact : Bool} {s : SSt P}
    {d : Dir nx nu P.nc0} (hs : Solves P S exact H s d) (hG : GoodStart P S.force (s.x.x 0)) : S.force = true → d.dx 0 = 0 := by
  intro hf
  obtain ⟨h1, h2⟩ := hG hf
  refine h2 _ ?_
  have := (lq_rows hL hs).1
  rwa [h1, add_zero] at this

/-- **C76** On every linear-quadratic problem without path constraints (any horizon, dimensions, iterate, multipliers,
regularisation, Hessian option, convex or not), a full step along the solution of the linear system leads to a trajectory that
satisfies the initial condition and the dynamics exactly, and whose Lagrangian gradient is the step times minus the
regularisation. -/
theorem C76_full_step {P : Prob nx nu N} {H : Hess nx nu N} (hL : Spec.IsLQ P H) {S : Setup} {exact : Bool} {s : SSt P}
    {d : Dir nx nu P.nc0} (hs : Solves P S exact H s d) (hG : GoodStart P S.force (s.x.x 0)) :
    Spec.Feasible P (linearStep s.x (d.forced S.force) 1).x (linearStep s.x (d.forced S.force) 1).u ∧
    (∀ i, i ≤ N → (gradAt P S.force (linearStep s.x (d.forced S.force) 1)).Lxs i = -(s.preg • d.dx i)) ∧
    ∀ i, i < N → (gradAt P S.force (linearStep s.x (d.forced S.force) 1)).Lus i = -(s.preg • d.du i) := by
  have h0 := hG.dx0 hL hs
  obtain ⟨q0, q1, r1, r2, r3⟩ := lq_rows hL hs
  obtain ⟨e1, e2, e3, e4⟩ := forced_dx h0
  set it := linearStep s.x (d.forced S.force) 1 with hit
  have hx : it.x = fun i => s.x.x i + d.dx i := by
    funext i
    show s.x.x i + (1 : ℝ) • (d.forced S.force).dx i = _
    rw [e1, one_smul]
  have hu : it.u = fun i => s.x.u i + d.du i := by
    funext i
    show s.x.u i + (1 : ℝ) • (d.forced S.force).du i = _
    rw [e2, one_smul]
  have hl : it.lam.dyn = (lamNew s.x.lam d).dyn := by
    funext i
    show s.x.lam.dyn i + (1 : ℝ) • (d.forced S.force).dlam.dyn i = s.x.lam.dyn i + d.dlam.dyn i
    rw [e3, one_smul]
  have hl0 : S.force = false → it.lam.init = (lamNew s.x.lam d).init := by
    intro hf
    show s.x.lam.init + (1 : ℝ) • (d.forced S.force).dlam.init = s.x.lam.init + d.dlam.init
    rw [e4 hf, one_smul]
  have hco : ∀ i, (S.force = true → i ≠ 0) → coX P it.x it.lam i = coX P s.x.x (lamNew s.x.lam d) i := by
    intro i hi
    cases i with
    | zero =>
      have hf : S.force = false := by
        cases h : S.force
        · rfl
        · exact absurd rfl (hi h)
      show (P.hx (it.x 0))ᵀ *ᵥ it.lam.init = (P.hx (s.x.x 0))ᵀ *ᵥ (lamNew s.x.lam d).init
      rw [hl0 hf, hx]
      dsimp only
      rw [hL.hx]
    | succ i =>
      show -it.lam.dyn i = -(lamNew s.x.lam d).dyn i
      rw [hl]
  obtain ⟨c1, c2, c3⟩ := compute_free hL.c hL.cN it.x it.u it.lam it.vs
  have gX0 : ∀ i, (S.force = true → i ≠ 0) → (gradAt P S.force it).Lxs i = (compute (P.data it.x it.u) (some it.lam) it.vs).Lxs i := by
    intro i hi
    unfold gradAt
    dsimp only
    split
    · rename_i hf
      exact Function.update_of_ne (hi hf) _ _
    · rfl
  have gU0 : ∀ i, (gradAt P S.force it).Lus i = (compute (P.data it.x it.u) (some it.lam) it.vs).Lus i := by
    intro i
    unfold gradAt
    dsimp only
    split <;> rfl
  refine ⟨⟨?_, fun i hi => ?_⟩, fun i hi => ?_, fun i hi => ?_⟩
  · rw [hx]
    dsimp only
    rw [hL.h, add_comm]
    exact q0
  · rw [hx, hu]
    dsimp only
    rw [hL.f, ← q1 i hi]
    abel
  · by_cases hf : S.force = true ∧ i = 0
    · obtain ⟨hf, rfl⟩ := hf
      rw [h0 hf, smul_zero, neg_zero]
      unfold gradAt
      dsimp only
      rw [if_pos hf]
      simp [Grad.setX]
    · have hi' : S.force = true → i ≠ 0 := fun h h' => hf ⟨h, h'⟩
      rw [gX0 i hi']
      rcases Nat.lt_or_eq_of_le hi with hi | rfl
      · rw [c1 i hi]
        have r := r1 i hi hi'
        unfold gX at r ⊢
        rw [hco i hi', hl, hx, hu]
        dsimp only
        rw [hL.lx, hL.fx, eq_neg_iff_add_eq_zero]
        refine Eq.trans ?_ r
        abel
      · rw [c2]
        have r := r3 hi'
        unfold gN at r ⊢
        rw [hco _ hi', hx]
        dsimp only
        rw [hL.lNx, eq_neg_iff_add_eq_zero]
        refine Eq.trans ?_ r
        abel
  · rw [gU0, c3 i hi]
    have r := r2 i hi
    unfold gU at r ⊢
    rw [hl, hx, hu]
    dsimp only
    rw [hL.lu, hL.fu, eq_neg_iff_add_eq_zero]
    refine Eq.trans ?_ r
    abel

/-- **C76** A feasible trajectory of a convex linear-quadratic problem at which the Lagrangian gradient is at most `eps` is
optimal within `eps` times the distance: this is what a result of the solver is worth. -/
theorem C76_near_optimal {P : Prob nx nu N} {H : Hess nx nu N} (hL : Spec.IsLQ P H) (hC : Spec.Convex N H) (force : Bool)
    (it : Iter nx nu P.nc0) (hG : GoodStart P force (it.x 0)) (hF : Spec.Feasible P it.x it.u) (eps : ℝ)
    (gx : ∀ i, i ≤ N → ∀ k, |(gradAt P force it).Lxs i k| ≤ eps) (gu : ∀ i, i < N → ∀ k, |(gradAt P force it).Lus i k| ≤ eps)
    (y : ∀ i, Fin (nx i) → ℝ) (w : ∀ i, Fin (nu i) → ℝ) (hy : Spec.Feasible P y w) :
    Spec.cost P it.x it.u ≤ Spec.cost P y w + eps * Spec.norm1 N (fun i => y i - it.x i) fun i => w i - it.u i := by
  set ex : ∀ i, Fin (nx i) → ℝ := fun i => y i - it.x i with hex
  set eu : ∀ i, Fin (nu i) → ℝ := fun i => w i - it.u i with heu
  have ey : (fun i => it.x i + ex i) = y := by funext i; simp [hex]
  have ew : (fun i => it.u i + eu i) = w := by funext i; simp [heu]
  have hc := cost_add hL it.x it.u ex eu
  rw [ey, ew] at hc
  have hq := quad_nonneg hC ex eu
  have h0 : P.hx (it.x 0) *ᵥ ex 0 = 0 := by
    have := hL.h (it.x 0) (ex 0)
    rw [show it.x 0 + ex 0 = y 0 from congrFun ey 0, hy.init, hF.init, zero_add] at this
    exact this.symm
  have h1 : ∀ i, i < N → P.fx i (it.x i) (it.u i) *ᵥ ex i + P.fu i (it.x i) (it.u i) *ᵥ eu i - ex (i + 1) = 0 := by
    intro i hi
    have := hL.f i (it.x i) (it.u i) (ex i) (eu i)
    rw [show it.x i + ex i = y i from congrFun ey i, show it.u i + eu i = w i from congrFun ew i, hy.dynamics i hi,
      hF.dynamics i hi] at this
    rw [sub_eq_zero]
    show _ = y (i + 1) - it.x (i + 1)
    rw [this]
    abel
  have hs := lagSlope_eq P it.x it.u it.lam ex eu
  rw [h0, dotProduct_zero, Finset.sum_eq_zero (fun i hi => by rw [h1 i (Finset.mem_range.1 hi), dotProduct_zero])] at hs
  have hx0 : force = true → ex 0 = 0 := fun hf => (hG hf).2 _ h0
  obtain ⟨c1, c2, c3⟩ := compute_free hL.c hL.cN it.x it.u it.lam it.vs
  have gX0 : ∀ i, (force = true → i ≠ 0) → (gradAt P force it).Lxs i = (compute (P.data it.x it.u) (some it.lam) it.vs).Lxs i := by
    intro i hi
    unfold gradAt
    dsimp only
    split
    · rename_i hf
      exact Function.update_of_ne (hi hf) _ _
    · rfl
  have gU0 : ∀ i, (gradAt P force it).Lus i = (compute (P.data it.x it.u) (some it.lam) it.vs).Lus i := by
    intro i
    unfold gradAt
    dsimp only
    split <;> rfl
  have hp := pair_bound (gradAt P force it) (force = true) eps (fun i hi _ => gx i hi) gu ex eu hx0
  have hpe : pair (gradAt P force it) N ex eu = lagSlope P it.x it.u it.lam ex eu := by
    have tx : ∀ i, (force = true ∧ i = 0) → (gradAt P force it).Lxs i ⬝ᵥ ex i = 0 := by
      rintro i ⟨hf, rfl⟩
      rw [hx0 hf, dotProduct_zero]
    unfold pair lagSlope
    rw [Finset.sum_range_succ, Finset.sum_add_distrib]
    have a1 : ∑ i ∈ Finset.range N, (gradAt P force it).Lxs i ⬝ᵥ ex i = ∑ i ∈ Finset.range N, ex i ⬝ᵥ gX P it.x it.u it.lam i := by
      refine Finset.sum_congr rfl fun i hi => ?_
      by_cases hf : force = true ∧ i = 0
      · rw [tx i hf]
        obtain ⟨hf, rfl⟩ := hf
        rw [hx0 hf, zero_dotProduct]
      · rw [gX0 i fun h h' => hf ⟨h, h'⟩, c1 i (Finset.mem_range.1 hi), dotProduct_comm]
    have a2 : (gradAt P force it).Lxs N ⬝ᵥ ex N = ex N ⬝ᵥ gN P it.x it.lam := by
      by_cases hf : force = true ∧ N = 0
      · rw [tx N hf]
        obtain ⟨hf, h⟩ := hf
        subst h
        rw [hx0 hf, zero_dotProduct]
      · rw [gX0 N fun h h' => hf ⟨h, h'⟩, c2, dotProduct_comm]
    have a3 : ∑ i ∈ Finset.range N, (gradAt P force it).Lus i ⬝ᵥ eu i = ∑ i ∈ Finset.range N, eu i ⬝ᵥ gU P it.x it.u it.lam i := by
      refine Finset.sum_congr rfl fun i hi => ?_
      rw [gU0, c3 i (Finset.mem_range.1 hi), dotProduct_comm]
    rw [a1, a2, a3]
    ring
  rw [hpe, hs] at hp
  have := (abs_le.1 hp).1
  linarith

/-! ### The criteria without path constraints -/

/-- Without path constraints the product sets have no component, and their projections return empty vectors. -/
def NoSets (S : Setup) (N : ℕ) : Prop := ∀ i, i ≤ N → (S.op i).normalConeProjection [] (S.out i) = []

theorem infNorm_le {l : List ℝ} {b : ℝ} (hb : 0 ≤ b) (h : ∀ a ∈ l, |a| ≤ b) : infNorm l ≤ b := by
  unfold infNorm
  induction l with
  | nil => exact hb
  | cons a l ih =>
    exact max_le (h a List.mem_cons_self) (ih fun c hc => h c (List.mem_cons_of_mem _ hc))

theorem infNorm_ofFn_le {n : ℕ} {v : Fin n → ℝ} {b : ℝ} (hb : 0 ≤ b) (h : ∀ k, |v k| ≤ b) : infNorm (List.ofFn v) ≤ b := by
  refine infNorm_le hb fun a ha => ?_
  obtain ⟨k, rfl⟩ := List.mem_ofFn.1 ha
  exact h k

theorem dual_le {g : Grad nx nu} {sl Lv : ℕ → List ℝ} {b : ℝ} (hb : 0 ≤ b) (hx : ∀ i, i ≤ N → ∀ k, |g.Lxs i k| ≤ b)
    (hu : ∀ i, i < N → ∀ k, |g.Lus i k| ≤ b) : (LQ.computeCriterion N g sl Lv).dual ≤ b := by
  refine max_le (infNorm_le hb fun a ha => ?_) (infNorm_le hb fun a ha => ?_)
  · obtain ⟨i, hi, rfl⟩ := List.mem_map.1 ha
    rw [abs_of_nonneg (infNorm_nonneg _)]
    exact infNorm_ofFn_le hb (hx i (Nat.lt_succ_iff.1 (List.mem_range.1 hi)))
  · obtain ⟨i, hi, rfl⟩ := List.mem_map.1 ha
    rw [abs_of_nonneg (infNorm_nonneg _)]
    exact infNorm_ofFn_le hb (hu i (List.mem_range.1 hi))

theorem inner_ge {g : Grad nx nu} {sl Lv : ℕ → List ℝ} :
    (∀ i, i ≤ N → ∀ k, |g.Lxs i k| ≤ (LQ.computeCriterion N g sl Lv).inner) ∧
    ∀ i, i < N → ∀ k, |g.Lus i k| ≤ (LQ.computeCriterion N g sl Lv).inner := by
  have st : ∀ i, i < N → max (max (infNorm (List.ofFn (g.Lxs i))) (infNorm (List.ofFn (g.Lus i))))
      (max (infNorm (sl i)) (infNorm (Lv i))) ≤ (LQ.computeCriterion N g sl Lv).inner := by
    intro i hi
    exact (le_abs_self _).trans (le_infNorm (List.mem_append_left _ (List.mem_map.2 ⟨i, List.mem_range.2 hi, rfl⟩)))
  have tm : max (infNorm (List.ofFn (g.Lxs N))) (infNorm (Lv N)) ≤ (LQ.computeCriterion N g sl Lv).inner :=
    (le_abs_self _).trans (le_infNorm (List.mem_append_right _ (List.mem_singleton_self _)))
  refine ⟨fun i hi k => ?_, fun i hi k => ?_⟩
  · rcases Nat.lt_or_eq_of_le hi with hi | rfl
    · exact (ofFn_le_infNorm _ k).trans (((le_max_left _ _).trans (le_max_left _ _)).trans (st i hi))
    · exact (ofFn_le_infNorm _ k).trans ((le_max_left _ _).trans tm)
  · exact (ofFn_le_infNorm _ k).trans (((le_max_right _ _).trans (le_max_left _ _)).trans (st i hi))

theorem inner_le {g : Grad nx nu} {sl Lv : ℕ → List ℝ} {b : ℝ} (hb : 0 ≤ b) (hx : ∀ i, i ≤ N → ∀ k, |g.Lxs i k| ≤ b)
    (hu : ∀ i, i < N → ∀ k, |g.Lus i k| ≤ b) (hs : ∀ i, i < N → infNorm (sl i) ≤ b) (hv : ∀ i, i ≤ N → infNorm (Lv i) ≤ b) :
    (LQ.computeCriterion N g sl Lv).inner ≤ b := by
  refine infNorm_le hb fun a ha => ?_
  rcases List.mem_append.1 ha with ha | ha
  · obtain ⟨i, hi, rfl⟩ := List.mem_map.1 ha
    have hi := List.mem_range.1 hi
    rw [abs_of_nonneg ((infNorm_nonneg _).trans ((le_max_left _ _).trans (le_max_left _ _)))]
    exact max_le (max_le (infNorm_ofFn_le hb (hx i hi.le)) (infNorm_ofFn_le hb (hu i hi))) (max_le (hs i hi) (hv i hi.le))
  · rw [List.mem_singleton.1 ha, abs_of_nonneg ((infNorm_nonneg _).trans (le_max_left _ _))]
    exact max_le (infNorm_ofFn_le hb (hx N le_rfl)) (hv N le_rfl)

theorem free_ms {P : Prob nx nu N} (hc : ∀ i, P.c i = []) (hcN : P.cN = []) {S : Setup} (hS : NoSets S N) (mu : ℝ)
    (v : ℕ → List ℝ) (it : Iter nx nu P.nc0) (i : ℕ) (hi : i ≤ N) :
    ((mult P S mu v it).1.ms i).vsPlus = [] ∧ ((mult P S mu v it).1.ms i).Lvs = [] ∧ ((mult P S mu v it).1.ms i).infeas = [] := by
  have e : (P.values it.x it.u).c i = [] := by
    unfold Prob.values stacked
    dsimp only
    split
    · rw [hc]; rfl
    · rw [hcN]; rfl
  have e2 : (mult P S mu v it).1.ms i = multiplierStep (S.op i) mu [] (v i) (it.vs i) (S.out i) [] := by
    rw [← e]; rfl
  rw [e2]
  simp [multiplierStep, hS i hi]

theorem free_prim {P : Prob nx nu N} (hc : ∀ i, P.c i = []) (hcN : P.cN = []) {S : Setup} (hS : NoSets S N) (mu : ℝ)
    (v : ℕ → List ℝ) (it : Iter nx nu P.nc0) :
    (mult P S mu v it).2 = some (infNorm ((List.range (N + 1)).map fun i => infNorm (slacks (P.values it.x it.u) i))) := by
  show some (max _ _) = _
  congr 1
  refine max_eq_right ?_
  refine (infNorm_le le_rfl fun a ha => ?_).trans (infNorm_nonneg _)
  obtain ⟨i, hi, rfl⟩ := List.mem_map.1 ha
  show |infNorm ((mult P S mu v it).1.ms i).infeas| ≤ 0
  rw [(free_ms hc hcN hS mu v it i (Nat.lt_succ_iff.1 (List.mem_range.1 hi))).2.2]
  simp [infNorm]

theorem prim_feasible {P : Prob nx nu N} (hc : ∀ i, P.c i = []) (hcN : P.cN = []) {S : Setup} (hS : NoSets S N) (mu : ℝ)
    (v : ℕ → List ℝ) (it : Iter nx nu P.nc0) (hF : Spec.Feasible P it.x it.u) : (mult P S mu v it).2 = some 0 := by
  rw [free_prim hc hcN hS]
  congr 1
  refine le_antisymm (infNorm_le le_rfl fun a ha => ?_) (infNorm_nonneg _)
  obtain ⟨i, hi, rfl⟩ := List.mem_map.1 ha
  rw [abs_of_nonneg (infNorm_nonneg _)]
  cases i with
  | zero =>
    refine infNorm_ofFn_le le_rfl fun k => ?_
    show |P.h (it.x 0) k| ≤ 0
    rw [hF.init]; simp
  | succ i =>
    refine infNorm_ofFn_le le_rfl fun k => ?_
    show |(P.f i (it.x i) (it.u i) - it.x (i + 1)) k| ≤ 0
    rw [hF.dynamics i (by have := List.mem_range.1 hi; omega)]; simp

theorem gradAt_u {P : Prob nx nu N} (hc : ∀ i, P.c i = []) (hcN : P.cN = []) (force : Bool) (it : Iter nx nu P.nc0) {i : ℕ}
    (hi : i < N) : (gradAt P force it).Lus i = gU P it.x it.u it.lam i := by
  rw [← (compute_free hc hcN it.x it.u it.lam it.vs).2.2 i hi]
  unfold gradAt
  dsimp only
  split <;> rfl

/-! ### The slope and the merit of a full step -/

/-- `dphi0` (solvers/proxddp/solver-proxddp.hxx:640-641), as in `oracle`. -/
noncomputable def slope (P : Prob nx nu N) (s : SSt P) (d : Dir nx nu P.nc0) : ℝ :=
  directionalDerivative (P.data s.x.x s.x.u) (lamsPlus s.mu (0.1 * s.mu) s.x.lam s.ws.V) (fun i => (s.ws.ms i).vsPlus) d.dx d.du

theorem foldl_add (f : ℕ → ℝ) (n : ℕ) (a : ℝ) : (List.range n).foldl (fun s i => s + f i) a = a + ∑ i ∈ Finset.range n, f i := by
  induction n with
  | zero => simp
  | succ n ih => rw [List.range_succ, List.foldl_append, ih, Finset.sum_range_succ]; simp [add_assoc]

theorem slope_eq {P : Prob nx nu N} (hc : ∀ i, P.c i = []) (hcN : P.cN = []) (s : SSt P) (d : Dir nx nu P.nc0) :
    slope P s d = lagSlope P s.x.x s.x.u (lamsPlus s.mu (0.1 * s.mu) s.x.lam s.ws.V) d.dx d.du := by
  set lp := lamsPlus s.mu (0.1 * s.mu) s.x.lam s.ws.V with hlp
  set g := compute (P.data s.x.x s.x.u) (some lp) (fun i => (s.ws.ms i).vsPlus) with hg
  obtain ⟨c1, c2, c3⟩ := compute_free hc hcN s.x.x s.x.u lp (fun i => (s.ws.ms i).vsPlus)
  have h1 : slope P s d = (List.range N).foldl (fun a i => a + (g.Lxs (i + 1) ⬝ᵥ d.dx (i + 1) + g.Lus i ⬝ᵥ d.du i))
      (g.Lxs 0 ⬝ᵥ d.dx 0) := by
    show (List.range N).foldl (fun a i => a + g.Lxs (i + 1) ⬝ᵥ d.dx (i + 1) + g.Lus i ⬝ᵥ d.du i) (g.Lxs 0 ⬝ᵥ d.dx 0) = _
    congr 1
    funext a i
    ring
  rw [h1, foldl_add (fun i => g.Lxs (i + 1) ⬝ᵥ d.dx (i + 1) + g.Lus i ⬝ᵥ d.du i), Finset.sum_add_distrib, ← add_assoc,
    add_comm (g.Lxs 0 ⬝ᵥ d.dx 0), ← Finset.sum_range_succ' (fun i => g.Lxs i ⬝ᵥ d.dx i), Finset.sum_range_succ]
  have a1 : ∑ i ∈ Finset.range N, g.Lxs i ⬝ᵥ d.dx i = ∑ i ∈ Finset.range N, d.dx i ⬝ᵥ gX P s.x.x s.x.u lp i :=
    Finset.sum_congr rfl fun i hi => by rw [c1 i (Finset.mem_range.1 hi), dotProduct_comm]
  have a2 : ∑ i ∈ Finset.range N, g.Lus i ⬝ᵥ d.du i = ∑ i ∈ Finset.range N, d.du i ⬝ᵥ gU P s.x.x s.x.u lp i :=
    Finset.sum_congr rfl fun i hi => by rw [c3 i (Finset.mem_range.1 hi), dotProduct_comm]
  unfold lagSlope
  rw [c2, Finset.sum_add_distrib, dotProduct_comm (gN _ _ _), a1, a2]
  ring

/-- Half the weighted sum of squares of the multipliers, the penalty part of the merit function. -/
noncomputable def penalty (N : ℕ) (mu : ℝ) {nc0 : ℕ} (l : Lams nx nc0) : ℝ :=
  1 / 2 * (mu * (l.init ⬝ᵥ l.init)) + ∑ i ∈ Finset.range N, 1 / 2 * (0.1 * mu * (l.dyn i ⬝ᵥ l.dyn i))

theorem cost_values (P : Prob nx nu N) (x : ∀ i, Fin (nx i) → ℝ) (u : ∀ i, Fin (nu i) → ℝ) :
    (P.values x u).cost = Spec.cost P x u := by
  show (List.range N).foldl (fun s i => s + P.l i (x i) (u i)) 0 + P.lN (x N) = _
  rw [foldl_add, zero_add]
  rfl

theorem merit_free {P : Prob nx nu N} (hc : ∀ i, P.c i = []) (hcN : P.cN = []) {S : Setup} (hS : NoSets S N) (mu : ℝ)
    (v : ℕ → List ℝ) (it : Iter nx nu P.nc0) :
    merit P S mu v it = Spec.cost P it.x it.u + penalty N mu (lamsPlus mu (0.1 * mu) it.lam (P.values it.x it.u)) := by
  have h0 : ∀ i, i ≤ N → sqNorm ((mult P S mu v it).1.ms i).vsPlus = 0 := fun i hi => by
    rw [(free_ms hc hcN hS mu v it i hi).1]; rfl
  unfold merit meritEvaluate
  dsimp only
  set lp := lamsPlus mu (0.1 * mu) it.lam (mult P S mu v it).1.V with hlp
  have e : ∀ a, (List.range N).foldl (fun pen i => pen + 1 / 2 * (0.1 * mu * (lp.dyn i ⬝ᵥ lp.dyn i)) +
      1 / 2 * (mu * sqNorm ((mult P S mu v it).1.ms i).vsPlus)) a =
      a + ∑ i ∈ Finset.range N, 1 / 2 * (0.1 * mu * (lp.dyn i ⬝ᵥ lp.dyn i)) := by
    intro a
    have : ∀ n, n ≤ N → (List.range n).foldl (fun pen i => pen + 1 / 2 * (0.1 * mu * (lp.dyn i ⬝ᵥ lp.dyn i)) +
        1 / 2 * (mu * sqNorm ((mult P S mu v it).1.ms i).vsPlus)) a =
        a + ∑ i ∈ Finset.range n, 1 / 2 * (0.1 * mu * (lp.dyn i ⬝ᵥ lp.dyn i)) := by
      intro n
      induction n with
      | zero => intro _; simp
      | succ n ih =>
        intro hn
        rw [List.range_succ, List.foldl_append, ih (by omega), Finset.sum_range_succ, List.foldl_cons, List.foldl_nil,
          h0 n (by omega)]
        ring
    exact this N le_rfl
  rw [e, h0 N le_rfl, show (mult P S mu v it).1.V.cost = Spec.cost P it.x it.u from cost_values P it.x it.u]
  show _ = _ + (1 / 2 * (mu * (lp.init ⬝ᵥ lp.init)) + ∑ i ∈ Finset.range N, 1 / 2 * (0.1 * mu * (lp.dyn i ⬝ᵥ lp.dyn i)))
  ring

/-- At a feasible trajectory the multiplier estimates are the multipliers. -/
theorem penalty_feasible {P : Prob nx nu N} {it : Iter nx nu P.nc0} (hF : Spec.Feasible P it.x it.u) (mu : ℝ) :
    penalty N mu (lamsPlus mu (0.1 * mu) it.lam (P.values it.x it.u)) = penalty N mu it.lam := by
  unfold penalty
  have e0 : (lamsPlus mu (0.1 * mu) it.lam (P.values it.x it.u)).init = it.lam.init := by
    funext k
    show it.lam.init k + P.h (it.x 0) k / mu = _
    rw [hF.init]; simp
  rw [e0]
  congr 1
  refine Finset.sum_congr rfl fun i hi => ?_
  have e1 : (lamsPlus mu (0.1 * mu) it.lam (P.values it.x it.u)).dyn i = it.lam.dyn i := by
    funext k
    show it.lam.dyn i k + (P.f i (it.x i) (it.u i) - it.x (i + 1)) k / (0.1 * mu) = _
    rw [hF.dynamics i (Finset.mem_range.1 hi)]; simp
  rw [e1]

/-- **C76** What the line search compares, on every linear-quadratic problem without path constraints: the slope of the merit
function along the step, and the change of the merit function over the full step.  The merit function charges for the size of
the new multipliers. -/
theorem C76_merit_of_full_step {P : Prob nx nu N} {H : Hess nx nu N} (hL : Spec.IsLQ P H) {S : Setup} (hS : NoSets S N)
    {exact : Bool} {s : SSt P} {d : Dir nx nu P.nc0} (hs : Solves P S exact H s d) (hG : GoodStart P S.force (s.x.x 0))
    (hV : s.ws.V = P.values s.x.x s.x.u) :
    slope P s (d.forced S.force) = residual P s.x.x s.x.u (lamNew s.x.lam d) -
      residual P s.x.x s.x.u (lamsPlus s.mu (0.1 * s.mu) s.x.lam (P.values s.x.x s.x.u)) -
      (quad H d.dx d.du + s.preg * sq N d.dx d.du) ∧
    merit P S s.mu s.prevV (linearStep s.x (d.forced S.force) 1) - merit P S s.mu s.prevV s.x =
      residual P s.x.x s.x.u (lamNew s.x.lam d) - (1 / 2 * quad H d.dx d.du + s.preg * sq N d.dx d.du) +
      (penalty N s.mu (linearStep s.x (d.forced S.force) 1).lam -
        penalty N s.mu (lamsPlus s.mu (0.1 * s.mu) s.x.lam (P.values s.x.x s.x.u))) := by
  have h0 := hG.dx0 hL hs
  obtain ⟨e1, e2, -, -⟩ := forced_dx h0
  obtain ⟨q0, q1, -⟩ := lq_rows hL hs
  have hcs := newton_costSlope hL hs h0
  constructor
  · rw [slope_eq hL.c hL.cN, e1, e2, hV, lagSlope_eq, hcs, eq_neg_of_add_eq_zero_left q0, dotProduct_neg]
    have e : ∀ l : Lams nx P.nc0, ∑ i ∈ Finset.range N, l.dyn i ⬝ᵥ (P.fx i (s.x.x i) (s.x.u i) *ᵥ d.dx i +
        P.fu i (s.x.x i) (s.x.u i) *ᵥ d.du i - d.dx (i + 1)) =
        -∑ i ∈ Finset.range N, l.dyn i ⬝ᵥ (P.f i (s.x.x i) (s.x.u i) - s.x.x (i + 1)) := by
      intro l
      rw [← Finset.sum_neg_distrib]
      refine Finset.sum_congr rfl fun i hi => ?_
      rw [← q1 i (Finset.mem_range.1 hi), ← dotProduct_neg]
      congr 1
      abel
    rw [e]
    unfold residual
    ring
  · rw [merit_free hL.c hL.cN hS, merit_free hL.c hL.cN hS, penalty_feasible (C76_full_step hL hs hG).1]
    have hx : (linearStep s.x (d.forced S.force) 1).x = fun i => s.x.x i + d.dx i := by
      funext i
      show s.x.x i + (1 : ℝ) • (d.forced S.force).dx i = _
      rw [e1, one_smul]
    have hu : (linearStep s.x (d.forced S.force) 1).u = fun i => s.x.u i + d.du i := by
      funext i
      show s.x.u i + (1 : ℝ) • (d.forced S.force).du i = _
      rw [e2, one_smul]
    rw [hx, hu, cost_add hL, hcs]
    ring

/-! ### Runs -/

/-- A line search that takes the full step under the Armijo condition. -/
def AcceptsFullStep (c1 thresh : ℝ) (search : Search) : Prop :=
  ∀ (phi0 dphi0 : ℝ) (phi : ℝ → ℝ), dphi0 < -thresh → phi 1 ≤ phi0 + c1 * dphi0 → search phi0 dphi0 phi = some (1, [1])

theorem armijo_accepts (o : Linesearch.Options) (ha : o.alphaMin ≤ 1) (hn : 0 < o.maxNumSteps) (ht : 0 ≤ o.dphiThresh)
    (qr : Linesearch.Solve2) (fuel : ℕ) (hf : 0 < fuel) : AcceptsFullStep o.armijoC1 o.dphiThresh (armijo o qr fuel) := by
  intro phi0 dphi0 phi h1 h2
  obtain ⟨n, rfl⟩ : ∃ n, fuel = n + 1 := ⟨fuel - 1, by omega⟩
  obtain ⟨m, hm⟩ : ∃ m, o.maxNumSteps = m + 1 := ⟨o.maxNumSteps - 1, by omega⟩
  unfold armijo Linesearch.armijoRun Linesearch.armijoFirst
  dsimp only
  rw [if_neg, hm, Linesearch.armijoLoop, if_pos]
  · simp only [Option.map_some, List.reverse_cons, List.reverse_nil, List.nil_append]
    rw [max_eq_left ha]
  · show phi 1 + -phi0 ≤ o.armijoC1 * 1 * dphi0
    linarith
  · show ¬ |dphi0| < o.dphiThresh
    rw [abs_of_neg (by linarith)]
    linarith

/-- The state at which the linear system of the first iteration is solved. -/
noncomputable abbrev firstSt (p : ProxDDP.Params) (P : Prob nx nu N) (S : Setup) (search : SSt P → Search)
    (solve : SSt P → Option (Dir nx nu P.nc0)) (v0 : ℕ → List ℝ) (s0 : SSt P) : SSt P :=
  ProxDDP.headSt p (env P S (oracle P S search solve)) (ProxDDP.initRun p v0 s0)

theorem firstSt_eq (p : ProxDDP.Params) (P : Prob nx nu N) (S : Setup) (search : SSt P → Search)
    (solve : SSt P → Option (Dir nx nu P.nc0)) (v0 : ℕ → List ℝ) (s0 : SSt P) :
    (firstSt p P S search solve v0 s0).x = s0.x ∧ (firstSt p P S search solve v0 s0).prevV = v0 ∧
    (firstSt p P S search solve v0 s0).mu = max p.muInit p.muLb ∧
    (firstSt p P S search solve v0 s0).preg = max p.regInit p.regMin ∧
    (firstSt p P S search solve v0 s0).ws = (mult P S (max p.muInit p.muLb) v0 s0.x).1 := by
  set e := env P S (oracle P S search solve) with he
  set s := ProxDDP.initRun p v0 s0 with hs
  have hw : e.mult (s.push false).mu (s.push false).prevV s.x =
      ((mult P S (max p.muInit p.muLb) v0 s0.x).1, some (primInfeas N
        (fun i => ((mult P S (max p.muInit p.muLb) v0 s0.x).1.ms i).infeas)
        (slacks (mult P S (max p.muInit p.muLb) v0 s0.x).1.V))) := rfl
  unfold firstSt ProxDDP.headSt
  rw [← he, ← hs, ProxDDP.computeMultipliers_eq hw]
  set t := ProxDDP.computeCriterion e { s.push false with
    ws := (mult P S (max p.muInit p.muLb) v0 s0.x).1
    prim := primInfeas N (fun i => ((mult P S (max p.muInit p.muLb) v0 s0.x).1.ms i).infeas)
      (slacks (mult P S (max p.muInit p.muLb) v0 s0.x).1.V) } with ht
  have hr : ProxDDP.initializeRegularization p t = { t with preg := max p.regInit p.regMin } := by
    unfold ProxDDP.initializeRegularization
    rw [if_pos (show t.pregLast = 0 from rfl)]
  rw [hr]
  exact ⟨rfl, rfl, rfl, rfl, rfl⟩

/-- **C76** (partial)  ProxDDP on a linear-quadratic problem without path constraints, for every horizon, dimensions, parameters,
guess and multipliers: if some derivative of the Lagrangian with respect to a control is larger than the first tolerance, the
solution of the linear system at the guess is a descent direction whose full step passes the test of the line search, and the
regularisation times the step is within the dual tolerance, then the run reports convergence after exactly one iteration, at a
trajectory that satisfies the initial condition and the dynamics exactly; if the costs are convex no feasible trajectory is
better by more than the dual tolerance times the distance.  What is missing: the conditions on the guess cannot be dropped, see
`C76_optimal_start_stalls`, `C76_last_defect_stalls` and `C76_full_step_rejected`. -/
theorem C76_one_iteration_partial {p : ProxDDP.Params} (hp : p.Valid) (hb : 0 < p.dualBeta) (hit : 2 ≤ p.maxIters)
    (hal : 0 < p.maxAlIters) (htt : 0 ≤ p.targetTol) (hth : 0 ≤ p.dphiThresh) (ham : p.alphaMin < 1)
    {P : Prob nx nu N} {H : Hess nx nu N} (hL : Spec.IsLQ P H) {S : Setup} (hS : NoSets S N)
    (search : SSt P → Search) (c1 : ℝ) (hse : ∀ s, AcceptsFullStep c1 p.dphiThresh (search s))
    (solve : SSt P → Option (Dir nx nu P.nc0)) (v0 : ℕ → List ℝ) (s0 : SSt P) (hG : GoodStart P S.force (s0.x.x 0))
    (hfar : ∃ i, i < N ∧ ∃ k, max (p.innerTol0 * (min (max p.muInit p.muLb) 0.99) ^ p.dualAlpha) p.targetDual <
      |(P.lu i (s0.x.x i) (s0.x.u i) + (P.fu i (s0.x.x i) (s0.x.u i))ᵀ *ᵥ s0.x.lam.dyn i) k|)
    {exact : Bool} {d : Dir nx nu P.nc0} (hd : solve (firstSt p P S search solve v0 s0) = some d)
    (hsol : Solves P S exact H (firstSt p P S search solve v0 s0) d)
    (hdesc : slope P (firstSt p P S search solve v0 s0) (d.forced S.force) < -p.dphiThresh)
    (harm : merit P S (max p.muInit p.muLb) v0 (linearStep s0.x (d.forced S.force) 1) ≤
      merit P S (max p.muInit p.muLb) v0 s0.x + c1 * slope P (firstSt p P S search solve v0 s0) (d.forced S.force))
    (hsx : ∀ i, i ≤ N → ∀ k, max p.regInit p.regMin * |d.dx i k| ≤ p.targetDual)
    (hsu : ∀ i, i < N → ∀ k, max p.regInit p.regMin * |d.du i k| ≤ p.targetDual) :
    ∃ F, ∀ fuel, F ≤ fuel → ∃ s, ProxDDP.run p (env P S (oracle P S search solve)) fuel v0 s0 = .done true s ∧
      s.numIters = 1 ∧ s.x = linearStep s0.x (d.forced S.force) 1 ∧ Spec.Feasible P s.x.x s.x.u ∧
      (Spec.Convex N H → ∀ y w, Spec.Feasible P y w → Spec.cost P s.x.x s.x.u ≤ Spec.cost P y w +
        p.targetDual * Spec.norm1 N (fun i => y i - s.x.x i) fun i => w i - s.x.u i) := by
  obtain ⟨t1, t2, t3, t4, t5⟩ := firstSt_eq p P S search solve v0 s0
  set st := firstSt p P S search solve v0 s0 with hst
  set mu := max p.muInit p.muLb with hmu
  set e := env P S (oracle P S search solve) with he
  set x1 := linearStep s0.x (d.forced S.force) 1 with hx1
  have hG' : GoodStart P S.force (st.x.x 0) := by rw [t1]; exact hG
  have hpreg : 0 < max p.regInit p.regMin := hp.regMin.trans_le (le_max_right _ _)
  obtain ⟨hF, hgx, hgu⟩ := C76_full_step hL hsol hG'
  rw [t1, ← hx1] at hF hgx hgu
  rw [t4] at hgx hgu
  have bx : ∀ i, i ≤ N → ∀ k, |(gradAt P S.force x1).Lxs i k| ≤ p.targetDual := by
    intro i hi k
    rw [hgx i hi]
    show |-(max p.regInit p.regMin * d.dx i k)| ≤ _
    rw [abs_neg, abs_mul, abs_of_pos hpreg]
    exact hsx i hi k
  have bu : ∀ i, i < N → ∀ k, |(gradAt P S.force x1).Lus i k| ≤ p.targetDual := by
    intro i hi k
    rw [hgu i hi]
    show |-(max p.regInit p.regMin * d.du i k)| ≤ _
    rw [abs_neg, abs_mul, abs_of_pos hpreg]
    exact hsu i hi k
  -- the first iterate
  obtain ⟨i0, hi0, k0, hk0⟩ := hfar
  have big : max (p.innerTol0 * (min mu 0.99) ^ p.dualAlpha) p.targetDual < |(gradAt P S.force s0.x).Lus i0 k0| := by
    rw [gradAt_u hL.c hL.cN S.force s0.x hi0]
    exact hk0
  obtain ⟨w, hw⟩ : ∃ w, mult P S mu v0 s0.x = (w, (mult P S mu v0 s0.x).2) := ⟨_, rfl⟩
  obtain ⟨pr, hpr⟩ : ∃ pr, (mult P S mu v0 s0.x).2 = some pr := ⟨_, free_prim hL.c hL.cN hS mu v0 s0.x⟩
  rw [hpr] at hw
  have hit0 : (ProxDDP.initRun p v0 s0).innerTol = max (p.innerTol0 * (min mu 0.99) ^ p.dualAlpha) p.targetDual := rfl
  have hgo : ¬ (e.innerCrit s0.x w ≤ (ProxDDP.initRun p v0 s0).innerTol ∨ (e.dualInf s0.x ≤ p.targetDual ∧ pr ≤ p.targetTol)) := by
    rintro (h | ⟨h, -⟩)
    · have := (inner_ge (N := N) (g := gradAt P S.force s0.x) (sl := slacks w.V) (Lv := fun i => (w.ms i).Lvs)).2 i0 hi0 k0
      rw [hit0] at h
      exact absurd (this.trans h) (not_le.2 big)
    · have := (dual_bounds (N := N) (g := gradAt P S.force s0.x) (sl := fun _ => []) (Lv := fun _ => [])).2 i0 hi0 k0
      exact absurd (this.trans h) (not_le.2 ((le_max_right _ _).trans_lt big))
  -- the step
  have ho : e.oracle st = .step (slope P st (d.forced S.force)) ([] ++ [x1]) 1 := by
    have hacc := hse st (merit P S mu v0 s0.x) (slope P st (d.forced S.force))
      (fun a => merit P S mu v0 (linearStep s0.x (d.forced S.force) a)) hdesc harm
    show oracle P S search solve st = _
    unfold oracle
    rw [hd]
    dsimp only
    have hse' : search st (merit P S st.mu st.prevV st.x) (directionalDerivative (P.data st.x.x st.x.u)
        (lamsPlus st.mu (0.1 * st.mu) st.x.lam st.ws.V) (fun i => (st.ws.ms i).vsPlus) (d.forced S.force).dx (d.forced S.force).du)
        (fun a => merit P S st.mu st.prevV (linearStep st.x (d.forced S.force) a)) = some (1, [1]) := by
      rw [t1, t2, t3, ← hacc]
      congr 1
      unfold slope
      rw [t1, t3]
    rw [hse']
    show ProxDDP.StepOutcome.step _ [linearStep st.x (d.forced S.force) 1] 1 = _
    rw [t1]
    unfold slope
    rw [t1]
    rfl
  -- some component of the step is not zero
  have hne : (∃ i, i ≤ N ∧ ∃ k, d.dx i k ≠ 0) ∨ ∃ i, i < N ∧ ∃ k, d.du i k ≠ 0 := by
    by_contra hcon
    rw [not_or] at hcon
    obtain ⟨n1, n2⟩ := hcon
    push Not at n1 n2
    have hz := (forced_dx (hG'.dx0 hL hsol))
    have : slope P st (d.forced S.force) = 0 := by
      rw [slope_eq hL.c hL.cN, hz.1, hz.2.1]
      unfold lagSlope
      rw [show d.dx N = 0 from funext (n1 N le_rfl), zero_dotProduct, add_zero]
      refine Finset.sum_eq_zero fun i hi => ?_
      have hi := Finset.mem_range.1 hi
      rw [show d.dx i = 0 from funext (n1 i hi.le), show d.du i = 0 from funext (n2 i hi), zero_dotProduct, zero_dotProduct, add_zero]
    rw [this] at hdesc
    linarith
  have hw1 : mult P S mu v0 x1 = ((mult P S mu v0 x1).1, some 0) :=
    Prod.ext rfl (prim_feasible hL.c hL.cN hS mu v0 x1 hF)
  have hc1 : 0 < e.innerCrit x1 (mult P S mu v0 x1).1 := by
    have g := inner_ge (N := N) (g := gradAt P S.force x1) (sl := slacks (mult P S mu v0 x1).1.V)
      (Lv := fun i => ((mult P S mu v0 x1).1.ms i).Lvs)
    rcases hne with ⟨i, hi, k, hk⟩ | ⟨i, hi, k, hk⟩
    · refine lt_of_lt_of_le ?_ (g.1 i hi k)
      rw [hgx i hi]
      show 0 < |-(max p.regInit p.regMin * d.dx i k)|
      rw [abs_neg, abs_mul]
      exact mul_pos (abs_pos.2 hpreg.ne') (abs_pos.2 hk)
    · refine lt_of_lt_of_le ?_ (g.2 i hi k)
      rw [hgu i hi]
      show 0 < |-(max p.regInit p.regMin * d.du i k)|
      rw [abs_neg, abs_mul]
      exact mul_pos (abs_pos.2 hpreg.ne') (abs_pos.2 hk)
  obtain ⟨F, hrun⟩ := ProxDDP.run_one_step hp.muLb hb hit hal v0 s0 (e := e) hw hgo ho
    (by rw [abs_of_neg (by linarith)]; exact not_le.2 (by linarith)) (not_le.2 ham) hw1 htt
    (dual_le (sl := fun _ => []) (Lv := fun _ => []) hp.targetDual bx bu) hc1
  refine ⟨F, fun fuel hf => ?_⟩
  obtain ⟨s, r1, r2, r3, -, -⟩ := hrun fuel hf
  refine ⟨s, r1, r3, r2, by rw [r2]; exact hF, fun hC y w hy => ?_⟩
  rw [r2]
  have hGx : GoodStart P S.force (x1.x 0) := by
    intro hf
    obtain ⟨h1, h2⟩ := hG hf
    have : x1.x 0 = s0.x.x 0 := by
      have hz := (forced_dx (hG'.dx0 hL hsol)).1
      show s0.x.x 0 + (1 : ℝ) • (d.forced S.force).dx 0 = _
      rw [hz, hG'.dx0 hL hsol hf]
      simp
    rw [this]
    exact ⟨h1, h2⟩
  exact C76_near_optimal hL hC S.force x1 hGx hF _ bx bu y w hy

/-! ### Runs that never move -/

/-- On a convex problem the linear system at an optimal trajectory has no primal step, whatever the multipliers. -/
theorem optimal_step {P : Prob nx nu N} {H : Hess nx nu N} (hL : Spec.IsLQ P H) (hC : Spec.Convex N H) {S : Setup} {exact : Bool}
    {s : SSt P} {d : Dir nx nu P.nc0} (hs : Solves P S exact H s d) (hpreg : 0 < s.preg)
    (hG : GoodStart P S.force (s.x.x 0)) (hO : Spec.Optimal P s.x.x s.x.u) :
    (∀ i, i ≤ N → d.dx i = 0) ∧ ∀ i, i < N → d.du i = 0 := by
  have h0 := hG.dx0 hL hs
  obtain ⟨e1, e2, -, -⟩ := forced_dx h0
  have hF := (C76_full_step hL hs hG).1
  have hx : (linearStep s.x (d.forced S.force) 1).x = fun i => s.x.x i + d.dx i := by
    funext i
    show s.x.x i + (1 : ℝ) • (d.forced S.force).dx i = _
    rw [e1, one_smul]
  have hu : (linearStep s.x (d.forced S.force) 1).u = fun i => s.x.u i + d.du i := by
    funext i
    show s.x.u i + (1 : ℝ) • (d.forced S.force).du i = _
    rw [e2, one_smul]
  rw [hx, hu] at hF
  have hle := hO.2 _ _ hF
  rw [cost_add hL, newton_costSlope hL hs h0] at hle
  have hr : residual P s.x.x s.x.u (lamNew s.x.lam d) = 0 := by
    unfold residual
    rw [hO.1.init, dotProduct_zero, zero_add]
    refine Finset.sum_eq_zero fun i hi => ?_
    rw [hO.1.dynamics i (Finset.mem_range.1 hi), sub_self, dotProduct_zero]
  rw [hr] at hle
  have hq := quad_nonneg hC d.dx d.du
  have hsq := sq_nonneg' (N := N) d.dx d.du
  refine sq_zero (le_antisymm ?_ hsq)
  by_contra hcon
  have := mul_pos hpreg (not_le.1 hcon)
  linarith

/-- **C76** (negation)  Started at an optimal trajectory of a convex linear-quadratic problem, with multipliers that are not
optimal (such as the zeros of `setup`), ProxDDP never moves and never reports convergence, for every horizon, dimensions,
parameters, line search and linear solver: the primal step is zero, the slope of the merit function with it, and the inner loop
stops without updating the multipliers. -/
theorem C76_optimal_start_stalls {p : ProxDDP.Params} (hp : p.Valid) (hth : 0 ≤ p.dphiThresh) {P : Prob nx nu N}
    {H : Hess nx nu N} (hL : Spec.IsLQ P H) (hC : Spec.Convex N H) {S : Setup} (hS : NoSets S N) (search : SSt P → Search)
    (solve : SSt P → Option (Dir nx nu P.nc0)) {exact : Bool} (hsol : ∀ s d, solve s = some d → Solves P S exact H s d)
    (fuel : ℕ) (v0 : ℕ → List ℝ) (s0 : SSt P) (hG : GoodStart P S.force (s0.x.x 0)) (hO : Spec.Optimal P s0.x.x s0.x.u)
    (hbad : ∃ i, i < N ∧ ∃ k, p.targetDual <
      |(P.lu i (s0.x.x i) (s0.x.u i) + (P.fu i (s0.x.x i) (s0.x.u i))ᵀ *ᵥ s0.x.lam.dyn i) k|) :
    (∃ s, ProxDDP.run p (env P S (oracle P S search solve)) fuel v0 s0 = .raised s ∧ s.x = s0.x ∧ s.numIters = 0) ∨
    (∃ s, ProxDDP.run p (env P S (oracle P S search solve)) fuel v0 s0 = .stuck s ∧ s.x = s0.x ∧ s.numIters = 0) ∨
    ∃ s, ProxDDP.run p (env P S (oracle P S search solve)) fuel v0 s0 = .done false s ∧ s.x = s0.x ∧ s.numIters = 0 := by
  refine ProxDDP.run_stalls hp.muLb hp.targetDual fuel v0 s0 (fun mu v _ => ?_) (fun s h1 h2 h3 h4 h5 => Or.inr ?_)
  · refine ⟨(mult P S mu v s0.x).1, infNorm ((List.range (N + 1)).map fun i => infNorm (slacks (P.values s0.x.x s0.x.u) i)),
      Prod.ext (x := mult P S mu v s0.x) rfl (free_prim hL.c hL.cN hS mu v s0.x), fun h => ?_⟩
    obtain ⟨i, hi, k, hk⟩ := hbad
    have := (dual_bounds (N := N) (g := gradAt P S.force s0.x) (sl := fun _ => []) (Lv := fun _ => [])).2 i hi k
    rw [gradAt_u hL.c hL.cN S.force s0.x hi] at this
    exact absurd (this.trans h.1) (not_le.2 hk)
  · show oracle P S search solve s = _ ∨ ∃ d l a, oracle P S search solve s = _ ∧ _
    unfold oracle
    cases hd : solve s with
    | none => exact Or.inl rfl
    | some d =>
      dsimp only
      have hs := hsol s d hd
      have hG' : GoodStart P S.force (s.x.x 0) := by rw [h1]; exact hG
      obtain ⟨z1, z2⟩ := optimal_step hL hC hs (by rw [h3]; exact hp.regMin.trans_le (le_max_right _ _)) hG' (by rw [h1]; exact hO)
      have hz := forced_dx (hG'.dx0 hL hs)
      have h0 : slope P s (d.forced S.force) = 0 := by
        rw [slope_eq hL.c hL.cN, hz.1, hz.2.1]
        unfold lagSlope
        rw [z1 N le_rfl, zero_dotProduct, add_zero]
        refine Finset.sum_eq_zero fun i hi => ?_
        have hi := Finset.mem_range.1 hi
        rw [z1 i hi.le, z2 i hi, zero_dotProduct, zero_dotProduct, add_zero]
      have h0' : directionalDerivative (P.data s.x.x s.x.u) (lamsPlus s.mu (0.1 * s.mu) s.x.lam s.ws.V)
        (fun i => (s.ws.ms i).vsPlus) (d.forced S.force).dx (d.forced S.force).du = 0 := h0
      split
      · exact Or.inl rfl
      · refine Or.inr ⟨_, _, _, rfl, ?_⟩
        rw [h0', abs_zero]
        exact hth

/-- **C76** (negation)  Started where all optimality conditions hold except the dynamics of the last stage, ProxDDP never moves and
never reports convergence: the inner criterion leaves out the last slack.  For every problem without path constraints (linear
or not), horizon, dimensions, parameters, line search and linear solver. -/
theorem C76_last_defect_stalls {p : ProxDDP.Params} (hp : p.Valid) {M : ℕ} {P : Prob nx nu (M + 1)} (hc : ∀ i, P.c i = [])
    (hcN : P.cN = []) {S : Setup} (hS : NoSets S (M + 1)) (search : SSt P → Search) (solve : SSt P → Option (Dir nx nu P.nc0))
    (fuel : ℕ) (v0 : ℕ → List ℝ) (s0 : SSt P)
    (hx : ∀ i, i < M + 1 → (S.force = true → i ≠ 0) → gX P s0.x.x s0.x.u s0.x.lam i = 0)
    (hu : ∀ i, i < M + 1 → gU P s0.x.x s0.x.u s0.x.lam i = 0) (hN : gN P s0.x.x s0.x.lam = 0)
    (hi : P.h (s0.x.x 0) = 0) (hdyn : ∀ i, i < M → P.f i (s0.x.x i) (s0.x.u i) = s0.x.x (i + 1))
    (hbad : ∃ k, p.targetTol < |(P.f M (s0.x.x M) (s0.x.u M) - s0.x.x (M + 1)) k|) :
    (∃ s, ProxDDP.run p (env P S (oracle P S search solve)) fuel v0 s0 = .raised s ∧ s.x = s0.x ∧ s.numIters = 0) ∨
    (∃ s, ProxDDP.run p (env P S (oracle P S search solve)) fuel v0 s0 = .stuck s ∧ s.x = s0.x ∧ s.numIters = 0) ∨
    ∃ s, ProxDDP.run p (env P S (oracle P S search solve)) fuel v0 s0 = .done false s ∧ s.x = s0.x ∧ s.numIters = 0 := by
  refine ProxDDP.run_stalls hp.muLb hp.targetDual fuel v0 s0 (fun mu v _ => ?_) (fun s h1 h2 h3 h4 h5 => Or.inl ?_)
  · refine ⟨(mult P S mu v s0.x).1, infNorm ((List.range (M + 1 + 1)).map fun i => infNorm (slacks (P.values s0.x.x s0.x.u) i)),
      Prod.ext (x := mult P S mu v s0.x) rfl (free_prim hc hcN hS mu v s0.x), fun h => ?_⟩
    obtain ⟨k, hk⟩ := hbad
    have a1 := ofFn_le_infNorm (P.f M (s0.x.x M) (s0.x.u M) - s0.x.x (M + 1)) k
    have a2 := infNorm_range (f := fun i => infNorm (slacks (P.values s0.x.x s0.x.u) i)) (Nat.lt_succ_self (M + 1))
    exact absurd ((a1.trans a2).trans h.2) (not_le.2 hk)
  · refine le_trans ?_ (le_trans (mul_nonneg (by norm_num) hp.targetDual) h4)
    obtain ⟨c1, c2, c3⟩ := compute_free hc hcN s0.x.x s0.x.u s0.x.lam s0.x.vs
    have hws : s.ws = (mult P S s.mu s.prevV s0.x).1 := h5
    refine inner_le le_rfl (fun i hi' k => ?_) (fun i hi' k => ?_) (fun i hi' => ?_) (fun i hi' => ?_)
    · have : (gradAt P S.force s0.x).Lxs i = 0 := by
        by_cases hf : S.force = true ∧ i = 0
        · obtain ⟨hf, rfl⟩ := hf
          unfold gradAt
          dsimp only
          rw [if_pos hf]
          simp [Grad.setX]
        · have hf' : S.force = true → i ≠ 0 := fun h h' => hf ⟨h, h'⟩
          have e : (gradAt P S.force s0.x).Lxs i = (compute (P.data s0.x.x s0.x.u) (some s0.x.lam) s0.x.vs).Lxs i := by
            unfold gradAt
            dsimp only
            split
            · rename_i h
              exact Function.update_of_ne (hf' h) _ _
            · rfl
          rw [e]
          rcases Nat.lt_or_eq_of_le hi' with h | rfl
          · rw [c1 i h, hx i h hf']
          · rw [c2, hN]
      rw [this]
      simp
    · rw [gradAt_u hc hcN S.force s0.x hi', hu i hi']
      simp
    · rw [hws]
      show infNorm (slacks (P.values s0.x.x s0.x.u) i) ≤ 0
      cases i with
      | zero =>
        refine infNorm_ofFn_le le_rfl fun k => ?_
        show |P.h (s0.x.x 0) k| ≤ 0
        rw [hi]; simp
      | succ i =>
        refine infNorm_ofFn_le le_rfl fun k => ?_
        show |(P.f i (s0.x.x i) (s0.x.u i) - s0.x.x (i + 1)) k| ≤ 0
        rw [hdyn i (by omega)]; simp
    · rw [hws, (free_ms hc hcN hS s.mu s.prevV s0.x i hi').2.1]
      simp [infNorm]

/-! ### Examples -/

theorem nonmonotone_accepts (o : Linesearch.Options) (ha : o.alphaMin < 1) (eta beta : ℝ) (fuel : ℕ) (hf : 0 < fuel) (thresh : ℝ) :
    AcceptsFullStep o.armijoC1 thresh (nonmonotone o eta beta fuel .reset) := by
  intro phi0 dphi0 phi _ h2
  obtain ⟨n, rfl⟩ : ∃ n, fuel = n + 1 := ⟨fuel - 1, by omega⟩
  unfold nonmonotone nmCalls
  rw [if_pos ha, if_pos]
  have : (Linesearch.NMSt.reset.update eta phi0).movAvg = phi0 := by
    simp [Linesearch.NMSt.reset, Linesearch.NMSt.update]
  rw [this]
  linarith

/-- The rows of the linear system with a forced initial condition are all there is to solve. -/
theorem lq_solves {P : Prob nx nu N} {H : Hess nx nu N} (hL : Spec.IsLQ P H) {S : Setup} (hf : S.force = true) (hN : 0 < N)
    (exact : Bool) {s : SSt P} {d : Dir nx nu P.nc0}
    (h0 : P.hx (s.x.x 0) *ᵥ d.dx 0 + P.h (s.x.x 0) = 0)
    (h1 : ∀ i, i < N → P.fx i (s.x.x i) (s.x.u i) *ᵥ d.dx i + P.fu i (s.x.x i) (s.x.u i) *ᵥ d.du i +
      (P.f i (s.x.x i) (s.x.u i) - s.x.x (i + 1)) = d.dx (i + 1))
    (h2 : (P.hx (s.x.x 0))ᵀ *ᵥ d.dlam.init + (P.fx 0 (s.x.x 0) (s.x.u 0))ᵀ *ᵥ d.dlam.dyn 0 +
      (H.Lxx 0 *ᵥ d.dx 0 + s.preg • d.dx 0 + H.Lxu 0 *ᵥ d.du 0) = 0)
    (h3 : ∀ i, i < N → i ≠ 0 → gX P s.x.x s.x.u (lamNew s.x.lam d) i +
      (H.Lxx i *ᵥ d.dx i + s.preg • d.dx i + H.Lxu i *ᵥ d.du i) = 0)
    (h4 : ∀ i, i < N → gU P s.x.x s.x.u (lamNew s.x.lam d) i +
      ((H.Lxu i)ᵀ *ᵥ d.dx i + (H.Luu i *ᵥ d.du i + s.preg • d.du i)) = 0)
    (h5 : gN P s.x.x (lamNew s.x.lam d) + (H.termLxx *ᵥ d.dx N + s.preg • d.dx N) = 0)
    (hv : ∀ i, d.dv i = []) : Solves P S exact H s d := by
  let I := inputAt (P.data s.x.x s.x.u) H (P.values s.x.x s.x.u) S.op s.mu s.preg exact S.force s.x.lam s.prevV s.x.vs S.out
  let st : LQ.Spec.Step nx nu P.nc0 := ⟨d.dx, d.du, d.dlam.init, d.dlam.dyn, d.dv⟩
  let pp := -((P.hx (s.x.x 0))ᵀ *ᵥ d.dlam.init)
  obtain ⟨c1, c2, c3⟩ := compute_free hL.c hL.cN s.x.x s.x.u s.x.lam s.x.vs
  obtain ⟨f1, f2, f3, f4⟩ := hL.flat
  have e : ∀ i, (P.data s.x.x s.x.u).cstr i = [] := fun i => by simp [Prob.data, hL.c i]
  have eN : (P.data s.x.x s.x.u).termCstr = [] := by simp [Prob.data, hL.cN]
  have ed : ∀ i, LQ.dim ((P.data s.x.x s.x.u).cstr i) = 0 := fun i => by rw [e]; rfl
  have edN : LQ.dim (P.data s.x.x s.x.u).termCstr = 0 := by rw [eN]; rfl
  have ih : ∀ i, initHess H.initHxx i = 0 := by intro i; rw [f4]; cases i <;> rfl
  have gx : ∀ i, i ≠ 0 →
      (if S.force then (compute (P.data s.x.x s.x.u) (some s.x.lam) s.x.vs).setX 0 0 else
        compute (P.data s.x.x s.x.u) (some s.x.lam) s.x.vs).Lxs i = (compute (P.data s.x.x s.x.u) (some s.x.lam) s.x.vs).Lxs i := by
    intro i hi
    rw [if_pos hf]
    exact Function.update_of_ne hi _ _
  have gx0 : (if S.force then (compute (P.data s.x.x s.x.u) (some s.x.lam) s.x.vs).setX 0 0 else
        compute (P.data s.x.x s.x.u) (some s.x.lam) s.x.vs).Lxs 0 = 0 := by
    rw [if_pos hf]
    simp [Grad.setX]
  have gu : ∀ i, (if S.force then (compute (P.data s.x.x s.x.u) (some s.x.lam) s.x.vs).setX 0 0 else
        compute (P.data s.x.x s.x.u) (some s.x.lam) s.x.vs).Lus i = (compute (P.data s.x.x s.x.u) (some s.x.lam) s.x.vs).Lus i := by
    intro i
    split <;> rfl
  refine ⟨(kkt_iff I s.mu ⟨d.dx, d.du, d.dlam.init, d.dlam.dyn, d.dv⟩).2 ⟨h0, fun i hi => ⟨?_, ?_, ?_, h1 i hi⟩, ?_, ?_⟩, ?_⟩
  · show (H.Lxx i + s.preg • 1 + (if exact then H.Hxx i else 0) + initHess H.initHxx i) *ᵥ d.dx i +
        (H.Lxu i + (if exact then H.Hxu i else 0)) *ᵥ d.du i +
        ((if S.force then (compute (P.data s.x.x s.x.u) (some s.x.lam) s.x.vs).setX 0 0 else
          compute (P.data s.x.x s.x.u) (some s.x.lam) s.x.vs).Lxs i + (project (S.op i) I.muInv (I.shifted i) (I.Lvs i) ((P.data s.x.x s.x.u).cstr i)).lx) +
        (project (S.op i) I.muInv (I.shifted i) (I.Lvs i) ((P.data s.x.x s.x.u).cstr i)).Cᵀ *ᵥ vec _ (d.dv i) + (0 : Matrix _ (Fin 0) ℝ) *ᵥ 0 +
        (P.fx i (s.x.x i) (s.x.u i))ᵀ *ᵥ d.dlam.dyn i = costate pp st i
    rw [(project_free (e i) _ _ _ _).1, empty_mulVec (ed i), ih, f1, f2]
    simp only [ite_self, add_zero, mulVec_zero, add_mulVec, smul_mulVec, one_mulVec]
    by_cases hi0 : i = 0
    · subst hi0
      rw [gx0]
      show _ = -((P.hx (s.x.x 0))ᵀ *ᵥ d.dlam.init)
      rw [eq_neg_iff_add_eq_zero]
      refine Eq.trans ?_ h2
      abel
    · have r := h3 i hi hi0
      unfold gX at r
      rw [coX_new, show (lamNew s.x.lam d).dyn i = s.x.lam.dyn i + d.dlam.dyn i from rfl, mulVec_add] at r
      rw [gx i hi0, c1 i hi, ← sub_eq_zero]
      unfold gX
      refine Eq.trans ?_ r
      show _ - costate (-((P.hx (s.x.x 0))ᵀ *ᵥ d.dlam.init)) _ i = _
      abel
  · show (H.Lxu i + (if exact then H.Hxu i else 0))ᵀ *ᵥ d.dx i +
        (H.Luu i + s.preg • 1 + (if exact then H.Huu i else 0)) *ᵥ d.du i +
        ((if S.force then (compute (P.data s.x.x s.x.u) (some s.x.lam) s.x.vs).setX 0 0 else
          compute (P.data s.x.x s.x.u) (some s.x.lam) s.x.vs).Lus i + (project (S.op i) I.muInv (I.shifted i) (I.Lvs i) ((P.data s.x.x s.x.u).cstr i)).lu) +
        (project (S.op i) I.muInv (I.shifted i) (I.Lvs i) ((P.data s.x.x s.x.u).cstr i)).Dᵀ *ᵥ vec _ (d.dv i) + (0 : Matrix _ (Fin 0) ℝ) *ᵥ 0 +
        (P.fu i (s.x.x i) (s.x.u i))ᵀ *ᵥ d.dlam.dyn i = 0
    rw [gu i, c3 i hi, (project_free (e i) _ _ _ _).2, empty_mulVec (ed i), f2, f3]
    simp only [ite_self, add_zero, mulVec_zero, add_mulVec, smul_mulVec, one_mulVec]
    have r := h4 i hi
    unfold gU at r ⊢
    rw [show (lamNew s.x.lam d).dyn i = s.x.lam.dyn i + d.dlam.dyn i from rfl, mulVec_add] at r
    refine Eq.trans ?_ r
    abel
  · funext k
    exact (Nat.not_lt_zero _ (lt_of_lt_of_eq k.2 (ed i))).elim
  · show (H.termLxx + s.preg • 1 + initHess H.initHxx N) *ᵥ d.dx N + (0 : Matrix _ (Fin 0) ℝ) *ᵥ Fin.elim0 +
        ((if S.force then (compute (P.data s.x.x s.x.u) (some s.x.lam) s.x.vs).setX 0 0 else
          compute (P.data s.x.x s.x.u) (some s.x.lam) s.x.vs).Lxs N + (project (S.op N) I.muInv (I.shifted N) (I.Lvs N) (P.data s.x.x s.x.u).termCstr).lx) +
        (project (S.op N) I.muInv (I.shifted N) (I.Lvs N) (P.data s.x.x s.x.u).termCstr).Cᵀ *ᵥ vec _ (d.dv N) + (0 : Matrix _ (Fin 0) ℝ) *ᵥ 0 =
        costate pp st N
    rw [gx N hN.ne', c2, (project_free eN _ _ _ _).1, empty_mulVec edN, ih]
    simp only [add_zero, mulVec_zero, add_mulVec, smul_mulVec, one_mulVec, zero_mulVec]
    have r := h5
    unfold gN at r ⊢
    rw [coX_new] at r
    rw [← sub_eq_zero]
    refine Eq.trans ?_ r
    show _ - costate (-((P.hx (s.x.x 0))ᵀ *ᵥ d.dlam.init)) _ N = _
    abel
  · funext k
    exact (Nat.not_lt_zero _ (lt_of_lt_of_eq k.2 edN)).elim
  · intro i hi
    rw [hv i]
    show 0 = P.nc i
    unfold Prob.nc
    simp [hL.c, hL.cN]

/-- Minimise `w / 2 * (u - t)² + w / 2 * x₁²` subject to `x₁ = x₀ + u + c`, `x₀ = 0`. -/
noncomputable def lqw (w t c : ℝ) : Prob (fun _ => 1) (fun _ => 1) 1 where
  nc0 := 1
  h x := x
  hx _ := 1
  l _ _ u := w / 2 * (u 0 - t) ^ 2
  lx _ _ _ := 0
  lu _ _ u _ := w * (u 0 - t)
  f _ x u := x + u + fun _ => c
  fx _ _ _ := 1
  fu _ _ _ := 1
  c _ := []
  lN x := w / 2 * x 0 ^ 2
  lNx x _ := w * x 0
  cN := []

/-- The Hessians of the costs. -/
noncomputable def lqwHess (w : ℝ) : Hess (fun _ => 1) (fun _ => 1) 1 := ⟨0, 0, fun _ => w • 1, 0, 0, 0, w • 1, 0⟩

/-- Forced initial condition, no constraint sets. -/
noncomputable def lqwSetup : Setup where
  op _ := noSet
  force := true
  mode := .newton
  out _ := []
  nc _ := 0

theorem lqwSetup_noSets : NoSets lqwSetup 1 := fun _ _ => noSet_cone

theorem lqw_isLQ (w t c : ℝ) : Spec.IsLQ (lqw w t c) (lqwHess w) where
  h x d := by
    show x + d = x + (1 : Matrix (Fin 1) (Fin 1) ℝ) *ᵥ d
    rw [one_mulVec]
  hx _ _ := rfl
  f i x u d e := by
    simp [lqw]
    abel
  fx _ _ _ _ _ := rfl
  fu _ _ _ _ _ := rfl
  l i x u d e := by
    simp [lqw, lqwHess, dotProduct, mulVec]
    ring
  lx i x u d e := by simp [lqw, lqwHess]
  lu i x u d e := by
    funext k
    rw [Subsingleton.elim k 0]
    simp [lqw, lqwHess, mulVec, dotProduct]
    ring
  lN x d := by
    simp [lqw, lqwHess, dotProduct, mulVec]
    ring
  lNx x d := by
    funext k
    rw [Subsingleton.elim k 0]
    simp [lqw, lqwHess, mulVec, dotProduct]
    ring
  c _ := rfl
  cN := rfl
  flat := ⟨fun _ => rfl, fun _ => rfl, fun _ => rfl, rfl⟩

theorem lqw_convex {w : ℝ} (hw : 0 ≤ w) : Spec.Convex 1 (lqwHess w) where
  stage i _ d e := by
    simp only [lqwHess, Pi.zero_apply, zero_mulVec, dotProduct_zero, mul_zero, add_zero, zero_add, smul_mulVec, one_mulVec, dotProduct_smul]
    exact smul_nonneg hw (dot_self_nonneg _)
  term d := by
    simp only [lqwHess, smul_mulVec, one_mulVec, dotProduct_smul]
    exact smul_nonneg hw (dot_self_nonneg _)

theorem lqw_start (w t c : ℝ) {x0 : Fin 1 → ℝ} (h : x0 = 0) : GoodStart (lqw w t c) lqwSetup.force x0 := by
  intro _
  subst h
  refine ⟨rfl, fun y hy => ?_⟩
  have e : (1 : Matrix (Fin 1) (Fin 1) ℝ) *ᵥ y = 0 := hy
  rwa [one_mulVec] at e

/-- A guess: `x = (0, a)`, `u = b`, multipliers zero. -/
noncomputable def lqwIter (w t c a b : ℝ) : Iter (fun _ => 1) (fun _ => 1) (lqw w t c).nc0 where
  x i _ := if i = 0 then 0 else a
  u _ _ := b
  lam := ⟨0, fun _ => 0⟩
  vs _ := []

/-- The initial state of the solver. -/
noncomputable def lqwSt (w t c a b : ℝ) : SSt (lqw w t c) where
  x := lqwIter w t c a b
  trial := lqwIter w t c a b
  prevV := (lqwIter w t c a b).vs
  ws := (mult (lqw w t c) lqwSetup 1 (lqwIter w t c a b).vs (lqwIter w t c a b)).1
  mu := 0
  innerTol := 0
  primTol := 0
  preg := 0
  pregLast := 0
  prim := 0
  dual := 0
  crit := 0
  numIters := 0
  alIter := 0
  log := []

/-- The step at the zero guess of `lqw w 2 0`. -/
theorem lqw_solution {w : ℝ} (hw : 0 < w) {s : SSt (lqw w 2 0)} (hx : s.x = lqwIter w 2 0 0 0) (hp : 0 ≤ s.preg) {exact : Bool}
    {d : Dir (fun _ => 1) (fun _ => 1) (lqw w 2 0).nc0} (h : Solves (lqw w 2 0) lqwSetup exact (lqwHess w) s d) :
    d.dx 0 = 0 ∧ d.dx 1 = (fun _ => w / (w + s.preg)) ∧ d.du 0 = (fun _ => w / (w + s.preg)) ∧ d.dlam.dyn 0 = fun _ => w := by
  obtain ⟨q0, q1, -, r2, r3⟩ := lq_rows (lqw_isLQ w 2 0) h
  have hne : w + s.preg ≠ 0 := by positivity
  rw [hx] at q0 q1 r2 r3
  have e0 : d.dx 0 = 0 := by
    have e : (1 : Matrix (Fin 1) (Fin 1) ℝ) *ᵥ d.dx 0 + (fun _ => 0) = 0 := q0
    rw [one_mulVec] at e
    exact (add_zero _).symm.trans e
  have e1 : d.du 0 0 = d.dx 1 0 := by
    have e : (1 : Matrix (Fin 1) (Fin 1) ℝ) *ᵥ d.dx 0 + (1 : Matrix (Fin 1) (Fin 1) ℝ) *ᵥ d.du 0 +
      ((((fun _ => 0) + (fun _ => 0) + fun _ => 0) : Fin 1 → ℝ) - fun _ => 0) = d.dx 1 := q1 0 one_pos
    have e := congrFun e 0
    rw [e0] at e
    simpa using e
  have e2 : w * (0 - 2) + (0 + d.dlam.dyn 0 0) + (w + s.preg) * d.du 0 0 = 0 := by
    have e : ((fun _ => w * (0 - 2) : Fin 1 → ℝ) + (1 : Matrix (Fin 1) (Fin 1) ℝ)ᵀ *ᵥ (0 + d.dlam.dyn 0) +
      ((0 : Matrix (Fin 1) (Fin 1) ℝ)ᵀ *ᵥ d.dx 0 + ((w • (1 : Matrix (Fin 1) (Fin 1) ℝ)) *ᵥ d.du 0 + s.preg • d.du 0))) = 0 :=
      r2 0 one_pos
    have e := congrFun e 0
    simp [smul_mulVec] at e
    linarith
  have e3 : -(0 + d.dlam.dyn 0 0) + w * 0 + (w + s.preg) * d.dx 1 0 = 0 := by
    have e : (-(0 + d.dlam.dyn 0) + (fun _ => w * 0 : Fin 1 → ℝ) +
      ((w • (1 : Matrix (Fin 1) (Fin 1) ℝ)) *ᵥ d.dx 1 + s.preg • d.dx 1)) = 0 := r3 (fun _ => one_ne_zero)
    have e := congrFun e 0
    simp [smul_mulVec] at e
    linarith
  rw [e1] at e2
  have e4 : (w + s.preg) * d.dx 1 0 = w := by linarith
  have e5 : d.dx 1 0 = w / (w + s.preg) := by rw [eq_div_iff hne]; linarith
  refine ⟨e0, ?_, ?_, ?_⟩
  · funext k; rw [Subsingleton.elim k 0]; exact e5
  · funext k; rw [Subsingleton.elim k 0]; exact e1.trans e5
  · funext k; rw [Subsingleton.elim k 0]; show d.dlam.dyn 0 0 = w; linarith

/-- That step exists. -/
theorem lqw_solvable {w : ℝ} (hw : 0 < w) {s : SSt (lqw w 2 0)} (hx : s.x = lqwIter w 2 0 0 0) (hp : 0 ≤ s.preg) (exact : Bool) :
    ∃ d, Solves (lqw w 2 0) lqwSetup exact (lqwHess w) s d := by
  have hne : w + s.preg ≠ 0 := by positivity
  have ha : (w + s.preg) * (w / (w + s.preg)) = w := mul_div_cancel₀ _ hne
  set a := w / (w + s.preg) with hadef
  refine ⟨⟨fun i _ => if i = 0 then 0 else a, fun _ _ => a, ⟨fun _ => -w, fun _ _ => w⟩, fun _ => []⟩, ?_⟩
  refine lq_solves (lqw_isLQ w 2 0) rfl one_pos exact ?_ ?_ ?_ ?_ ?_ ?_ (fun _ => rfl)
  · rw [hx]
    have e : (1 : Matrix (Fin 1) (Fin 1) ℝ) *ᵥ (fun _ => 0) + (fun _ => 0 : Fin 1 → ℝ) = 0 := by
      rw [one_mulVec]
      funext k; simp
    exact e
  · intro i hi
    rw [hx]
    interval_cases i
    show (1 : Matrix (Fin 1) (Fin 1) ℝ) *ᵥ (fun _ => 0) + (1 : Matrix (Fin 1) (Fin 1) ℝ) *ᵥ (fun _ => a) +
      ((((fun _ => 0) + (fun _ => 0) + fun _ => 0) : Fin 1 → ℝ) - fun _ => 0) = fun _ => a
    rw [one_mulVec, one_mulVec]
    funext k; simp
  · show (1 : Matrix (Fin 1) (Fin 1) ℝ)ᵀ *ᵥ (fun _ => -w) + (1 : Matrix (Fin 1) (Fin 1) ℝ)ᵀ *ᵥ (fun _ => w) +
      ((0 : Matrix (Fin 1) (Fin 1) ℝ) *ᵥ (fun _ => 0) + s.preg • (fun _ => 0) + (0 : Matrix (Fin 1) (Fin 1) ℝ) *ᵥ (fun _ => a)) = 0
    rw [transpose_one, one_mulVec, one_mulVec, zero_mulVec, zero_mulVec]
    funext k; simp
  · intro i hi h0
    omega
  · intro i hi
    rw [hx]
    interval_cases i
    show ((fun _ => w * (0 - 2) : Fin 1 → ℝ) + (1 : Matrix (Fin 1) (Fin 1) ℝ)ᵀ *ᵥ (0 + fun _ => w) +
      ((0 : Matrix (Fin 1) (Fin 1) ℝ)ᵀ *ᵥ (fun _ => 0) + ((w • (1 : Matrix (Fin 1) (Fin 1) ℝ)) *ᵥ (fun _ => a) + s.preg • (fun _ => a)))) = 0
    rw [transpose_one, one_mulVec, transpose_zero, zero_mulVec, smul_mulVec, one_mulVec]
    funext k
    simp
    linarith
  · rw [hx]
    show (-(0 + fun _ => w) + (fun _ => w * 0 : Fin 1 → ℝ) +
      ((w • (1 : Matrix (Fin 1) (Fin 1) ℝ)) *ᵥ (fun _ => a) + s.preg • (fun _ => a))) = 0
    rw [smul_mulVec, one_mulVec]
    funext k
    simp
    linarith

/-- What the line search sees at the zero guess of `lqw w 2 0`. -/
theorem lqw_merit {w : ℝ} (hw : 0 < w) {s : SSt (lqw w 2 0)} (hx : s.x = lqwIter w 2 0 0 0) (hp : 0 ≤ s.preg)
    (hV : s.ws.V = (lqw w 2 0).values s.x.x s.x.u) {exact : Bool}
    {d : Dir (fun _ => 1) (fun _ => 1) (lqw w 2 0).nc0} (h : Solves (lqw w 2 0) lqwSetup exact (lqwHess w) s d) :
    slope (lqw w 2 0) s (d.forced true) = -(2 * (w + s.preg) * (w / (w + s.preg)) ^ 2) ∧
    merit (lqw w 2 0) lqwSetup s.mu s.prevV (linearStep s.x (d.forced true) 1) - merit (lqw w 2 0) lqwSetup s.mu s.prevV s.x =
      -((w + 2 * s.preg) * (w / (w + s.preg)) ^ 2) + 0.05 * s.mu * w ^ 2 := by
  have hG : GoodStart (lqw w 2 0) lqwSetup.force (s.x.x 0) := by rw [hx]; exact lqw_start w 2 0 rfl
  obtain ⟨e0, e1, e2, e3⟩ := lqw_solution hw hx hp h
  obtain ⟨m1, m2⟩ := C76_merit_of_full_step (lqw_isLQ w 2 0) lqwSetup_noSets h hG hV
  set a := w / (w + s.preg) with ha
  have hq : quad (lqwHess w) d.dx d.du = 2 * w * a ^ 2 := by
    simp [quad, lqwHess, e0, e1, e2, dotProduct, mulVec]
    ring
  have hsq : sq 1 d.dx d.du = 2 * a ^ 2 := by
    simp [sq, e0, e1, e2, dotProduct]
    ring
  have hr : ∀ l, residual (lqw w 2 0) s.x.x s.x.u l = 0 := by
    intro l
    rw [hx]
    simp [residual, lqw, lqwIter, dotProduct]
  rw [hr, hr, hq, hsq] at m1
  rw [hr, hq, hsq] at m2
  refine ⟨m1.trans (by ring), m2.trans ?_⟩
  have p0 : penalty 1 s.mu (lamsPlus s.mu (0.1 * s.mu) s.x.lam ((lqw w 2 0).values s.x.x s.x.u)) = 0 := by
    have i0 : (lamsPlus s.mu (0.1 * s.mu) s.x.lam ((lqw w 2 0).values s.x.x s.x.u)).init = 0 := by
      rw [hx]
      funext k
      show (0 : ℝ) + 0 / s.mu = 0
      simp
    have i1 : (lamsPlus s.mu (0.1 * s.mu) s.x.lam ((lqw w 2 0).values s.x.x s.x.u)).dyn 0 = 0 := by
      rw [hx]
      funext k
      show (0 : ℝ) + (0 + 0 + 0 - 0) / (0.1 * s.mu) = 0
      simp
    simp [penalty, i0, i1]
  have p1 : penalty 1 s.mu (linearStep s.x (d.forced lqwSetup.force) 1).lam = 0.05 * s.mu * w ^ 2 := by
    have i0 : (linearStep s.x (d.forced lqwSetup.force) 1).lam.init = 0 := by
      rw [hx]
      simp [linearStep, Dir.forced, lqwSetup, lqwIter]
    have i1 : (linearStep s.x (d.forced lqwSetup.force) 1).lam.dyn 0 = fun _ => w := by
      rw [hx]
      show (0 : Fin 1 → ℝ) + (1 : ℝ) • d.dlam.dyn 0 = _
      rw [e3]
      simp
    simp [penalty, i0, i1, dotProduct]
    ring
  rw [p0, p1]
  ring

/-- **C76** (negation)  Scaling the cost decides whether the full step is taken: for `w ≥ 2001`, with the default parameters, the full
step from the zero guess is along a descent direction and reaches a feasible trajectory where all derivatives of the Lagrangian
are within the tolerance, yet the merit function is larger there, so that no test of sufficient decrease accepts it.  The
minimisers do not depend on `w`. -/
theorem C76_full_step_rejected {w : ℝ} (hw : 2001 ≤ w) (search : SSt (lqw w 2 0) → Search)
    (solve : SSt (lqw w 2 0) → Option (Dir (fun _ => 1) (fun _ => 1) (lqw w 2 0).nc0)) (v0 : ℕ → List ℝ) {exact : Bool}
    {d : Dir (fun _ => 1) (fun _ => 1) (lqw w 2 0).nc0}
    (h : Solves (lqw w 2 0) lqwSetup exact (lqwHess w)
      (firstSt ProxDDP.defaultParams (lqw w 2 0) lqwSetup search solve v0 (lqwSt w 2 0 0 0)) d) :
    let s0 := lqwIter w 2 0 0 0
    let s1 := linearStep s0 (d.forced true) 1
    let dphi := slope (lqw w 2 0) (firstSt ProxDDP.defaultParams (lqw w 2 0) lqwSetup search solve v0 (lqwSt w 2 0 0 0)) (d.forced true)
    dphi < -1 ∧ Spec.Feasible (lqw w 2 0) s1.x s1.u ∧
    (∀ i, i ≤ 1 → ∀ k, |(gradAt (lqw w 2 0) true s1).Lxs i k| ≤ 1e-6) ∧
    (∀ i, i < 1 → ∀ k, |(gradAt (lqw w 2 0) true s1).Lus i k| ≤ 1e-6) ∧
    ∀ c1, 0 ≤ c1 → merit (lqw w 2 0) lqwSetup 0.01 v0 s0 + c1 * dphi < merit (lqw w 2 0) lqwSetup 0.01 v0 s1 := by
  obtain ⟨t1, t2, t3, t4, t5⟩ := firstSt_eq ProxDDP.defaultParams (lqw w 2 0) lqwSetup search solve v0 (lqwSt w 2 0 0 0)
  set st := firstSt ProxDDP.defaultParams (lqw w 2 0) lqwSetup search solve v0 (lqwSt w 2 0 0 0) with hst
  have hmu : st.mu = 0.01 := by rw [t3]; norm_num [ProxDDP.defaultParams]
  have hpr : st.preg = 1e-9 := by rw [t4]; norm_num [ProxDDP.defaultParams]
  have hx : st.x = lqwIter w 2 0 0 0 := t1
  have hV : st.ws.V = (lqw w 2 0).values st.x.x st.x.u := by rw [t5, t1]; rfl
  have hw0 : 0 < w := by linarith
  have hp : 0 ≤ st.preg := by rw [hpr]; norm_num
  obtain ⟨m1, m2⟩ := lqw_merit hw0 hx hp hV h
  obtain ⟨e0, e1, e2, -⟩ := lqw_solution hw0 hx hp h
  have hG : GoodStart (lqw w 2 0) lqwSetup.force (st.x.x 0) := by rw [hx]; exact lqw_start w 2 0 rfl
  obtain ⟨f1, f2, f3⟩ := C76_full_step (lqw_isLQ w 2 0) h hG
  have ha1 : w / (w + st.preg) ≤ 1 := by rw [div_le_one (by positivity)]; linarith
  have ha2 : 1 / 2 ≤ w / (w + st.preg) := by rw [div_le_div_iff₀ (by norm_num) (by positivity), hpr]; norm_num; linarith
  set a := w / (w + st.preg) with ha
  have hb : |-(st.preg * a)| ≤ 1e-6 := by
    rw [abs_neg, abs_of_nonneg (mul_nonneg hp (by linarith)), hpr]
    norm_num
    linarith
  have hdphi : slope (lqw w 2 0) st (d.forced true) < -1 := by
    rw [m1]
    have : (1 / 2) ^ 2 ≤ a ^ 2 := pow_le_pow_left₀ (by norm_num) ha2 2
    have h2 : 2 * w * (1 / 2) ^ 2 ≤ 2 * (w + st.preg) * a ^ 2 := by
      apply mul_le_mul _ this (by norm_num) (by positivity)
      linarith
    linarith
  rw [hx, t2, hmu] at m2
  rw [hx] at f1 f2 f3
  refine ⟨hdphi, f1, fun i hi k => ?_, fun i hi k => ?_, fun c1 hc => ?_⟩
  · have := congrFun (f2 i hi) k
    rw [show (gradAt (lqw w 2 0) true (linearStep (lqwIter w 2 0 0 0) (d.forced true) 1)).Lxs i k = _ from this]
    show |-(st.preg * d.dx i k)| ≤ _
    interval_cases i
    · rw [e0]; norm_num
    · rw [e1]; exact hb
  · have := congrFun (f3 i hi) k
    rw [show (gradAt (lqw w 2 0) true (linearStep (lqwIter w 2 0 0 0) (d.forced true) 1)).Lus i k = _ from this]
    show |-(st.preg * d.du i k)| ≤ _
    interval_cases i
    rw [e2]; exact hb
  · have h1 : c1 * slope (lqw w 2 0) st (d.forced true) ≤ 0 := mul_nonpos_of_nonneg_of_nonpos hc (by linarith)
    have h2 : a ^ 2 ≤ 1 := pow_le_one₀ (by linarith) ha1
    have h3 : (w + 2 * st.preg) * a ^ 2 ≤ w + 2 * st.preg := mul_le_of_le_one_right (by positivity) h2
    rw [hpr] at h3 m2
    nlinarith

/-- the step in the theorem exists, for both options of the Hessian -/
example {w : ℝ} (hw : 2001 ≤ w) (search : SSt (lqw w 2 0) → Search) (solve) (v0 : ℕ → List ℝ) (exact : Bool) :
    ∃ d, Solves (lqw w 2 0) lqwSetup exact (lqwHess w)
      (firstSt ProxDDP.defaultParams (lqw w 2 0) lqwSetup search solve v0 (lqwSt w 2 0 0 0)) d := by
  obtain ⟨t1, -, -, t4, -⟩ := firstSt_eq ProxDDP.defaultParams (lqw w 2 0) lqwSetup search solve v0 (lqwSt w 2 0 0 0)
  exact lqw_solvable (by linarith) t1 (by rw [t4]; norm_num [ProxDDP.defaultParams]) exact

/-- a linear solver that solves whenever there is a solution -/
noncomputable def solveAny {P : Prob nx nu N} (S : Setup) (exact : Bool) (H : Hess nx nu N) (s : SSt P) : Option (Dir nx nu P.nc0) :=
  open Classical in if h : ∃ d, Solves P S exact H s d then some h.choose else none

theorem solveAny_solves {P : Prob nx nu N} (S : Setup) (exact : Bool) (H : Hess nx nu N) (s : SSt P) (d : Dir nx nu P.nc0)
    (h : solveAny S exact H s = some d) : Solves P S exact H s d := by
  unfold solveAny at h
  split at h
  · rename_i hd
    cases h
    exact hd.choose_spec
  · cases h

/-- one iteration with the default parameters and the Armijo search: minimise `(u - 2)² / 2 + x₁² / 2`, `x₁ = u`, from the zero guess -/
example (qr : Linesearch.Solve2) (exact : Bool) (v0 : ℕ → List ℝ) :
    ∃ F, ∀ fuel, F ≤ fuel → ∃ s, ProxDDP.run ProxDDP.defaultParams (env (lqw 1 2 0) lqwSetup (oracle (lqw 1 2 0) lqwSetup
      (fun _ => armijo defaultOptions qr 1000) (solveAny lqwSetup exact (lqwHess 1)))) fuel v0 (lqwSt 1 2 0 0 0) = .done true s ∧
      s.numIters = 1 ∧ Spec.Feasible (lqw 1 2 0) s.x.x s.x.u ∧ ∀ y w, Spec.Feasible (lqw 1 2 0) y w →
        Spec.cost (lqw 1 2 0) s.x.x s.x.u ≤ Spec.cost (lqw 1 2 0) y w +
          1e-6 * Spec.norm1 1 (fun i => y i - s.x.x i) fun i => w i - s.x.u i := by
  set search : SSt (lqw 1 2 0) → Search := fun _ => armijo defaultOptions qr 1000 with hse
  set solve := solveAny (P := lqw 1 2 0) lqwSetup exact (lqwHess 1) with hso
  obtain ⟨t1, t2, t3, t4, t5⟩ := firstSt_eq ProxDDP.defaultParams (lqw 1 2 0) lqwSetup search solve v0 (lqwSt 1 2 0 0 0)
  set st := firstSt ProxDDP.defaultParams (lqw 1 2 0) lqwSetup search solve v0 (lqwSt 1 2 0 0 0) with hst
  have hmu : st.mu = 0.01 := by rw [t3]; norm_num [ProxDDP.defaultParams]
  have hpr : st.preg = 1e-9 := by rw [t4]; norm_num [ProxDDP.defaultParams]
  have hp : 0 ≤ st.preg := by rw [hpr]; norm_num
  have hx : st.x = lqwIter 1 2 0 0 0 := t1
  have hV : st.ws.V = (lqw 1 2 0).values st.x.x st.x.u := by rw [t5, t1]; rfl
  obtain ⟨d, hd⟩ : ∃ d, solve st = some d := by
    rw [hso]
    unfold solveAny
    rw [dif_pos (lqw_solvable one_pos hx hp exact)]
    exact ⟨_, rfl⟩
  have hs := solveAny_solves _ _ _ _ _ hd
  obtain ⟨m1, m2⟩ := lqw_merit one_pos hx hp hV hs
  obtain ⟨e0, e1, e2, -⟩ := lqw_solution one_pos hx hp hs
  rw [hpr] at m1 m2 e1 e2
  rw [hmu, t2, hx] at m2
  obtain ⟨F, hF⟩ := C76_one_iteration_partial ProxDDP.defaultParams_valid (by norm_num [ProxDDP.defaultParams])
    (by norm_num [ProxDDP.defaultParams]) (by norm_num [ProxDDP.defaultParams]) (by norm_num [ProxDDP.defaultParams])
    (by norm_num [ProxDDP.defaultParams]) (by norm_num [ProxDDP.defaultParams]) (lqw_isLQ 1 2 0) lqwSetup_noSets search 1e-4
    (fun _ => armijo_accepts defaultOptions (by norm_num [defaultOptions]) (by norm_num [defaultOptions])
      (by norm_num [defaultOptions]) qr 1000 (by norm_num)) solve v0 (lqwSt 1 2 0 0 0) (lqw_start 1 2 0 rfl)
    ⟨0, one_pos, 0, by norm_num [ProxDDP.defaultParams, lqw, lqwSt, lqwIter]⟩ hd hs
    (by
      show slope (lqw 1 2 0) st (d.forced true) < _
      rw [m1]; norm_num [ProxDDP.defaultParams])
    (by
      show merit (lqw 1 2 0) lqwSetup _ v0 (linearStep (lqwIter 1 2 0 0 0) (d.forced true) 1) ≤
        merit (lqw 1 2 0) lqwSetup _ v0 (lqwIter 1 2 0 0 0) + 1e-4 * slope (lqw 1 2 0) st (d.forced true)
      rw [m1, show max ProxDDP.defaultParams.muInit ProxDDP.defaultParams.muLb = 0.01 by norm_num [ProxDDP.defaultParams]]
      norm_num at m2 ⊢
      linarith)
    (by
      intro i hi k
      interval_cases i
      · rw [e0]; norm_num [ProxDDP.defaultParams]
      · rw [e1]; norm_num [ProxDDP.defaultParams])
    (by
      intro i hi k
      interval_cases i
      rw [e2]; norm_num [ProxDDP.defaultParams])
  refine ⟨F, fun fuel hf => ?_⟩
  obtain ⟨s, r1, r2, -, r4, r5⟩ := hF fuel hf
  exact ⟨s, r1, r2, r4, r5 (lqw_convex zero_le_one)⟩

/-- `x = (0, 1)`, `u = 1` is the optimum of that problem -/
theorem lqw_optimal : Spec.Optimal (lqw 1 2 0) (lqwIter 1 2 0 1 1).x (lqwIter 1 2 0 1 1).u := by
  refine ⟨⟨rfl, fun i hi => ?_⟩, fun y w hy => ?_⟩
  · interval_cases i
    funext k
    simp [lqw, lqwIter]
  · have h0 : y 0 = 0 := hy.init
    have h1 : y 1 0 = w 0 0 := by
      have := congrFun (hy.dynamics 0 one_pos) 0
      have e : y 0 0 + w 0 0 + 0 = y 1 0 := this
      rw [h0] at e
      rw [← e]; simp
    simp [Spec.cost, lqw, lqwIter, h1]
    nlinarith [sq_nonneg (w 0 0 - 1)]

/-- started at that optimum with zero multipliers, the default solver never reports convergence -/
example (fuel : ℕ) (qr : Linesearch.Solve2) (exact : Bool) (v0 : ℕ → List ℝ) :=
  C76_optimal_start_stalls ProxDDP.defaultParams_valid (by norm_num [ProxDDP.defaultParams]) (lqw_isLQ 1 2 0)
    (lqw_convex zero_le_one) lqwSetup_noSets (fun _ => armijo defaultOptions qr 1000) (solveAny lqwSetup exact (lqwHess 1))
    (solveAny_solves lqwSetup exact (lqwHess 1)) fuel v0 (lqwSt 1 2 0 1 1) (lqw_start 1 2 0 rfl) lqw_optimal
    ⟨0, one_pos, 0, by norm_num [ProxDDP.defaultParams, lqw, lqwSt, lqwIter]⟩

/-- started at zero with a drift of 3, the default solver never reports convergence, although a solution of the linear system
would lead to the optimum -/
example (fuel : ℕ) (search) (solve) (v0 : ℕ → List ℝ) :=
  C76_last_defect_stalls (P := lqw 1 0 3) ProxDDP.defaultParams_valid (fun _ => rfl) rfl lqwSetup_noSets search solve fuel v0
    (lqwSt 1 0 3 0 0) (fun i hi h0 => absurd (Nat.lt_one_iff.1 hi) (h0 rfl))
    (fun i _ => by
      funext k
      simp [gU, lqw, lqwSt, lqwIter])
    (by
      funext k
      simp [gN, coX, lqw, lqwSt, lqwIter]) rfl (fun i hi => by omega)
    ⟨0, by norm_num [ProxDDP.defaultParams, lqw, lqwSt, lqwIter]⟩

end Aligator.Link
