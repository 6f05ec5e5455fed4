import Verif.Model.LQSubproblem
import Verif.Spec.LQSubproblem
import Verif.Spec.Lqr
import Verif.Lemmas.Lagrangian
import Mathlib.Data.List.GetD

/-! # Lemmas: the subproblem as equations on arrays, stacked Jacobians -/

namespace Aligator.LQ

open Matrix CSets Lag

variable {nx nu : ℕ → ℕ} {N : ℕ}

/-! ### Trajectories from arrays -/

/-- The trajectory of the chain with the given arrays in front of `t`. -/
def trajBuild (I : Input nx nu N) (s : Spec.Step nx nu I.pd.nc0) :
    (k : ℕ) → (tl : Gar.Chain ℝ 0 (nx k)) → Gar.Traj tl → Gar.Traj (build I k tl)
  | 0, _, t => t
  | k + 1, tl, t => trajBuild I s k (.cons (knot I k) tl) (.cons ⟨s.dx k, s.du k, vec _ (s.dv k)⟩ (s.dlam k) t)

/-- The trajectory of the subproblem with the given arrays. -/
def traj (I : Input nx nu N) (s : Spec.Step nx nu I.pd.nc0) : Gar.Traj (subproblem I).stages :=
  trajBuild I s N (.last (termKnot I)) (.last ⟨s.dx N, Fin.elim0, vec _ (s.dv N)⟩)

theorem trajBuild_x0 (I : Input nx nu N) (s : Spec.Step nx nu I.pd.nc0) (k : ℕ) (tl : Gar.Chain ℝ 0 (nx k)) (t : Gar.Traj tl)
    (h : t.x0 = s.dx k) : (trajBuild I s k tl t).x0 = s.dx 0 := by
  induction k with
  | zero => exact h
  | succ k ih => exact ih _ _ rfl

/-- The costate in front of stage `k`. -/
def costate {nc0 : ℕ} (p : Fin (nx 0) → ℝ) (s : Spec.Step nx nu nc0) : ∀ k, Fin (nx k) → ℝ
  | 0 => p
  | k + 1 => s.dlam k

/-- The optimality conditions of one stage. -/
def StageEq (I : Input nx nu N) (mu : ℝ) (p : Fin (nx 0) → ℝ) (s : Spec.Step nx nu I.pd.nc0) (i : ℕ) : Prop :=
  Gar.gradX (knot I i) 0 ⟨s.dx i, s.du i, vec _ (s.dv i)⟩ + (knot I i).Aᵀ *ᵥ s.dlam i = costate p s i ∧
  Gar.gradU (knot I i) 0 ⟨s.dx i, s.du i, vec _ (s.dv i)⟩ + (knot I i).Bᵀ *ᵥ s.dlam i = 0 ∧
  Gar.gradV (knot I i) mu 0 ⟨s.dx i, s.du i, vec _ (s.dv i)⟩ = 0 ∧
  (knot I i).A *ᵥ s.dx i + (knot I i).B *ᵥ s.du i + (knot I i).f = s.dx (i + 1)

theorem tailKKT_build (I : Input nx nu N) (mu : ℝ) (p : Fin (nx 0) → ℝ) (s : Spec.Step nx nu I.pd.nc0) (k : ℕ)
    (tl : Gar.Chain ℝ 0 (nx k)) (t : Gar.Traj tl) (h : t.x0 = s.dx k) :
    Gar.TailKKT mu 0 (build I k tl) p (trajBuild I s k tl t) ↔
      (∀ i, i < k → StageEq I mu p s i) ∧ Gar.TailKKT mu 0 tl (costate p s k) t := by
  induction k with
  | zero => simp [build, trajBuild, costate]
  | succ k ih =>
    refine (ih (.cons (knot I k) tl) (.cons ⟨s.dx k, s.du k, vec _ (s.dv k)⟩ (s.dlam k) t) rfl).trans ?_
    show _ ∧ (_ ∧ _ ∧ _ ∧ _ = t.x0 ∧ _) ↔ _
    rw [h]
    constructor
    · rintro ⟨h1, h2, h3, h4, h5, h6⟩
      refine ⟨fun i hi => ?_, h6⟩
      rcases Nat.lt_succ_iff_lt_or_eq.1 hi with hi | rfl
      · exact h1 i hi
      · exact ⟨h2, h3, h4, h5⟩
    · rintro ⟨h1, h6⟩
      obtain ⟨h2, h3, h4, h5⟩ := h1 k (Nat.lt_succ_self k)
      exact ⟨fun i hi => h1 i (Nat.lt_succ_of_lt hi), h2, h3, h4, h5, h6⟩

/-- The optimality conditions of the subproblem, written on arrays. -/
theorem kkt_iff (I : Input nx nu N) (mu : ℝ) (s : Spec.Step nx nu I.pd.nc0) :
    Gar.KKT (subproblem I) mu 0 s.dlam0 (traj I s) ↔
      I.pd.initJx *ᵥ s.dx 0 + I.init = 0 ∧
      (∀ i, i < N → StageEq I mu (-(I.pd.initJxᵀ *ᵥ s.dlam0)) s i) ∧
      Gar.gradX (termKnot I) 0 ⟨s.dx N, Fin.elim0, vec _ (s.dv N)⟩ = costate (-(I.pd.initJxᵀ *ᵥ s.dlam0)) s N ∧
      Gar.gradV (termKnot I) mu 0 ⟨s.dx N, Fin.elim0, vec _ (s.dv N)⟩ = 0 := by
  unfold Gar.KKT
  have h0 : (traj I s).x0 = s.dx 0 := trajBuild_x0 I s N _ _ rfl
  rw [h0]
  refine and_congr Iff.rfl ?_
  refine (tailKKT_build I mu _ s N _ _ rfl).trans (and_congr Iff.rfl ?_)
  show _ ∧ _ ∧ _ ↔ _
  constructor
  · rintro ⟨h1, -, h3⟩; exact ⟨h1, h3⟩
  · rintro ⟨h1, h3⟩; exact ⟨h1, funext fun k => k.elim0, h3⟩

/-- Every trajectory of the chain comes from arrays. -/
theorem trajBuild_surj (I : Input nx nu N) (l0 : Fin I.pd.nc0 → ℝ) (k : ℕ) (tl : Gar.Chain ℝ 0 (nx k)) (T : Gar.Traj (build I k tl)) :
    ∃ (s : Spec.Step nx nu I.pd.nc0) (t : Gar.Traj tl), s.dlam0 = l0 ∧ T = trajBuild I s k tl t ∧
      ∀ i, i < k → (s.dv i).length = dim (I.pd.cstr i) := by
  induction k with
  | zero => exact ⟨⟨fun _ => 0, fun _ => 0, l0, fun _ => 0, fun _ => []⟩, T, rfl, rfl, by simp⟩
  | succ k ih =>
    obtain ⟨s, t, h0, h1, h2⟩ := ih _ T
    cases t with
    | cons n lam t =>
      let s' : Spec.Step nx nu I.pd.nc0 :=
        { dx := Function.update s.dx k n.x, du := Function.update s.du k n.u, dlam0 := l0
          dlam := Function.update s.dlam k lam, dv := Function.update s.dv k (List.ofFn n.v) }
      have e : ∀ j, j ≤ k → ∀ (tl : Gar.Chain ℝ 0 (nx j)) (t : Gar.Traj tl), trajBuild I s j tl t = trajBuild I s' j tl t := by
        intro j
        induction j with
        | zero => intro _ _ _; rfl
        | succ j ihj =>
          intro hj tl t
          have e1 : s'.dx j = s.dx j := Function.update_of_ne (by omega) _ _
          have e2 : s'.du j = s.du j := Function.update_of_ne (by omega) _ _
          have e3 : s'.dv j = s.dv j := Function.update_of_ne (by omega) _ _
          have e4 : s'.dlam j = s.dlam j := Function.update_of_ne (by omega) _ _
          simp only [trajBuild, e1, e2, e3, e4]
          exact ihj (by omega) _ _
      refine ⟨s', t, rfl, ?_, ?_⟩
      · rw [h1, e k le_rfl, trajBuild]
        congr 1
        have e1 : s'.dx k = n.x := Function.update_self _ _ _
        have e2 : s'.du k = n.u := Function.update_self _ _ _
        have e3 : s'.dv k = List.ofFn n.v := Function.update_self _ _ _
        have e4 : s'.dlam k = lam := Function.update_self _ _ _
        rw [e1, e2, e3, e4]
        congr 1
        obtain ⟨a, b, c⟩ := n
        congr 1
        funext j
        simp [vec]
      · intro i hi
        by_cases hik : i = k
        · subst hik
          have e3 : s'.dv i = List.ofFn n.v := Function.update_self _ _ _
          rw [e3, List.length_ofFn]
        · have e3 : s'.dv i = s.dv i := Function.update_of_ne hik _ _
          rw [e3]; exact h2 i (by omega)

theorem traj_surj (I : Input nx nu N) (l0 : Fin I.pd.nc0 → ℝ) (T : Gar.Traj (subproblem I).stages) :
    ∃ s : Spec.Step nx nu I.pd.nc0, s.dlam0 = l0 ∧ T = traj I s ∧
      (∀ i, i < N → (s.dv i).length = dim (I.pd.cstr i)) ∧ (s.dv N).length = dim I.pd.termCstr := by
  obtain ⟨s, t, h0, h1, h2⟩ := trajBuild_surj I l0 N _ T
  cases t with
  | last n =>
    let s' : Spec.Step nx nu I.pd.nc0 :=
      { s with dx := Function.update s.dx N n.x, dv := Function.update s.dv N (List.ofFn n.v) }
    have e : ∀ j, j ≤ N → ∀ (tl : Gar.Chain ℝ 0 (nx j)) (t : Gar.Traj tl), trajBuild I s j tl t = trajBuild I s' j tl t := by
      intro j
      induction j with
      | zero => intro _ _ _; rfl
      | succ j ihj =>
        intro hj tl t
        have e1 : s'.dx j = s.dx j := Function.update_of_ne (by omega) _ _
        have e3 : s'.dv j = s.dv j := Function.update_of_ne (by omega) _ _
        simp only [trajBuild, e1, e3]
        exact ihj (by omega) _ _
    refine ⟨s', h0, ?_, ?_, ?_⟩
    · rw [h1, e N le_rfl]
      unfold traj
      have e1 : s'.dx N = n.x := Function.update_self _ _ _
      have e3 : s'.dv N = List.ofFn n.v := Function.update_self _ _ _
      congr 1
      rw [e1, e3]
      congr 1
      obtain ⟨a, b, c⟩ := n
      congr 1
      · funext j; exact j.elim0
      · funext j; simp [vec]
    · intro i hi
      have e3 : s'.dv i = s.dv i := Function.update_of_ne (by omega) _ _
      rw [e3]; exact h2 i hi
    · have e3 : s'.dv N = List.ofFn n.v := Function.update_self _ _ _
      rw [e3, List.length_ofFn]

/-! ### Stacked Jacobians -/

theorem dim_cons {n m : ℕ} (c : CstrData n m) (cs : List (CstrData n m)) : dim (c :: cs) = c.dim + dim cs := by
  simp [dim]

theorem rows_length {n m : ℕ} (cs : List (CstrData n m)) : (rows cs).length = dim cs := by
  simp [rows, dim, List.length_flatMap]

theorem rows_cons {n m : ℕ} (c : CstrData n m) (cs : List (CstrData n m)) :
    rows (c :: cs) = (List.ofFn fun k => List.ofFn (c.Jx k) ++ List.ofFn (c.Ju k)) ++ rows cs := rfl

theorem rows_head {n m : ℕ} (c : CstrData n m) (cs : List (CstrData n m)) (k : Fin c.dim) :
    (rows (c :: cs)).getD k [] = List.ofFn (c.Jx k) ++ List.ofFn (c.Ju k) := by
  rw [rows_cons, List.getD_append _ _ _ _ (by simp)]
  simp

theorem rows_tail {n m : ℕ} (c : CstrData n m) (cs : List (CstrData n m)) (k : ℕ) :
    (rows (c :: cs)).getD (c.dim + k) [] = (rows cs).getD k [] := by
  rw [rows_cons, List.getD_append_right _ _ _ _ (by simp)]
  simp

/-- Entry of the stacked state Jacobian. -/
def jx {n m : ℕ} (cs : List (CstrData n m)) (k : ℕ) (b : Fin n) : ℝ := ((rows cs).getD k []).getD b 0
/-- Entry of the stacked control Jacobian. -/
def ju {n m : ℕ} (cs : List (CstrData n m)) (k : ℕ) (b : Fin m) : ℝ := ((rows cs).getD k []).getD (n + b) 0

theorem jx_head {n m : ℕ} (c : CstrData n m) (cs : List (CstrData n m)) (k : Fin c.dim) (b : Fin n) :
    jx (c :: cs) k b = c.Jx k b := by
  unfold jx
  rw [rows_head, List.getD_append _ _ _ _ (by simp)]
  simp

theorem ju_head {n m : ℕ} (c : CstrData n m) (cs : List (CstrData n m)) (k : Fin c.dim) (b : Fin m) :
    ju (c :: cs) k b = c.Ju k b := by
  unfold ju
  rw [rows_head, List.getD_append_right _ _ _ _ (by simp)]
  simp

theorem jx_tail {n m : ℕ} (c : CstrData n m) (cs : List (CstrData n m)) (k : ℕ) (b : Fin n) :
    jx (c :: cs) (c.dim + k) b = jx cs k b := by unfold jx; rw [rows_tail]

theorem ju_tail {n m : ℕ} (c : CstrData n m) (cs : List (CstrData n m)) (k : ℕ) (b : Fin m) :
    ju (c :: cs) (c.dim + k) b = ju cs k b := by unfold ju; rw [rows_tail]

theorem cstrX_eq {n m : ℕ} (v : List ℝ) (cs : List (CstrData n m)) (s : ℕ) (b : Fin n) :
    cstrX v cs s b = ∑ k ∈ Finset.range (dim cs), jx cs k b * v.getD (s + k) 0 := by
  induction cs generalizing s with
  | nil => simp [cstrX, dim]
  | cons c cs ih =>
    rw [dim_cons, Finset.sum_range_add, cstrX, Pi.add_apply, ih]
    congr 1
    · rw [Finset.sum_range]
      simp only [jx_head]
      rfl
    · refine Finset.sum_congr rfl fun k _ => ?_
      rw [jx_tail, Nat.add_assoc]

theorem cstrU_eq {n m : ℕ} (v : List ℝ) (cs : List (CstrData n m)) (s : ℕ) (b : Fin m) :
    cstrU v cs s b = ∑ k ∈ Finset.range (dim cs), ju cs k b * v.getD (s + k) 0 := by
  induction cs generalizing s with
  | nil => simp [cstrU, dim]
  | cons c cs ih =>
    rw [dim_cons, Finset.sum_range_add, cstrU, Pi.add_apply, ih]
    congr 1
    · rw [Finset.sum_range]
      simp only [ju_head]
      rfl
    · refine Finset.sum_congr rfl fun k _ => ?_
      rw [ju_tail, Nat.add_assoc]

end Aligator.LQ
