import Verif.Lemmas.NonlinearRollout
import Verif.Spec.NonlinearRollout
import Verif.Props.Solver
import Mathlib.Analysis.Calculus.FDeriv.Prod
import Mathlib.Analysis.Calculus.Deriv.Comp

/-!
# The nonlinear rollout (C58)
-/

namespace Aligator.NLRoll

open Matrix Spec

section general

variable {X U : ℕ → Type} {nx nu nc : ℕ → ℕ} {nc0 : ℕ}

/-- **C58** Every trial trajectory of the nonlinear rollout satisfies the dynamics exactly, for every step length, gains, spaces
and workspace content. -/
theorem C58_trial_satisfies_dynamics (S : Sys X U nx nu) (N : ℕ) (it : Traj X U nx nc nc0) (g : Gains nx nu nc)
    (w : Work X U nx nu nc nc0) (a : ℝ) :
    Dynamics S.f N (rollout S N it g w a).trial.x (rollout S N it g w a).trial.u := by
  intro i hi
  rw [rollout_eq]
  simp only [closed]
  rw [if_pos (by omega), if_pos (by omega), if_pos hi]
  rfl

/-- **C58** So all defects of the dynamics that the solver records at a trial point are zero. -/
theorem C58_no_defects (S : Sys X U nx nu) (hd : ∀ i x, S.xdiff i x x = 0) (N : ℕ) (it : Traj X U nx nc nc0)
    (g : Gains nx nu nc) (w : Work X U nx nu nc nc0) (a : ℝ) (i : ℕ) (hi : i < N) :
    let t := (rollout S N it g w a).trial
    S.xdiff (i + 1) (t.x (i + 1)) (S.f i (t.x i) (t.u i)) = 0 := by
  dsimp only
  rw [← C58_trial_satisfies_dynamics S N it g w a i hi, hd]

/-- **C58** The step lengths tried before do not matter, although every rollout overwrites the directions in the workspace. -/
theorem C58_history_independent (S : Sys X U nx nu) (N : ℕ) (it : Traj X U nx nc nc0) (g : Gains nx nu nc)
    (w : Work X U nx nu nc nc0) (as : List ℝ) (a : ℝ) :
    rollout S N it g (as.foldl (rollout S N it g) w) a = rollout S N it g w a := by
  have key : ∀ (w : Work X U nx nu nc nc0) b, rollout S N it g (rollout S N it g w b) a = rollout S N it g w a := by
    intro w b
    simp only [rollout_eq]
    refine Work.ext (Traj.ext ?_ ?_ ?_ rfl ?_) ?_ ?_ ?_ rfl rfl <;> funext i <;>
      (simp only [closed, Nat.zero_le, if_true, sim]; split <;> rfl)
  induction as generalizing w with
  | nil => rfl
  | cons b as ih => rw [List.foldl_cons, ih, key]

end general

variable {nx nu nc : ℕ → ℕ} {nc0 N : ℕ}

/-- Trajectories in vector spaces. -/
abbrev VTraj (nx nu nc : ℕ → ℕ) (nc0 : ℕ) := Traj (fun i => Fin (nx i) → ℝ) (fun i => Fin (nu i) → ℝ) nx nc nc0

/-- Workspaces in vector spaces. -/
abbrev VWork (nx nu nc : ℕ → ℕ) (nc0 : ℕ) := Work (fun i => Fin (nx i) → ℝ) (fun i => Fin (nu i) → ℝ) nx nu nc nc0

theorem sim_affine (f : ∀ i, (Fin (nx i) → ℝ) → (Fin (nu i) → ℝ) → Fin (nx (i + 1)) → ℝ) (it : VTraj nx nu nc nc0)
    (g : Gains nx nu nc) (w : VWork nx nu nc nc0) (A : ∀ i, Matrix (Fin (nx (i + 1))) (Fin (nx i)) ℝ)
    (B : ∀ i, Matrix (Fin (nx (i + 1))) (Fin (nu i)) ℝ)
    (hf : ∀ i, i < N → ∀ x u, f i x u = f i (it.x i) (it.u i) + A i *ᵥ (x - it.x i) + B i *ᵥ (u - it.u i))
    (hw : Follows N g.k g.K g.z g.Z A B (fun i => f i (it.x i) (it.u i) - it.x (i + 1)) w.dx w.du w.dv) (a : ℝ)
    (h0 : a = 1 ∨ (w.dx 0 = 0 ∧ ∀ i, i < N → f i (it.x i) (it.u i) = it.x (i + 1))) (t : ℕ) (ht : t ≤ N) :
    sim (vecSys f) it g (w.dx 0) a t = (it.x t + a • w.dx t, a • w.dx t) := by
  induction t with
  | zero =>
    show (it.x 0 + a • w.dx 0, w.dx 0) = _
    rcases h0 with rfl | ⟨h, -⟩
    · rw [one_smul]
    · rw [h, smul_zero]
  | succ t ih =>
    have ih := ih (by omega)
    have e : f t (sim (vecSys f) it g (w.dx 0) a t).1
        (it.u t + (a • g.k t + g.K t *ᵥ (sim (vecSys f) it g (w.dx 0) a t).2)) = it.x (t + 1) + a • w.dx (t + 1) := by
      rw [ih, hf t (by omega), hw.x t (by omega), hw.u t (by omega)]
      dsimp only
      rw [add_sub_cancel_left, add_sub_cancel_left, mulVec_smul, mulVec_smul, ← smul_add, mulVec_smul]
      have hg : f t (it.x t) (it.u t) = it.x (t + 1) + a • (f t (it.x t) (it.u t) - it.x (t + 1)) := by
        rcases h0 with rfl | ⟨-, h⟩
        · rw [one_smul, add_sub_cancel]
        · rw [h t (by omega), sub_self, smul_zero, add_zero]
      rw [smul_add, smul_add]
      generalize A t *ᵥ w.dx t = p
      generalize B t *ᵥ (g.k t + g.K t *ᵥ w.dx t) = q
      generalize f t (it.x t) (it.u t) - it.x (t + 1) = r at hg ⊢
      rw [hg]
      abel
    show (f t (sim (vecSys f) it g (w.dx 0) a t).1
        (it.u t + (a • g.k t + g.K t *ᵥ (sim (vecSys f) it g (w.dx 0) a t).2)), f t (sim (vecSys f) it g (w.dx 0) a t).1
        (it.u t + (a • g.k t + g.K t *ᵥ (sim (vecSys f) it g (w.dx 0) a t).2)) - it.x (t + 1)) = _
    rw [e, add_sub_cancel_left]

/-- **C58** For affine dynamics the full nonlinear step is the full linear step, also when the iterate violates dynamics and
initial condition; and when it does not, every nonlinear step is the linear step of the same length. -/
theorem C58_affine_agrees_with_linear_step (f : ∀ i, (Fin (nx i) → ℝ) → (Fin (nu i) → ℝ) → Fin (nx (i + 1)) → ℝ)
    (it : VTraj nx nu nc nc0)
    (g : Gains nx nu nc) (w : VWork nx nu nc nc0) (A : ∀ i, Matrix (Fin (nx (i + 1))) (Fin (nx i)) ℝ)
    (B : ∀ i, Matrix (Fin (nx (i + 1))) (Fin (nu i)) ℝ)
    (hf : ∀ i, i < N → ∀ x u, f i x u = f i (it.x i) (it.u i) + A i *ᵥ (x - it.x i) + B i *ᵥ (u - it.u i))
    (hw : Follows N g.k g.K g.z g.Z A B (fun i => f i (it.x i) (it.u i) - it.x (i + 1)) w.dx w.du w.dv) (a : ℝ)
    (h0 : a = 1 ∨ (w.dx 0 = 0 ∧ ∀ i, i < N → f i (it.x i) (it.u i) = it.x (i + 1))) :
    Same N (rollout (vecSys f) N it g w a).trial (linear (vecSys f) it w a) := by
  have hs := sim_affine f it g w A B hf hw a h0
  rw [rollout_eq]
  refine ⟨fun i hi => ?_, fun i hi => ?_, fun i hi => ?_, rfl, fun i hi => ?_⟩
  · simp only [closed, linear]
    rw [if_pos hi, hs i hi]
    rfl
  · simp only [closed, linear]
    rw [if_pos hi, hs i hi.le, hw.u i hi, mulVec_smul, smul_add]
  · simp only [closed, linear]
    rw [if_pos (by omega), hs i hi, hw.v i hi, mulVec_smul, smul_add]
  · simp only [closed, linear]
    rw [if_pos hi]

/-! ### Small steps -/

theorem sim_zero (f : ∀ i, (Fin (nx i) → ℝ) → (Fin (nu i) → ℝ) → Fin (nx (i + 1)) → ℝ) (it : VTraj nx nu nc nc0)
    (g : Gains nx nu nc) (hg : Dynamics f N it.x it.u) (t : ℕ) (ht : t ≤ N) :
    sim (vecSys f) it g 0 0 t = (it.x t, 0) := by
  induction t with
  | zero => exact Prod.ext (by show it.x 0 + (0 : ℝ) • (0 : Fin (nx 0) → ℝ) = _; rw [smul_zero, add_zero]) rfl
  | succ t ih =>
    have ih := ih (by omega)
    have e : f t (sim (vecSys f) it g 0 0 t).1
        (it.u t + ((0 : ℝ) • g.k t + g.K t *ᵥ (sim (vecSys f) it g 0 0 t).2)) = it.x (t + 1) := by
      rw [ih]
      dsimp only
      rw [zero_smul, mulVec_zero, add_zero, add_zero, hg t (by omega)]
    show (f t (sim (vecSys f) it g 0 0 t).1 (it.u t + ((0 : ℝ) • g.k t + g.K t *ᵥ (sim (vecSys f) it g 0 0 t).2)),
      f t (sim (vecSys f) it g 0 0 t).1 (it.u t + ((0 : ℝ) • g.k t + g.K t *ᵥ (sim (vecSys f) it g 0 0 t).2)) -
        it.x (t + 1)) = _
    rw [e, sub_self]

/-- **C58** A step of length zero returns the iterate exactly when the iterate satisfies the dynamics and the gains of the first
stage do not see the step of the initial state.  Otherwise the function that the line search sees does not start at the merit of
the iterate: the full defects are closed and the full initial step is fed back at every step length. -/
theorem C58_zero_step (f : ∀ i, (Fin (nx i) → ℝ) → (Fin (nu i) → ℝ) → Fin (nx (i + 1)) → ℝ) (it : VTraj nx nu nc nc0)
    (g : Gains nx nu nc) (w : VWork nx nu nc nc0) (hN : 0 < N) :
    Same N (rollout (vecSys f) N it g w 0).trial it ↔
      Dynamics f N it.x it.u ∧ g.K 0 *ᵥ w.dx 0 = 0 ∧ g.Z 0 *ᵥ w.dx 0 = 0 := by
  rw [rollout_eq]
  constructor
  · intro h
    have hx : ∀ i, i ≤ N → (sim (vecSys f) it g (w.dx 0) 0 i).1 = it.x i := fun i hi => by
      have := h.x i hi
      simp only [closed, if_pos hi] at this
      exact this
    have hu : ∀ i, i < N → it.u i + ((0 : ℝ) • g.k i + g.K i *ᵥ (sim (vecSys f) it g (w.dx 0) 0 i).2) = it.u i := fun i hi => by
      have := h.u i hi
      simp only [closed, if_pos hi] at this
      exact this
    have hv : it.vs 0 + ((0 : ℝ) • g.z 0 + g.Z 0 *ᵥ (sim (vecSys f) it g (w.dx 0) 0 0).2) = it.vs 0 := by
      have := h.vs 0 (Nat.zero_le _)
      simp only [closed, if_pos (Nat.succ_pos N)] at this
      exact this
    refine ⟨fun i hi => ?_, ?_, ?_⟩
    · have h1 := hx (i + 1) (by omega)
      have h2 : (sim (vecSys f) it g (w.dx 0) 0 (i + 1)).1 = f i (sim (vecSys f) it g (w.dx 0) 0 i).1
        (it.u i + ((0 : ℝ) • g.k i + g.K i *ᵥ (sim (vecSys f) it g (w.dx 0) 0 i).2)) := rfl
      rw [h2, hu i hi, hx i hi.le] at h1
      exact h1.symm
    · have := hu 0 hN
      rw [zero_smul, zero_add] at this
      exact add_eq_left.1 this
    · rw [zero_smul, zero_add] at hv
      exact add_eq_left.1 hv
  · rintro ⟨hd, hK, hZ⟩
    have key : ∀ t, t ≤ N → (sim (vecSys f) it g (w.dx 0) 0 t).1 = it.x t ∧
        g.K t *ᵥ (sim (vecSys f) it g (w.dx 0) 0 t).2 = 0 ∧ g.Z t *ᵥ (sim (vecSys f) it g (w.dx 0) 0 t).2 = 0 := by
      intro t
      induction t with
      | zero =>
        intro _
        refine ⟨?_, hK, hZ⟩
        show it.x 0 + (0 : ℝ) • w.dx 0 = _
        rw [zero_smul, add_zero]
      | succ t ih =>
        intro ht
        obtain ⟨i1, i2, -⟩ := ih (by omega)
        have e : f t (sim (vecSys f) it g (w.dx 0) 0 t).1
            (it.u t + ((0 : ℝ) • g.k t + g.K t *ᵥ (sim (vecSys f) it g (w.dx 0) 0 t).2)) = it.x (t + 1) := by
          rw [i1, i2, zero_smul, add_zero, add_zero, hd t (by omega)]
        have e2 : (sim (vecSys f) it g (w.dx 0) 0 (t + 1)).2 = 0 := by
          show f t (sim (vecSys f) it g (w.dx 0) 0 t).1
            (it.u t + ((0 : ℝ) • g.k t + g.K t *ᵥ (sim (vecSys f) it g (w.dx 0) 0 t).2)) - it.x (t + 1) = 0
          rw [e, sub_self]
        exact ⟨e, by rw [e2, mulVec_zero], by rw [e2, mulVec_zero]⟩
    refine ⟨fun i hi => ?_, fun i hi => ?_, fun i hi => ?_, ?_, fun i hi => ?_⟩
    · simp only [closed, if_pos hi]
      exact (key i hi).1
    · simp only [closed, if_pos hi]
      rw [(key i hi.le).2.1, zero_smul, add_zero]
      show it.u i + 0 = _
      rw [add_zero]
    · simp only [closed, if_pos (Nat.lt_succ_of_le hi)]
      rw [(key i hi).2.2, zero_smul, add_zero, add_zero]
    · simp only [closed]
      rw [zero_smul, add_zero]
    · simp only [closed, if_pos hi]
      rw [zero_smul, add_zero]

theorem HasF.along {n m : ℕ} {E : Type*} [NormedAddCommGroup E] [NormedSpace ℝ E] {F : (Fin n → ℝ) → (Fin m → ℝ) → E}
    {x : Fin n → ℝ} {u : Fin m → ℝ} {D : (Fin n → ℝ) → (Fin m → ℝ) → E} (h : HasF F x u D) {xc : ℝ → Fin n → ℝ}
    {uc : ℝ → Fin m → ℝ} {dx : Fin n → ℝ} {du : Fin m → ℝ} (hx : HasDerivAt xc dx 0) (hu : HasDerivAt uc du 0)
    (x0 : xc 0 = x) (u0 : uc 0 = u) : HasDerivAt (fun t => F (xc t) (uc t)) (D dx du) 0 := by
  obtain ⟨L, hL, e⟩ := h
  rw [← e]
  have h2 : HasDerivAt (fun t => (xc t, uc t)) (dx, du) 0 := hx.prodMk hu
  subst x0 u0
  exact HasFDerivAt.comp_hasDerivAt (0 : ℝ) (f := fun t => (xc t, uc t)) hL h2

theorem hasDerivAt_smul_add {n : ℕ} (a b : Fin n → ℝ) : HasDerivAt (fun t : ℝ => a + t • b) b 0 := Lag.hasDerivAt_line a b

theorem HasDerivAt.mulVec {n m : ℕ} (K : Matrix (Fin m) (Fin n) ℝ) {F : ℝ → Fin n → ℝ} {D : Fin n → ℝ} (h : HasDerivAt F D 0) :
    HasDerivAt (fun t => K *ᵥ F t) (K *ᵥ D) 0 := by
  rw [hasDerivAt_pi]
  intro k
  exact Lag.hasDerivAt_dot (K k) h

theorem sim_deriv (f : ∀ i, (Fin (nx i) → ℝ) → (Fin (nu i) → ℝ) → Fin (nx (i + 1)) → ℝ) (it : VTraj nx nu nc nc0)
    (g : Gains nx nu nc) (w : VWork nx nu nc nc0) (A : ∀ i, Matrix (Fin (nx (i + 1))) (Fin (nx i)) ℝ)
    (B : ∀ i, Matrix (Fin (nx (i + 1))) (Fin (nu i)) ℝ)
    (hf : ∀ i, i < N → HasF (f i) (it.x i) (it.u i) fun dx du => A i *ᵥ dx + B i *ᵥ du)
    (hd : Dynamics f N it.x it.u)
    (hw : Follows N g.k g.K g.z g.Z A B (fun _ => 0) w.dx w.du w.dv) (h0 : w.dx 0 = 0) (t : ℕ) (ht : t ≤ N) :
    HasDerivAt (fun a => (sim (vecSys f) it g 0 a t).1) (w.dx t) 0 ∧
      HasDerivAt (fun a => (sim (vecSys f) it g 0 a t).2) (w.dx t) 0 := by
  induction t with
  | zero =>
    have e : ∀ a, sim (vecSys f) it g 0 a 0 = (it.x 0, 0) := fun a => by
      refine Prod.ext ?_ rfl
      show it.x 0 + a • (0 : Fin (nx 0) → ℝ) = _
      rw [smul_zero, add_zero]
    simp only [e, h0]
    exact ⟨hasDerivAt_const _ _, hasDerivAt_const _ _⟩
  | succ t ih =>
    obtain ⟨i1, i2⟩ := ih (by omega)
    have hz := sim_zero f it g hd t (by omega)
    have hu : HasDerivAt (fun a : ℝ => it.u t + (a • g.k t + g.K t *ᵥ (sim (vecSys f) it g 0 a t).2)) (w.du t) 0 := by
      have h1 := (hasDerivAt_smul_add (0 : Fin (nu t) → ℝ) (g.k t)).add (HasDerivAt.mulVec (g.K t) i2)
      have h2 := h1.const_add (it.u t)
      rw [hw.u t (by omega)]
      simpa using h2
    have hx : HasDerivAt (fun a => (sim (vecSys f) it g 0 a (t + 1)).1) (w.dx (t + 1)) 0 := by
      have := HasF.along (hf t (by omega)) i1 hu (by rw [hz]) (by rw [hz]; simp)
      rw [hw.x t (by omega), add_zero]
      exact this
    exact ⟨hx, hx.sub_const (it.x (t + 1))⟩

/-- **C58** When the iterate satisfies the dynamics and the initial state does not move, the nonlinear step is tangent to the
linear step: the derivative of every trial state, control and multiplier with respect to the step length, at length zero, is the
direction returned by the linear solver. -/
theorem C58_first_order (f : ∀ i, (Fin (nx i) → ℝ) → (Fin (nu i) → ℝ) → Fin (nx (i + 1)) → ℝ) (it : VTraj nx nu nc nc0)
    (g : Gains nx nu nc) (w : VWork nx nu nc nc0) (A : ∀ i, Matrix (Fin (nx (i + 1))) (Fin (nx i)) ℝ)
    (B : ∀ i, Matrix (Fin (nx (i + 1))) (Fin (nu i)) ℝ)
    (hf : ∀ i, i < N → HasF (f i) (it.x i) (it.u i) fun dx du => A i *ᵥ dx + B i *ᵥ du)
    (hd : Dynamics f N it.x it.u)
    (hw : Follows N g.k g.K g.z g.Z A B (fun i => f i (it.x i) (it.u i) - it.x (i + 1)) w.dx w.du w.dv) (h0 : w.dx 0 = 0) :
    let tr := fun a => (rollout (vecSys f) N it g w a).trial
    (∀ i, i ≤ N → HasDerivAt (fun a => (tr a).x i) (w.dx i) 0) ∧ (∀ i, i < N → HasDerivAt (fun a => (tr a).u i) (w.du i) 0) ∧
      (∀ i, i ≤ N → HasDerivAt (fun a => (tr a).vs i) (w.dv i) 0) ∧ HasDerivAt (fun a => (tr a).lam0) w.dlam0 0 ∧
      ∀ i, i < N → HasDerivAt (fun a => (tr a).lam i) (w.dlam i) 0 := by
  have hw' : Follows N g.k g.K g.z g.Z A B (fun _ => 0) w.dx w.du w.dv :=
    ⟨hw.u, hw.v, fun i hi => by
      have e := hw.x i hi
      rwa [← hd i hi, sub_self] at e⟩
  have key := sim_deriv f it g w A B hf hd hw' h0
  dsimp only
  simp only [rollout_eq, closed, h0]
  refine ⟨fun i hi => ?_, fun i hi => ?_, fun i hi => ?_, hasDerivAt_smul_add _ _, fun i hi => ?_⟩
  · simp only [if_pos hi]
    exact (key i hi).1
  · simp only [if_pos hi]
    have h1 := (hasDerivAt_smul_add (0 : Fin (nu i) → ℝ) (g.k i)).add (HasDerivAt.mulVec (g.K i) (key i hi.le).2)
    have h2 := h1.const_add (it.u i)
    rw [hw.u i hi]
    have e : (fun a : ℝ => it.u i + ((0 : Fin (nu i) → ℝ) + a • g.k i + g.K i *ᵥ (sim (vecSys f) it g 0 a i).2)) =
        fun a => (vecSys f).uint i (it.u i) (a • g.k i + g.K i *ᵥ (sim (vecSys f) it g 0 a i).2) := by
      funext a
      rw [zero_add]
      rfl
    rw [← e]
    exact h2
  · simp only [if_pos (Nat.lt_succ_of_le hi)]
    have h1 := (hasDerivAt_smul_add (0 : Fin (nc i) → ℝ) (g.z i)).add (HasDerivAt.mulVec (g.Z i) (key i hi).2)
    have h2 := h1.const_add (it.vs i)
    rw [hw.v i hi]
    simpa using h2
  · simp only [if_pos hi]
    exact hasDerivAt_smul_add _ _

/-! ### The merit function along the rollout -/

open Lag CSets

/-- The merit of a trial point of the nonlinear rollout: `forwardPass` (solvers/proxddp/solver-proxddp.hxx:531-552) reads the
value of the initial condition computed at the iterate, because the rollout does not evaluate it (:322-416). -/
noncomputable def meritOf (P : Lag.Spec.Problem nx nu N) (op : ℕ → CSet) (mu muDyn : ℝ) (vPrev vs out : ℕ → List ℝ)
    (x0 : Fin (nx 0) → ℝ) (x : ∀ i, Fin (nx i) → ℝ) (u : ∀ i, Fin (nu i) → ℝ) (l : Lams nx P.nc0) : ℝ :=
  let V := { valuesAt P x u with init := P.h x0 }
  meritEvaluate muDyn mu N V.cost (lamsPlus mu muDyn l V) (vsPlus op mu vPrev vs out V)

theorem hasDerivAt_stack_along {n m : ℕ} (cs : List (Lag.Spec.CFun n m)) {x dx : Fin n → ℝ} {u du : Fin m → ℝ} {xc : ℝ → Fin n → ℝ}
    {uc : ℝ → Fin m → ℝ} (hx : HasDerivAt xc dx 0) (hu : HasDerivAt uc du 0) (x0 : xc 0 = x) (u0 : uc 0 = u)
    (h : ∀ c ∈ cs, HasF c.g x u fun dx du => c.Jx *ᵥ dx + c.Ju *ᵥ du) (k : ℕ) :
    HasDerivAt (fun t : ℝ => (Lag.Spec.stack cs (xc t) (uc t)).getD k 0) ((stackDir cs dx du).getD k 0) 0 := by
  induction cs generalizing k with
  | nil => simpa [Lag.Spec.stack, stackDir] using hasDerivAt_const (0 : ℝ) (0 : ℝ)
  | cons c cs ih =>
    have e : ∀ (w : Fin c.dim → ℝ) (r : List ℝ), (List.ofFn w ++ r).getD k 0 =
        if hk : k < c.dim then w ⟨k, hk⟩ else r.getD (k - c.dim) 0 := by
      intro w r
      by_cases hk : k < c.dim
      · rw [dif_pos hk, List.getD_eq_getElem?_getD, List.getElem?_append_left (by simpa using hk)]
        simp [hk]
      · rw [dif_neg hk, List.getD_eq_getElem?_getD, List.getElem?_append_right (by simpa using hk), List.length_ofFn,
          List.getD_eq_getElem?_getD]
    simp only [Lag.Spec.stack, stackDir, List.flatMap_cons, e]
    by_cases hk : k < c.dim
    · simp only [dif_pos hk]
      exact hasDerivAt_pi.1 (HasF.along (h c (by simp)) hx hu x0 u0) ⟨k, hk⟩
    · simp only [dif_neg hk]
      exact ih (fun c hc => h c (by simp [hc])) (k - c.dim)

/-- The derivative of the merit along a curve of trajectories that starts at the iterate and keeps the initial state. -/
theorem merit_along (P : Lag.Spec.Problem nx nu N) (x dx : ∀ i, Fin (nx i) → ℝ) (u du : ∀ i, Fin (nu i) → ℝ)
    (hP : Right P x u) (op : ℕ → CSet) (C : ℕ → List ℝ → Prop) (hop : ∀ i, i ≤ N → ProjectsOnto (op i) (C i) (ncOf P i))
    (mu muDyn : ℝ) (hmu : 0 < mu) (hmuDyn : 0 < muDyn) (l dl : Lams nx P.nc0) (vPrev out : ℕ → List ℝ) (vs : ℝ → ℕ → List ℝ)
    (hp : ∀ i, i ≤ N → (vPrev i).length = ncOf P i) (ho : ∀ i, i ≤ N → (out i).length = ncOf P i)
    (xc : ℝ → ∀ i, Fin (nx i) → ℝ) (uc : ℝ → ∀ i, Fin (nu i) → ℝ) (lc : ℝ → Lams nx P.nc0)
    (hx : ∀ i, i ≤ N → HasDerivAt (fun t => xc t i) (dx i) 0) (hu : ∀ i, i < N → HasDerivAt (fun t => uc t i) (du i) 0)
    (hl0 : HasDerivAt (fun t => (lc t).init) dl.init 0) (hl : ∀ i, i < N → HasDerivAt (fun t => (lc t).dyn i) (dl.dyn i) 0)
    (x0 : ∀ i, i ≤ N → xc 0 i = x i) (u0 : ∀ i, i < N → uc 0 i = u i) (l0 : (lc 0).init = l.init)
    (l0' : ∀ i, i < N → (lc 0).dyn i = l.dyn i) (hdx0 : dx 0 = 0) :
    let V := valuesAt P x u
    let lP := lamsPlus mu muDyn l V
    let vP := vsPlus op mu vPrev (vs 0) out V
    HasDerivAt (fun t => meritOf P op mu muDyn vPrev (vs t) out (x 0) (xc t) (uc t) (lc t))
      (directionalDerivative (pdata P) lP vP dx du +
        (mu * (lP.init ⬝ᵥ dl.init) + muDyn * ∑ i ∈ Finset.range N, lP.dyn i ⬝ᵥ dl.dyn i)) 0 := by
  intro V lP vP
  have len : ∀ (x : ∀ i, Fin (nx i) → ℝ) (u : ∀ i, Fin (nu i) → ℝ) (i : ℕ), ((valuesAt P x u).c i).length = ncOf P i := by
    intro x u i
    unfold valuesAt ncOf
    dsimp only
    split
    · rw [stack_length]
    · rw [stack_length]
  have lvP : ∀ i, i ≤ N → (vP i).length = ncOf P i := by
    intro i hi
    have ls : (List.zipWith (· + ·) (V.c i) ((vPrev i).map (mu * ·))).length = ncOf P i := by
      rw [List.length_zipWith, len x u i, List.length_map, hp i hi, min_self]
    show (((op i).normalConeProjection (List.zipWith (· + ·) (V.c i) ((vPrev i).map (mu * ·))) (out i)).map _).length = _
    rw [List.length_map, (hop i hi).cone _ (out i) (out i) ls (ho i hi) (ho i hi),
      sub_length (by rw [(hop i hi).length _ _ ls (ho i hi), ls]), ls]
  have hv : VShape P vP := ⟨fun i hi => by rw [lvP i hi.le, ncOf, if_pos hi],
    by rw [lvP N le_rfl, ncOf, if_neg (lt_irrefl N)]⟩
  rw [show directionalDerivative (pdata P) lP vP dx du = _ from directionalDerivative_eq_pair (pdata P) lP vP dx du,
    pair_eq P lP vP hv dx du]
  -- the pieces
  have hcost : HasDerivAt (fun t : ℝ => Lag.Spec.cost P (xc t) (uc t))
      ((∑ i ∈ Finset.range N, (P.lx i ⬝ᵥ dx i + P.lu i ⬝ᵥ du i)) + P.lNx ⬝ᵥ dx N) 0 :=
    (HasDerivAt.fun_sum fun i hi => HasF.along (hP.l i (Finset.mem_range.1 hi)) (hx i (Finset.mem_range.1 hi).le)
      (hu i (Finset.mem_range.1 hi)) (x0 i (Finset.mem_range.1 hi).le) (u0 i (Finset.mem_range.1 hi))).add
      (HasF.along hP.lN (hx N le_rfl) (hasDerivAt_const (0 : ℝ) (0 : Fin 0 → ℝ)) (x0 N le_rfl) rfl)
  have hinit : HasDerivAt (fun t : ℝ => fun k => (lc t).init k + P.h (x 0) k / mu) dl.init 0 := by
    rw [hasDerivAt_pi]
    intro k
    exact (hasDerivAt_pi.1 hl0 k).add_const _
  have hdyn : ∀ i, i < N → HasDerivAt (fun t : ℝ => fun k => (lc t).dyn i k +
        (P.f i (xc t i) (uc t i) - xc t (i + 1)) k / muDyn)
      (dl.dyn i + (1 / muDyn) • (P.fx i *ᵥ dx i + P.fu i *ᵥ du i - dx (i + 1))) 0 := by
    intro i hi
    rw [hasDerivAt_pi]
    intro k
    have h1 := hasDerivAt_pi.1 (hl i hi) k
    have h2 := (hasDerivAt_pi.1 ((HasF.along (hP.f i hi) (hx i hi.le) (hu i hi) (x0 i hi.le) (u0 i hi)).sub
      (hx (i + 1) (by omega))) k).div_const muDyn
    have h3 := h1.add h2
    refine HasDerivAt.congr_deriv h3 (Eq.symm ?_)
    simp only [Pi.add_apply, Pi.smul_apply, smul_eq_mul]
    ring
  have hpen : ∀ i, i ≤ N → HasDerivAt (fun t : ℝ => 1 / 2 * (mu * sqNorm (vsPlus op mu vPrev (vs t) out
        (valuesAt P (xc t) (uc t)) i)))
      (Lag.Spec.ldot (vP i) (if i < N then stackDir (P.c i) (dx i) (du i) else stackDir P.cN (dx N) 0)) 0 := by
    intro i hi
    have := hasDerivAt_penalty (hop i hi) mu hmu (vPrev i) (out i) (fun t => vs t i) (hp i hi) (ho i hi)
      (fun t => (valuesAt P (xc t) (uc t)).c i)
      (if i < N then stackDir (P.c i) (dx i) (du i) else stackDir P.cN (dx N) 0)
      (fun t => len _ _ i) (by unfold ncOf; split <;> rw [stackDir_length]) (by
        intro k _
        simp only [valuesAt]
        by_cases hiN : i < N
        · simp only [if_pos hiN]
          exact hasDerivAt_stack_along _ (hx i hi) (hu i hiN) (x0 i hi) (u0 i hiN) (hP.c i hiN) k
        · simp only [if_neg hiN]
          exact hasDerivAt_stack_along P.cN (hx N le_rfl) (hasDerivAt_const (0 : ℝ) (0 : Fin 0 → ℝ)) (x0 N le_rfl) rfl hP.cN k)
    refine HasDerivAt.congr_deriv this (congrArg (fun w => Lag.Spec.ldot w _) (Eq.symm ?_))
    show vsPlus op mu vPrev (vs 0) out V i = _
    have hc : V.c i = (valuesAt P (xc 0) (uc 0)).c i := by
      simp only [V, valuesAt]
      by_cases hiN : i < N
      · rw [if_pos hiN, if_pos hiN, x0 i hi, u0 i hiN]
      · rw [if_neg hiN, if_neg hiN, x0 N le_rfl]
    simp only [vsPlus, hc]
  -- assemble
  have e : (fun t => meritOf P op mu muDyn vPrev (vs t) out (x 0) (xc t) (uc t) (lc t)) = fun t : ℝ =>
      Lag.Spec.cost P (xc t) (uc t) +
      (1 / 2 * (mu * ((fun k => (lc t).init k + P.h (x 0) k / mu) ⬝ᵥ (fun k => (lc t).init k + P.h (x 0) k / mu))) +
      ∑ i ∈ Finset.range N, (1 / 2 * (muDyn * ((fun k => (lc t).dyn i k + (P.f i (xc t i) (uc t i) - xc t (i + 1)) k / muDyn) ⬝ᵥ
        (fun k => (lc t).dyn i k + (P.f i (xc t i) (uc t i) - xc t (i + 1)) k / muDyn))) +
        1 / 2 * (mu * sqNorm (vsPlus op mu vPrev (vs t) out (valuesAt P (xc t) (uc t)) i))) +
      1 / 2 * (mu * sqNorm (vsPlus op mu vPrev (vs t) out (valuesAt P (xc t) (uc t)) N))) := by
    funext t
    unfold meritOf meritEvaluate
    simp only [add_assoc]
    rw [foldl_add_sum]
    simp only [lamsPlus, valuesAt, vsPlus, add_assoc]
  rw [e]
  have hall := hcost.add (((hasDerivAt_sq hinit mu).add (HasDerivAt.fun_sum fun i hi =>
    (hasDerivAt_sq (hdyn i (Finset.mem_range.1 hi)) muDyn).add (hpen i (Finset.mem_range.1 hi).le))).add (hpen N le_rfl))
  refine HasDerivAt.congr_deriv hall (Eq.symm ?_)
  have z0 : (fun k => (lc 0).init k + P.h (x 0) k / mu) = lP.init := by
    funext k; rw [l0]; rfl
  have hs : ∑ i ∈ Finset.range N, (muDyn * ((fun k => (lc 0).dyn i k + (P.f i (xc 0 i) (uc 0 i) - xc 0 (i + 1)) k / muDyn) ⬝ᵥ
        (dl.dyn i + (1 / muDyn) • (P.fx i *ᵥ dx i + P.fu i *ᵥ du i - dx (i + 1)))) +
      Lag.Spec.ldot (vP i) (if i < N then stackDir (P.c i) (dx i) (du i) else stackDir P.cN (dx N) 0)) =
      muDyn * (∑ i ∈ Finset.range N, lP.dyn i ⬝ᵥ dl.dyn i) +
      ∑ i ∈ Finset.range N, (lP.dyn i ⬝ᵥ (P.fx i *ᵥ dx i + P.fu i *ᵥ du i - dx (i + 1)) +
        Lag.Spec.ldot (vP i) (stackDir (P.c i) (dx i) (du i))) := by
    rw [Finset.mul_sum, ← Finset.sum_add_distrib]
    refine Finset.sum_congr rfl fun i hi => ?_
    have hi := Finset.mem_range.1 hi
    have z1 : (fun k => (lc 0).dyn i k + (P.f i (xc 0 i) (uc 0 i) - xc 0 (i + 1)) k / muDyn) = lP.dyn i := by
      funext k; rw [l0' i hi, x0 i hi.le, u0 i hi, x0 (i + 1) (by omega)]; rfl
    rw [z1, if_pos hi, dotProduct_add, dotProduct_smul, smul_eq_mul]
    field_simp
    ring
  rw [z0, hs, if_neg (lt_irrefl N), hdx0]
  simp only [mulVec_zero, dotProduct_zero]
  ring

/-- **C58** When the iterate satisfies the dynamics and the initial state does not move, the merit along the nonlinear rollout
starts at the merit of the iterate and its slope is that of the linear step (C28): the number that the code hands to the line
search plus the terms of the multiplier directions, which the code leaves out. -/
theorem C58_merit_slope (P : Lag.Spec.Problem nx nu N) (it : VTraj nx nu nc P.nc0) (g : Gains nx nu nc)
    (w : VWork nx nu nc P.nc0) (hP : Right P it.x it.u) (hd : Dynamics P.f N it.x it.u)
    (hw : Follows N g.k g.K g.z g.Z P.fx P.fu (fun i => P.f i (it.x i) (it.u i) - it.x (i + 1)) w.dx w.du w.dv)
    (h0 : w.dx 0 = 0) (hN : 0 < N) (op : ℕ → CSet) (C : ℕ → List ℝ → Prop)
    (hop : ∀ i, i ≤ N → ProjectsOnto (op i) (C i) (ncOf P i)) (mu muDyn : ℝ) (hmu : 0 < mu) (hmuDyn : 0 < muDyn)
    (vPrev vs out : ℕ → List ℝ)
    (hp : ∀ i, i ≤ N → (vPrev i).length = ncOf P i) (ho : ∀ i, i ≤ N → (out i).length = ncOf P i) :
    let tr := fun a => (rollout (vecSys P.f) N it g w a).trial
    let phi := fun a => meritOf P op mu muDyn vPrev (fun i => List.ofFn ((tr a).vs i)) out (it.x 0) (tr a).x (tr a).u
      ⟨(tr a).lam0, (tr a).lam⟩
    let lP := lamsPlus mu muDyn ⟨it.lam0, it.lam⟩ (valuesAt P it.x it.u)
    let vP := vsPlus op mu vPrev vs out (valuesAt P it.x it.u)
    phi 0 = meritEvaluate muDyn mu N (Lag.Spec.cost P it.x it.u) lP vP ∧
    HasDerivAt phi (directionalDerivative (pdata P) lP vP w.dx w.du +
        (mu * (lP.init ⬝ᵥ w.dlam0) + muDyn * ∑ i ∈ Finset.range N, lP.dyn i ⬝ᵥ w.dlam i)) 0 := by
  intro tr phi lP vP
  have hz : Same N (tr 0) it := (C58_zero_step P.f it g w hN).2 ⟨hd, by rw [h0, mulVec_zero], by rw [h0, mulVec_zero]⟩
  obtain ⟨d1, d2, d3, d4, d5⟩ := C58_first_order P.f it g w P.fx P.fu hP.f hd hw h0
  refine ⟨?_, ?_⟩
  · have hc : Lag.Spec.cost P (tr 0).x (tr 0).u = Lag.Spec.cost P it.x it.u := by
      unfold Lag.Spec.cost
      rw [hz.x N le_rfl]
      congr 1
      exact Finset.sum_congr rfl fun i hi => by rw [hz.x i (Finset.mem_range.1 hi).le, hz.u i (Finset.mem_range.1 hi)]
    have hcs : ∀ i, i ≤ N → (valuesAt P (tr 0).x (tr 0).u).c i = (valuesAt P it.x it.u).c i := by
      intro i hi
      simp only [valuesAt]
      by_cases hiN : i < N
      · rw [if_pos hiN, if_pos hiN, hz.x i hi, hz.u i hiN]
      · rw [if_neg hiN, if_neg hiN, hz.x N le_rfl]
    have hvs : ∀ i, i ≤ N → vsPlus op mu vPrev (fun i => List.ofFn ((tr 0).vs i)) out
        { valuesAt P (tr 0).x (tr 0).u with init := P.h (it.x 0) } i = vP i := by
      intro i hi
      simp only [vP, vsPlus, multiplierStep, hcs i hi]
    show meritEvaluate muDyn mu N (Lag.Spec.cost P (tr 0).x (tr 0).u) _ _ = _
    rw [hc]
    unfold meritEvaluate
    dsimp only
    simp only [add_assoc]
    rw [foldl_add_sum, foldl_add_sum, hvs N le_rfl]
    congr 3
    · show 1 / 2 * (mu * ((fun k => (tr 0).lam0 k + P.h (it.x 0) k / mu) ⬝ᵥ fun k => (tr 0).lam0 k + P.h (it.x 0) k / mu)) = _
      rw [hz.lam0]
      rfl
    · refine Finset.sum_congr rfl fun i hi => ?_
      have hi := Finset.mem_range.1 hi
      rw [hvs i hi.le]
      congr 1
      show 1 / 2 * (muDyn * ((fun k => (tr 0).lam i k + (P.f i ((tr 0).x i) ((tr 0).u i) - (tr 0).x (i + 1)) k / muDyn) ⬝ᵥ
        fun k => (tr 0).lam i k + (P.f i ((tr 0).x i) ((tr 0).u i) - (tr 0).x (i + 1)) k / muDyn)) = _
      rw [hz.lam i hi, hz.x i hi.le, hz.u i hi, hz.x (i + 1) (by omega)]
      rfl
  · exact merit_along P it.x w.dx it.u w.du hP op C hop mu muDyn hmu hmuDyn ⟨it.lam0, it.lam⟩ ⟨w.dlam0, w.dlam⟩ vPrev out
      (fun a i => List.ofFn ((tr a).vs i)) hp ho (fun a => (tr a).x) (fun a => (tr a).u) (fun a => ⟨(tr a).lam0, (tr a).lam⟩)
      d1 d2 d4 d5 hz.x hz.u hz.lam0 hz.lam h0

/-! ### The directions of the linear solver -/

section solver

open LQ

/-- The factors of the knots `0 ≤ i < k` in front of those of a chain. -/
def facsBuild (I : LQ.Input nx nu N) (F : ∀ i, Gar.Factor ℝ 0 (nx i) (nu i) (LQ.dim (I.pd.cstr i)) (nx (i + 1))) :
    (k : ℕ) → (tl : Gar.Chain ℝ 0 (nx k)) → Gar.Facs tl → Gar.Facs (build I k tl)
  | 0, _, t => t
  | k + 1, tl, t => facsBuild I F k (.cons (knot I k) tl) (.cons (F k) t)

theorem facsBuild_surj (I : LQ.Input nx nu N) (k : ℕ) (tl : Gar.Chain ℝ 0 (nx k)) (T : Gar.Facs (build I k tl)) :
    ∃ (F : ∀ i, Gar.Factor ℝ 0 (nx i) (nu i) (LQ.dim (I.pd.cstr i)) (nx (i + 1))) (t : Gar.Facs tl), T = facsBuild I F k tl t := by
  induction k with
  | zero =>
    exact ⟨fun i => ⟨0, 0, 0, 0, 0, 0, 0, 0, 0, ⟨0, 0, 0, 0, 0⟩⟩, T, rfl⟩
  | succ k ih =>
    obtain ⟨F, t, h⟩ := ih (.cons (knot I k) tl) T
    cases t with
    | cons G t =>
      refine ⟨Function.update F k G, t, h.trans ?_⟩
      have e : ∀ j, j ≤ k → ∀ (tl : Gar.Chain ℝ 0 (nx j)) (t : Gar.Facs tl),
          facsBuild I F j tl t = facsBuild I (Function.update F k G) j tl t := by
        intro j
        induction j with
        | zero => intro _ _ _; rfl
        | succ j ihj =>
          intro hj tl t
          have e1 : Function.update F k G j = F j := Function.update_of_ne (by omega) _ _
          simp only [facsBuild, e1]
          exact ihj (by omega) _ _
      rw [e k le_rfl, facsBuild, Function.update_self]

theorem forward_build (I : LQ.Input nx nu N) (F : ∀ i, Gar.Factor ℝ 0 (nx i) (nu i) (LQ.dim (I.pd.cstr i)) (nx (i + 1)))
    (s : LQ.Spec.Step nx nu I.pd.nc0) (k : ℕ) (tl : Gar.Chain ℝ 0 (nx k)) (Ft : Gar.Facs tl) (t : Gar.Traj tl) (x0 : Fin (nx 0) → ℝ)
    (h : Gar.forwardImpl 0 (facsBuild I F k tl Ft) x0 = trajBuild I s k tl t) :
    (∀ i, i < k → s.du i = (F i).kff + (F i).K *ᵥ s.dx i ∧ vec _ (s.dv i) = (F i).zff + (F i).Z *ᵥ s.dx i) ∧
      ∃ x, t = Gar.forwardImpl 0 Ft x := by
  induction k with
  | zero => exact ⟨by simp, x0, h.symm⟩
  | succ k ih =>
    obtain ⟨h1, x, h2⟩ := ih (.cons (knot I k) tl) (.cons (F k) Ft) _ h
    have h3 : Gar.Traj.cons ⟨s.dx k, s.du k, vec _ (s.dv k)⟩ (s.dlam k) t = Gar.Traj.cons (k := knot I k)
      ⟨x, (F k).kff + (F k).K *ᵥ x + (F k).Kth *ᵥ 0, (F k).zff + (F k).Z *ᵥ x + (F k).Zth *ᵥ 0⟩ _
      (Gar.forwardImpl 0 Ft ((F k).yff + (F k).Aff *ᵥ x + (F k).Yth *ᵥ 0)) := h2
    injection h3 with _ _ _ _ _ _ h4 h5 h6
    injection h4 with a1 a2 a3
    subst a1
    refine ⟨fun i hi => ?_, _, h6⟩
    rcases Nat.lt_succ_iff_lt_or_eq.1 hi with hi | rfl
    · exact h1 i hi
    · exact ⟨by rw [a2, mulVec_zero, add_zero], by rw [a3, mulVec_zero, add_zero]⟩

variable {P : Lag.Spec.Problem nx nu N} {op : ℕ → CSet} {ks : ℕ → List Kind} {vPrev vs out : ℕ → CSets.Vec} {outA : ℕ → List Bool}

/-- **C58** The directions and gains of the Riccati solver on the assembled subproblem are related as the theorems above suppose:
the controls and multipliers of the direction follow the gains, the states follow the linearised dynamics with the defects of the
iterate. -/
theorem C58_solver_directions_follow {ldl : Gar.LDL ℝ} (hl : ldl.Exact) (hess : Hess nx nu N) (hh : hess.Symm)
    (mu preg : ℝ) (hmu : mu ≠ 0) (exact force : Bool) (l : Lams nx P.nc0) (x : ∀ i, Fin (nx i) → ℝ) (u : ∀ i, Fin (nu i) → ℝ)
    (dv : ℕ → List ℝ) (h : Shapes P op ks vPrev vs out dv outA)
    (sol : Gar.Solver (subproblem (inp P hess op mu preg exact force l vPrev vs out x u)))
    (hb : Gar.backward ldl (subproblem (inp P hess op mu preg exact force l vPrev vs out x u)) mu = .ok sol) :
    ∃ (s : LQ.Spec.Step nx nu P.nc0) (F : ∀ i, Gar.Factor ℝ 0 (nx i) (nu i)
        (LQ.dim ((inp P hess op mu preg exact force l vPrev vs out x u).pd.cstr i)) (nx (i + 1)))
      (FN : Gar.Factor ℝ 0 (nx N) 0 (LQ.dim ((inp P hess op mu preg exact force l vPrev vs out x u).pd.termCstr)) 0),
      sol.datas = facsBuild (inp P hess op mu preg exact force l vPrev vs out x u) F N _ (.last FN) ∧
      (Gar.forward sol 0).2 = traj (inp P hess op mu preg exact force l vPrev vs out x u) s ∧
      (∀ i, i < N → s.du i = (F i).kff + (F i).K *ᵥ s.dx i ∧ vec _ (s.dv i) = (F i).zff + (F i).Z *ᵥ s.dx i ∧
        s.dx (i + 1) = P.fx i *ᵥ s.dx i + P.fu i *ᵥ s.du i + (P.f i (x i) (u i) - x (i + 1))) ∧
      vec _ (s.dv N) = FN.zff + FN.Z *ᵥ s.dx N := by
  obtain ⟨s, e0, e1, l1, l2⟩ := traj_surj (inp P hess op mu preg exact force l vPrev vs out x u) (Gar.forward sol 0).1
    (Gar.forward sol 0).2
  have hK := Gar.C01_forward_solves_KKT_nonparametric hl _ mu (symm_subproblem hess mu preg exact force l x u hh) sol hb
  rw [← e0, e1] at hK
  have hs : Shapes P op ks vPrev vs out s.dv outA := by
    refine ⟨h.lib, h.kinds, h.prev, h.cur, h.out, fun i hi => ?_, h.outA⟩
    rcases Nat.lt_or_eq_of_le hi with hi | rfl
    · rw [l1 i hi, ncOf, if_pos hi]; exact dim_cdata _
    · rw [l2, ncOf, if_neg (lt_irrefl i)]; exact dim_cdata _
  obtain ⟨-, hdyn, -⟩ := (kkt_rows hess mu preg exact force l x u hmu hs).1 hK
  obtain ⟨F, t, hF⟩ := facsBuild_surj (inp P hess op mu preg exact force l vPrev vs out x u) N _ sol.datas
  cases t with
  | last FN =>
    have e2 : Gar.forwardImpl 0 sol.datas (sol.x0ff + sol.x0fth *ᵥ 0) =
      traj (inp P hess op mu preg exact force l vPrev vs out x u) s := e1
    rw [hF] at e2
    obtain ⟨f1, y, f2⟩ := forward_build _ F s N _ (.last FN) _ _ e2
    have f3 : Gar.Traj.last (k := termKnot (inp P hess op mu preg exact force l vPrev vs out x u))
      ⟨s.dx N, Fin.elim0, vec _ (s.dv N)⟩ = Gar.Traj.last
      ⟨y, FN.kff + FN.K *ᵥ y + FN.Kth *ᵥ 0, FN.zff + FN.Z *ᵥ y + FN.Zth *ᵥ 0⟩ := f2
    injection f3 with _ _ _ _ _ f4
    injection f4 with a1 a2 a3
    subst a1
    exact ⟨s, F, FN, hF, e1, fun i hi => ⟨(f1 i hi).1, (f1 i hi).2, (hdyn i hi).symm⟩, by rw [a3, mulVec_zero, add_zero]⟩

end solver

/-! ### The initial condition inside the inner loop -/

section stale

open Link ProxDDP

/-- What one inner loop leaves, for relations between iterate and number of accepted steps. -/
theorem innerLoop_track {X V W : Type} {p : Params} {e : Env X V W} (he : e.Regular) (J : X → ℕ → Prop)
    (ho : ∀ s d l a k, J s.x k → e.oracle s = .step d l a → ∀ t ∈ l, J t (k + 1)) {s s' : St X V W} (hx : J s.x 0) {b : Bool}
    (h : innerLoop p e s = .done b s') :
    Sync e s' ∧ s.numIters ≤ s'.numIters ∧ (J s'.x (s'.numIters - s.numIters) ∨ b = false ∧ J s'.x (s'.numIters - s.numIters + 1)) := by
  have f := computeMultipliers_fields e s.x (s.push false)
  have key : ∀ (s1 : St X V W), ((initializeRegularization p (ProxDDP.computeCriterion e s1)).push true).x = s1.x ∧
      ((initializeRegularization p (ProxDDP.computeCriterion e s1)).push true).numIters = s1.numIters := by
    intro s1
    obtain ⟨r, hr⟩ := initReg_fields p (ProxDDP.computeCriterion e s1)
    rw [hr]
    exact ⟨rfl, rfl⟩
  refine innerIter_induct p e (fun _ s1 => Sync e s1 ∧ s.numIters ≤ s1.numIters ∧ J s1.x (s1.numIters - s.numIters))
    (fun o => ∀ b s', o = .done b s' → Sync e s' ∧ s.numIters ≤ s'.numIters ∧
      (J s'.x (s'.numIters - s.numIters) ∨ b = false ∧ J s'.x (s'.numIters - s.numIters + 1)))
    ?_ ?_ ?_ ?_ ?_ ?_ ?_ _ _ ?_ b s' h
  · rintro s1 ⟨h1, h2, h3⟩ b s' h
    cases h
    exact ⟨h1, h2, .inl h3⟩
  · rintro n s1 ⟨h1, h2, h3⟩ _ b s' h
    cases h
    exact ⟨h1, h2, .inl h3⟩
  · intro n s1 _ b s' h
    cases h
  · rintro n s1 ⟨h1, h2, h3⟩ b s' h
    obtain ⟨r, hr⟩ := initReg_fields p (ProxDDP.computeCriterion e s1)
    rw [hr] at h
    cases h
    exact ⟨h1, h2, .inl h3⟩
  · rintro n s1 d l a ⟨h1, h2, h3⟩ hoc s2 b s' h
    cases h
    have hl : l ≠ [] := by rintro rfl; exact he.nonempty _ _ _ hoc
    have hn : s2.numIters = s1.numIters := (foldl_fields e l _).2.2.2.2.2.2.2.2.2.1.trans (key s1).2
    have hj := ho _ d l a (s1.numIters - s.numIters) (by rw [(key s1).1]; exact h3) hoc _ (foldl_trial e l hl
      ((initializeRegularization p (ProxDDP.computeCriterion e s1)).push true))
    refine ⟨foldl_sync he l hl _, ?_, .inr ⟨rfl, ?_⟩⟩
    · show _ ≤ s2.numIters
      omega
    · show J s2.trial (s2.numIters - s.numIters + 1)
      rw [hn]
      exact hj
  · rintro n s1 d l a ⟨h1, h2, h3⟩ hoc
    dsimp only
    intro _
    have hl : l ≠ [] := by rintro rfl; exact he.nonempty _ _ _ hoc
    have hn := (foldl_fields e l ((initializeRegularization p (ProxDDP.computeCriterion e s1)).push true)).2.2.2.2.2.2.2.2.2.1.trans (key s1).2
    have hj := ho _ d l a (s1.numIters - s.numIters) (by rw [(key s1).1]; exact h3) hoc _ (foldl_trial e l hl
      ((initializeRegularization p (ProxDDP.computeCriterion e s1)).push true))
    have hs := foldl_sync he l hl ((initializeRegularization p (ProxDDP.computeCriterion e s1)).push true)
    generalize l.foldl (forwardPass e) ((initializeRegularization p (ProxDDP.computeCriterion e s1)).push true) = s2 at hn hj hs ⊢
    obtain ⟨r, hr⟩ := incReg_fields p { s2 with x := s2.trial }
    rw [hr]
    refine ⟨hs, ?_, ?_⟩
    · show _ ≤ s2.numIters + 1
      omega
    · show J s2.trial (s2.numIters + 1 - s.numIters)
      rw [hn, Nat.sub_add_comm h2]
      exact hj
  · rintro n s1 d l a ⟨h1, h2, h3⟩ hoc
    dsimp only
    have hl : l ≠ [] := by rintro rfl; exact he.nonempty _ _ _ hoc
    have hn := (foldl_fields e l ((initializeRegularization p (ProxDDP.computeCriterion e s1)).push true)).2.2.2.2.2.2.2.2.2.1.trans (key s1).2
    have hj := ho _ d l a (s1.numIters - s.numIters) (by rw [(key s1).1]; exact h3) hoc _ (foldl_trial e l hl
      ((initializeRegularization p (ProxDDP.computeCriterion e s1)).push true))
    have hs := foldl_sync he l hl ((initializeRegularization p (ProxDDP.computeCriterion e s1)).push true)
    generalize l.foldl (forwardPass e) ((initializeRegularization p (ProxDDP.computeCriterion e s1)).push true) = s2 at hn hj hs ⊢
    refine ⟨hs, ?_, ?_⟩
    · show _ ≤ s2.numIters + 1
      omega
    · show J s2.trial (s2.numIters + 1 - s.numIters)
      rw [hn, Nat.sub_add_comm h2]
      exact hj
  · refine ⟨computeMultipliers_sync he (s.push false), ?_, ?_⟩
    · rw [f.2.2.2.2.2.2.2.2.2.2.1]; exact le_rfl
    · rw [f.1, f.2.2.2.2.2.2.2.2.2.2.1]
      show J s.x (s.numIters - s.numIters)
      rw [Nat.sub_self]
      exact hx

variable (P : Prob nx nu N) (S : Setup)
  (search : St (NLIter nx nu P.nc0) (ℕ → CSets.Vec) (WS nx P.nc0) → Search)
  (solve : St (NLIter nx nu P.nc0) (ℕ → CSets.Vec) (WS nx P.nc0) → Option (Gains nx nu S.nc × VWork nx nu S.nc P.nc0))

theorem regularNL (hne : ∀ s phi0 dphi0 phi a, search s phi0 dphi0 phi ≠ some (a, [])) :
    (envNL P S (oracleNL P S search solve)).Regular := by
  refine ⟨fun _ _ _ => rfl, fun s d a h => ?_⟩
  change oracleNL P S search solve s = _ at h
  unfold oracleNL at h
  split at h
  · cases h
  · dsimp only at h
    split at h
    · cases h
    · rename_i a' calls hs
      injection h with _ h2 _
      rw [List.map_eq_nil_iff] at h2
      subst h2
      exact hne _ _ _ _ _ hs

/-- Every trial point is a rollout along the directions of the linear solver. -/
theorem oracleNL_trial {s : St (NLIter nx nu P.nc0) (ℕ → CSets.Vec) (WS nx P.nc0)} {d a : ℝ} {l : List (NLIter nx nu P.nc0)}
    (h : oracleNL P S search solve s = .step d l a) (t : NLIter nx nu P.nc0) (ht : t ∈ l) :
    ∃ g w calls b phi0 phi, solve s = some (g, w) ∧ search s phi0 d phi = some (a, calls) ∧ b ∈ calls ∧
      t = trialNL P S.nc s.x g (if S.force then { w with dx := Function.update w.dx 0 0, dlam0 := 0 } else w) b := by
  unfold oracleNL at h
  split at h
  · cases h
  · rename_i g w hg
    dsimp only at h
    split at h
    · cases h
    · rename_i a' calls hs
      injection h with h1 h2 h3
      subst h1 h2 h3
      obtain ⟨b, hb, rfl⟩ := List.mem_map.1 ht
      exact ⟨g, w, calls, b, _, _, hg, hs, hb, rfl⟩

/-- **C58** Inside one inner loop with nonlinear rollouts the recorded primal infeasibility never falls below the violation of the
initial condition at the entry of the loop, whatever steps are taken. -/
theorem C58_initial_residual_stale (p : Params) (hne : ∀ s phi0 dphi0 phi a, search s phi0 dphi0 phi ≠ some (a, []))
    {s s' : St (NLIter nx nu P.nc0) (ℕ → CSets.Vec) (WS nx P.nc0)} {b : Bool}
    (h : innerLoopNL P p (envNL P S (oracleNL P S search solve)) s = .done b s') :
    LQ.infNorm (List.ofFn (P.h (s.x.it.x 0))) ≤ s'.prim := by
  have he := regularNL P S search solve hne
  obtain ⟨h1, -, h2⟩ := innerLoop_track he (fun x _ => x.init = P.h (s.x.it.x 0))
    (fun s1 d l a k h1 h2 t ht => by
      obtain ⟨g, w, calls, b, phi0, phi, -, -, -, rfl⟩ := oracleNL_trial P S search solve h2 t ht
      exact h1) (s := { s with x := refresh P s.x }) rfl h
  have hi : s'.x.init = P.h (s.x.it.x 0) := by rcases h2 with h2 | ⟨-, h2⟩ <;> exact h2
  have h3 : (multNL P S s'.mu s'.prevV s'.x).2 = some s'.prim := congrArg Prod.snd h1
  injection h3 with h3
  rw [← h3, ← hi]
  exact (prim_bounds (N := N) (sl := LQ.slacks (heldValues P s'.x)) 0 (Nat.zero_le _)).2

theorem innerIter_true (p : Params) (hne : ∀ s phi0 dphi0 phi a, search s phi0 dphi0 phi ≠ some (a, [])) (hN : 0 < N)
    (r : Fin P.nc0 → ℝ)
    (h2 : p.targetTol < LQ.infNorm (List.ofFn r)) (n : ℕ)
    (s : St (NLIter nx nu P.nc0) (ℕ → CSets.Vec) (WS nx P.nc0)) (hi : s.x.init = r)
    (hs : Sync (envNL P S (oracleNL P S search solve)) s) (h1 : s.innerTol < LQ.infNorm (List.ofFn r)) (s')
    (h : innerIter p (envNL P S (oracleNL P S search solve)) n s = .done true s') :
    ∃ d l a, oracleNL P S search solve s' = .step d l a ∧ |d| ≤ p.dphiThresh := by
  have he := regularNL P S search solve hne
  induction n generalizing s with
  | zero => cases h
  | succ n ih =>
    unfold innerIter at h
    dsimp only at h
    have hp : LQ.infNorm (List.ofFn r) ≤ s.prim := by
      have h3 : (multNL P S s.mu s.prevV s.x).2 = some s.prim := congrArg Prod.snd hs
      injection h3 with h3
      rw [← h3, ← hi]
      exact (prim_bounds (N := N) (sl := LQ.slacks (heldValues P s.x)) 0 (Nat.zero_le _)).2
    have hc : LQ.infNorm (List.ofFn r) ≤ (envNL P S (oracleNL P S search solve)).innerCrit s.x s.ws := by
      have h3 : (multNL P S s.mu s.prevV s.x).1 = s.ws := congrArg Prod.fst hs
      have h4 : LQ.slacks s.ws.V 0 = List.ofFn r := by
        rw [← h3, ← hi]
        rfl
      rw [← h4]
      show _ ≤ (LQ.computeCriterion N (gradAt P S.force s.x.it) (LQ.slacks s.ws.V) fun i => (s.ws.ms i).Lvs).inner
      have := le_infNorm (List.mem_append_left (as := (List.range N).map (fun i => max
        (max (LQ.infNorm (List.ofFn ((gradAt P S.force s.x.it).Lxs i))) (LQ.infNorm (List.ofFn ((gradAt P S.force s.x.it).Lus i))))
        (max (LQ.infNorm (LQ.slacks s.ws.V i)) (LQ.infNorm (s.ws.ms i).Lvs))))
        [max (LQ.infNorm (List.ofFn ((gradAt P S.force s.x.it).Lxs N))) (LQ.infNorm (s.ws.ms N).Lvs)]
        (List.mem_map.2 ⟨0, List.mem_range.2 hN, rfl⟩))
      exact ((le_max_left _ _).trans (le_max_right _ _)).trans ((le_abs_self _).trans this)
    have hsplit : ¬ ((ProxDDP.computeCriterion (envNL P S (oracleNL P S search solve)) s).crit ≤
        (ProxDDP.computeCriterion (envNL P S (oracleNL P S search solve)) s).innerTol ∨
        ((ProxDDP.computeCriterion (envNL P S (oracleNL P S search solve)) s).dual ≤ p.targetDual ∧
        (ProxDDP.computeCriterion (envNL P S (oracleNL P S search solve)) s).prim ≤ p.targetTol)) := by
      rintro (h | ⟨-, h⟩)
      · exact absurd (h.trans_lt h1) (not_lt.2 hc)
      · exact absurd (h.trans_lt h2) (not_lt.2 hp)
    rw [if_neg hsplit] at h
    obtain ⟨r', hr⟩ := initReg_fields p (ProxDDP.computeCriterion (envNL P S (oracleNL P S search solve)) s)
    rw [hr] at h
    split at h
    · cases h
    · rename_i d l a ho
      split at h
      · rename_i hle
        cases h
        exact ⟨d, l, a, ho, hle⟩
      have hl : l ≠ [] := by rintro rfl; exact he.nonempty _ _ _ ho
      have hi2 : ∀ t ∈ l, t.init = r := by
        intro t ht
        obtain ⟨g, w, calls, b, phi0, phi, -, -, -, rfl⟩ := oracleNL_trial P S search solve ho t ht
        exact hi
      have hm := foldl_trial (envNL P S (oracleNL P S search solve)) l hl (({ ProxDDP.computeCriterion
        (envNL P S (oracleNL P S search solve)) s with preg := r' } : St _ _ _).push true)
      have hsy := foldl_sync he l hl (({ ProxDDP.computeCriterion
        (envNL P S (oracleNL P S search solve)) s with preg := r' } : St _ _ _).push true)
      have hto := (foldl_fields (envNL P S (oracleNL P S search solve)) l (({ ProxDDP.computeCriterion
        (envNL P S (oracleNL P S search solve)) s with preg := r' } : St _ _ _).push true)).2.2.2.1
      generalize l.foldl (forwardPass (envNL P S (oracleNL P S search solve))) (({ ProxDDP.computeCriterion
        (envNL P S (oracleNL P S search solve)) s with preg := r' } : St _ _ _).push true) = s2 at hm hsy hto h
      split at h
      · split at h
        · cases h
        · obtain ⟨r2, hr2⟩ := incReg_fields p { s2 with x := s2.trial }
          rw [hr2] at h
          refine ih _ ?_ ?_ ?_ h
          · exact hi2 _ hm
          · exact hsy
          · exact hto.trans_lt h1
      · refine ih _ ?_ ?_ ?_ h
        · exact hi2 _ hm
        · exact hsy
        · exact hto.trans_lt h1

/-- **C58** So with nonlinear rollouts an inner loop entered at a point that violates the initial condition by more than the
tolerances succeeds only by a vanishing directional derivative, even when its steps remove the violation at once. -/
theorem C58_inner_loop_cannot_converge (p : Params) (hne : ∀ s phi0 dphi0 phi a, search s phi0 dphi0 phi ≠ some (a, []))
    (hN : 0 < N) {s s' : St (NLIter nx nu P.nc0) (ℕ → CSets.Vec) (WS nx P.nc0)}
    (h1 : s.innerTol < LQ.infNorm (List.ofFn (P.h (s.x.it.x 0)))) (h2 : p.targetTol < LQ.infNorm (List.ofFn (P.h (s.x.it.x 0))))
    (h : innerLoopNL P p (envNL P S (oracleNL P S search solve)) s = .done true s') :
    ∃ d l a, oracleNL P S search solve s' = .step d l a ∧ |d| ≤ p.dphiThresh := by
  have he := regularNL P S search solve hne
  have f := computeMultipliers_fields (envNL P S (oracleNL P S search solve)) (refresh P s.x)
    (({ s with x := refresh P s.x } : St _ _ _).push false)
  refine innerIter_true P S search solve p hne hN (P.h (s.x.it.x 0)) h2 _ _ ?_ ?_ ?_ s' h
  · rw [f.1]; rfl
  · exact computeMultipliers_sync he (({ s with x := refresh P s.x } : St _ _ _).push false)
  · rw [f.2.2.2.2.1]; exact h1

/-- The linear solver returns a solution of the subproblem assembled from the held values. -/
def SolvesNL (exact : Bool) (H : LQ.Hess nx nu N) (s : St (NLIter nx nu P.nc0) (ℕ → CSets.Vec) (WS nx P.nc0))
    (w : VWork nx nu S.nc P.nc0) : Prop :=
  let I := LQ.inputAt (P.data s.x.it.x s.x.it.u) H (heldValues P s.x) S.op s.mu s.preg exact S.force s.x.it.lam s.prevV s.x.it.vs S.out
  Gar.KKT (LQ.subproblem I) s.mu 0 w.dlam0 (LQ.traj I ⟨w.dx, w.du, w.dlam0, w.dlam, fun i => List.ofFn (w.dv i)⟩)

/-- **C58** Without a forced initial condition, every accepted step corrects the violation that the initial state had at the entry
of the loop, not the present one: after steps of lengths `as` the violation is `1 - Σ as` times that at the entry.  Two full
steps turn it around, `n` full steps multiply it by `1 - n`. -/
theorem C58_initial_state_overshoots (p : Params) (hne : ∀ s phi0 dphi0 phi a, search s phi0 dphi0 phi ≠ some (a, []))
    (hf : S.force = false) (exact : Bool) (H : LQ.Hess nx nu N)
    (hsolve : ∀ s g w, solve s = some (g, w) → SolvesNL P S exact H s w)
    (hh : ∀ x y, P.h y = P.h x + P.hx x *ᵥ (y - x)) (lo hi : ℝ)
    (hs : ∀ s phi0 dphi0 phi a calls, search s phi0 dphi0 phi = some (a, calls) → ∀ b ∈ calls, lo ≤ b ∧ b ≤ hi)
    {s s' : St (NLIter nx nu P.nc0) (ℕ → CSets.Vec) (WS nx P.nc0)} {b : Bool}
    (h : innerLoopNL P p (envNL P S (oracleNL P S search solve)) s = .done b s') :
    ∃ as : List ℝ, (∀ a ∈ as, lo ≤ a ∧ a ≤ hi) ∧ s'.numIters - s.numIters ≤ as.length ∧
      P.h (s'.x.it.x 0) = (1 - as.sum) • P.h (s.x.it.x 0) := by
  have he := regularNL P S search solve hne
  obtain ⟨-, -, h2⟩ := innerLoop_track he (fun x k => x.init = P.h (s.x.it.x 0) ∧ ∃ as : List ℝ, as.length = k ∧
      (∀ a ∈ as, lo ≤ a ∧ a ≤ hi) ∧ P.h (x.it.x 0) = (1 - as.sum) • P.h (s.x.it.x 0))
    (fun s1 d l a k h1 h2 t ht => by
      obtain ⟨g, w, calls, c, phi0, phi, hg, hse, hc, rfl⟩ := oracleNL_trial P S search solve h2 t ht
      obtain ⟨i1, as, i2, i3, i4⟩ := h1
      refine ⟨i1, c :: as, by rw [List.length_cons, i2], fun a ha => ?_, ?_⟩
      · rcases List.mem_cons.1 ha with rfl | ha
        · exact hs _ _ _ _ _ _ hse _ hc
        · exact i3 a ha
      · have hK := ((LQ.kkt_iff _ _ _).1 (hsolve _ _ _ hg)).1
        have hr : P.hx (s1.x.it.x 0) *ᵥ w.dx 0 = -P.h (s.x.it.x 0) := by
          rw [← i1]
          exact eq_neg_of_add_eq_zero_left hK
        rw [hf]
        have hx : (trialNL P S.nc s1.x g (if false = true then { w with dx := Function.update w.dx 0 0, dlam0 := 0 } else w) c).it.x 0 =
            s1.x.it.x 0 + c • w.dx 0 := by
          show (rollout (vecSys P.f) N (toTraj S.nc s1.x.it) g w c).trial.x 0 = _
          rw [rollout_eq]
          simp only [closed, Nat.zero_le, if_true]
          rfl
        rw [hx, hh (s1.x.it.x 0), add_sub_cancel_left, mulVec_smul, hr, i4, List.sum_cons, smul_neg, ← sub_eq_add_neg, ← sub_smul]
        congr 1
        ring) (s := { s with x := refresh P s.x })
    ⟨rfl, [], rfl, by simp, by simp [refresh]⟩ h
  rcases h2 with ⟨-, as, a1, a2, a3⟩ | ⟨-, -, as, a1, a2, a3⟩
  · exact ⟨as, a2, a1.ge, a3⟩
  · exact ⟨as, a2, by rw [a1]; exact Nat.le_succ _, a3⟩

end stale

/-! ### Concrete cases -/

section witnesses

/-- One step of `x' = x + u²` with cost `x u`. -/
def square : Lag.Spec.Problem (fun _ => 1) (fun _ => 1) 1 where
  nc0 := 1
  h x := x - 1
  hx := 1
  l _ x u := x 0 * u 0
  lx _ := fun _ => 2
  lu _ := fun _ => 1
  f _ x u := fun _ => x 0 + u 0 * u 0
  fx _ := 1
  fu _ := fun _ _ => 4
  c _ := []
  lN x := x 0 * x 0
  lNx := fun _ => 10
  cN := []

/-- The trajectory `1, 5` of `square` under the control `2`. -/
def squareIt : VTraj (fun _ => 1) (fun _ => 1) (fun _ => 0) 1 where
  x i := fun _ => if i = 0 then 1 else 5
  u _ := fun _ => 2
  vs _ := 0
  lam0 := fun _ => 3
  lam _ := fun _ => -1

/-- Gains. -/
def squareG : Gains (fun _ => 1) (fun _ => 1) (fun _ => 0) where
  k _ := fun _ => -1
  K _ := fun _ _ => -2
  z _ := 0
  Z _ := 0

/-- Directions. -/
def squareW : VWork (fun _ => 1) (fun _ => 1) (fun _ => 0) 1 where
  trial := squareIt
  dx i := fun _ => if i = 0 then 0 else -4
  du _ := fun _ => -1
  dv _ := 0
  dlam0 := fun _ => 1
  dlam _ := fun _ => 2

theorem square_right : Right square squareIt.x squareIt.u := by
  have cx : ∀ (m : ℕ) (x : Fin 1 → ℝ) (u : Fin m → ℝ), HasFDerivAt (fun p : (Fin 1 → ℝ) × (Fin m → ℝ) => p.1 0)
      ((ContinuousLinearMap.proj (R := ℝ) (φ := fun _ : Fin 1 => ℝ) 0).comp (ContinuousLinearMap.fst ℝ (Fin 1 → ℝ) (Fin m → ℝ)))
      (x, u) := by
    intro m x u
    exact ((ContinuousLinearMap.proj (R := ℝ) (φ := fun _ : Fin 1 => ℝ) 0).comp
      (ContinuousLinearMap.fst ℝ (Fin 1 → ℝ) (Fin m → ℝ))).hasFDerivAt
  have cu : ∀ (x u : Fin 1 → ℝ), HasFDerivAt (fun p : (Fin 1 → ℝ) × (Fin 1 → ℝ) => p.2 0)
      ((ContinuousLinearMap.proj (R := ℝ) (φ := fun _ : Fin 1 => ℝ) 0).comp (ContinuousLinearMap.snd ℝ (Fin 1 → ℝ) (Fin 1 → ℝ)))
      (x, u) := by
    intro x u
    exact ((ContinuousLinearMap.proj (R := ℝ) (φ := fun _ : Fin 1 => ℝ) 0).comp
      (ContinuousLinearMap.snd ℝ (Fin 1 → ℝ) (Fin 1 → ℝ))).hasFDerivAt
  refine ⟨fun i hi => ⟨_, (cx _ _ _).mul (cu _ _), fun dx du => ?_⟩, fun i hi => ⟨_, hasFDerivAt_pi.2 fun _ =>
    (cx _ _ _).add ((cu _ _).mul (cu _ _)), fun dx du => ?_⟩, ?_, ⟨_, (cx _ _ _).mul (cx _ _ _), fun dx du => ?_⟩, ?_⟩
  · obtain rfl : i = 0 := by omega
    simp [square, squareIt, dotProduct]
    ring
  · obtain rfl : i = 0 := by omega
    funext k
    obtain rfl : k = 0 := Subsingleton.elim _ _
    simp [square, squareIt, mulVec, dotProduct]
    ring
  · intro i hi c hc
    simp [square] at hc
  · simp [square, squareIt, dotProduct]
    ring
  · intro c hc
    simp [square] at hc

/-- The hypotheses of `C58_first_order` and `C58_merit_slope` are met by `square`. -/
example : ∃ (op : ℕ → CSets.CSet) (C : ℕ → List ℝ → Prop), Right square squareIt.x squareIt.u ∧ Dynamics square.f 1 squareIt.x squareIt.u ∧
    Follows 1 squareG.k squareG.K squareG.z squareG.Z square.fx square.fu
      (fun i => square.f i (squareIt.x i) (squareIt.u i) - squareIt.x (i + 1)) squareW.dx squareW.du squareW.dv ∧
    squareW.dx 0 = 0 ∧ ∀ i, i ≤ 1 → ProjectsOnto (op i) (C i) (Lag.ncOf square i) := by
  obtain ⟨S1, h1⟩ : ∃ S, CSets.product [] [] = some S := ⟨_, rfl⟩
  have p1 := (LibrarySet.product [] S1 (by simp) h1).projects
  refine ⟨fun _ => S1, fun _ => CSets.Spec.Prod (List.map (·.2) ([] : List (CSet × (List ℝ → Prop) × ℕ))), square_right, ?_, ⟨?_, ?_, ?_⟩, ?_, ?_⟩
  · intro i hi
    obtain rfl : i = 0 := by omega
    funext k
    simp [square, squareIt]
    norm_num
  · intro i hi
    obtain rfl : i = 0 := by omega
    funext k
    simp [squareG, squareW, mulVec, dotProduct]
  · intro i hi
    funext k
    exact k.elim0
  · intro i hi
    obtain rfl : i = 0 := by omega
    funext k
    simp [square, squareIt, squareW, mulVec, dotProduct]
    norm_num
  · funext k
    simp [squareW]
  · intro i hi
    have e : Lag.ncOf square i = 0 := by unfold Lag.ncOf; split <;> rfl
    rw [e]
    exact p1

/-- An affine problem with an initial step. -/
def walk : ∀ i : ℕ, (Fin ((fun _ => 1 : ℕ → ℕ) i) → ℝ) → (Fin ((fun _ => 1 : ℕ → ℕ) i) → ℝ) → Fin ((fun _ => 1 : ℕ → ℕ) (i + 1)) → ℝ :=
  fun _ x u => x + u

/-- The iterate at rest in zero. -/
def walkIt : VTraj (fun _ => 1) (fun _ => 1) (fun _ => 0) 1 := ⟨fun _ => 0, fun _ => 0, fun _ => 0, 0, fun _ => 0⟩

/-- Gains that drive the next state to zero. -/
def walkG : Gains (fun _ => 1) (fun _ => 1) (fun _ => 0) := ⟨fun _ => 0, fun _ _ _ => -1, fun _ => 0, fun _ => 0⟩

/-- Directions with a nonzero initial step. -/
def walkW : VWork (fun _ => 1) (fun _ => 1) (fun _ => 0) 1 :=
  ⟨walkIt, fun i => if i = 0 then 1 else 0, fun _ => -1, fun _ => 0, 0, fun _ => 0⟩

/-- **C58** The condition on the initial state cannot be dropped: for affine dynamics, an iterate that satisfies them and a
direction that moves the initial state, a half step of the rollout feeds the full initial step back into the first control and
is not the half linear step. -/
theorem C58_initial_step_unscaled :
    Dynamics walk 1 walkIt.x walkIt.u ∧
    Follows 1 walkG.k walkG.K walkG.z walkG.Z (fun _ => 1) (fun _ => 1)
      (fun i => walk i (walkIt.x i) (walkIt.u i) - walkIt.x (i + 1)) walkW.dx walkW.du walkW.dv ∧
    (rollout (vecSys walk) 1 walkIt walkG walkW (1 / 2)).trial.u 0 = walkIt.u 0 + walkW.du 0 ∧
    ¬ Same 1 (rollout (vecSys walk) 1 walkIt walkG walkW (1 / 2)).trial (linear (vecSys walk) walkIt walkW (1 / 2)) := by
  have hu : (rollout (vecSys walk) 1 walkIt walkG walkW (1 / 2)).trial.u 0 = walkIt.u 0 + walkW.du 0 := by
    rw [rollout_eq]
    funext k
    simp [closed, vecSys, sim, walkIt, walkG, walkW, mulVec, dotProduct]
  refine ⟨?_, ⟨?_, ?_, ?_⟩, hu, fun h => ?_⟩
  · intro i hi
    simp [walk, walkIt]
  · intro i hi
    obtain rfl : i = 0 := by omega
    funext k
    simp [walkG, walkW, mulVec, dotProduct]
  · intro i hi
    funext k
    exact k.elim0
  · intro i hi
    obtain rfl : i = 0 := by omega
    funext k
    simp [walk, walkIt, walkW]
  · have h1 := h.u 0 (by omega)
    rw [hu] at h1
    have h2 := congrFun h1 0
    simp [linear, vecSys, walkIt, walkW] at h2

/-- The hypotheses of `C58_affine_agrees_with_linear_step` are met, with a step length of one and a nonzero initial step. -/
example : Same 1 (rollout (vecSys walk) 1 walkIt walkG walkW 1).trial (linear (vecSys walk) walkIt walkW 1) :=
  C58_affine_agrees_with_linear_step walk walkIt walkG walkW (fun _ => 1) (fun _ => 1)
    (fun i _ x u => by simp [walk, walkIt]) C58_initial_step_unscaled.2.1 1 (.inl rfl)

/-- The iterate `0, 1` violates `x' = x + u`: a step of length zero moves it. -/
example : ¬ Same 1 (rollout (vecSys walk) 1 { walkIt with x := fun i _ => i } walkG { walkW with dx := fun _ => 0 } 0).trial
    { walkIt with x := fun i _ => (i : ℝ) } := by
  rw [C58_zero_step _ _ _ _ (by norm_num)]
  rintro ⟨h, -, -⟩
  have := congrFun (h 0 (by norm_num)) 0
  simp [walk, walkIt] at this

open Link ProxDDP

/-- One step of `x' = x + u` without costs, initial condition `x = 0`. -/
def drift : Prob (fun _ => 1) (fun _ => 1) 1 where
  nc0 := 1
  h x := x
  hx _ := 1
  l _ _ _ := 0
  lx _ _ _ := 0
  lu _ _ _ := 0
  f _ x u := x + u
  fx _ _ _ := 1
  fu _ _ _ := 1
  c _ := []
  lN _ := 0
  lNx _ := 0
  cN := []

/-- Solver without a forced initial condition. -/
noncomputable def driftSetup : Setup where
  op _ := noSet
  force := false
  mode := .newton
  out _ := []
  nc _ := 0

/-- The solution of the subproblem. -/
noncomputable def driftW (s : St (NLIter (fun _ => 1) (fun _ => 1) 1) (ℕ → CSets.Vec) (WS (fun _ => 1) 1)) :
    VWork (fun _ => 1) (fun _ => 1) (fun _ => 0) 1 :=
  let r := s.x.init 0
  let gap := s.x.it.x 0 0 + s.x.it.u 0 0 - s.x.it.x 1 0
  let y := (gap - r) / 2
  let m := s.preg * y - s.x.it.lam.dyn 0 0
  { trial := toTraj _ s.x.it
    dx := fun i _ => if i = 0 then -r else y
    du := fun _ _ => -y
    dv := fun _ => 0
    dlam0 := fun _ => s.preg * r - s.x.it.lam.init 0 - s.x.it.lam.dyn 0 0 - m
    dlam := fun _ _ => m }

theorem drift_solves (s : St (NLIter (fun _ => 1) (fun _ => 1) drift.nc0) (ℕ → CSets.Vec) (WS (fun _ => 1) drift.nc0)) :
    SolvesNL drift driftSetup false ⟨0, 0, 0, 0, 0, 0, 0, 0⟩ s (driftW s) := by
  have gg := Lag.compute_eq (drift.data s.x.it.x s.x.it.u) (some s.x.it.lam) s.x.it.vs
  set I := LQ.inputAt (drift.data s.x.it.x s.x.it.u) ⟨0, 0, 0, 0, 0, 0, 0, 0⟩ (heldValues drift s.x) driftSetup.op s.mu s.preg false
    driftSetup.force s.x.it.lam s.prevV s.x.it.vs driftSetup.out with hI
  obtain ⟨L, hL⟩ : ∃ L : Fin 1 → ℝ, L = s.x.it.lam.init := ⟨_, rfl⟩
  have hL0 : L 0 = s.x.it.lam.init (0 : Fin 1) := congrFun hL 0
  have g1 : I.grad.Lxs 0 = (1 : Matrix (Fin 1) (Fin 1) ℝ)ᵀ *ᵥ L + (0 + (1 : Matrix (Fin 1) (Fin 1) ℝ)ᵀ *ᵥ s.x.it.lam.dyn 0 + 0) :=
    hL ▸ gg.1 0 one_pos
  have g2 : I.grad.Lxs 1 = -s.x.it.lam.dyn 0 + (0 + 0) := gg.2.1
  have g3 : I.grad.Lus 0 = 0 + (1 : Matrix (Fin 1) (Fin 1) ℝ)ᵀ *ᵥ s.x.it.lam.dyn 0 + 0 := gg.2.2 0 one_pos
  have d : LQ.dim I.pd.termCstr = 0 := rfl
  have el : ∀ (n : ℕ) (_ : n = 0) (M : Matrix (Fin 1) (Fin n) ℝ) (v : Fin n → ℝ), M *ᵥ v = 0 := by
    rintro n rfl M v
    funext k
    simp [mulVec, dotProduct]
  have hq : (LQ.knot I 0).q = (I.grad.Lxs 0 + 0 : Fin 1 → ℝ) := by
    refine congrArg (fun w : Fin 1 → ℝ => (I.grad.Lxs 0 + w : Fin 1 → ℝ)) ?_
    exact (congrArg₂ (fun a b : Fin 1 → ℝ => a - b) (el _ rfl _ _) (el _ rfl _ _)).trans (sub_zero _)
  have hr : (LQ.knot I 0).r = (I.grad.Lus 0 + 0 : Fin 1 → ℝ) := by
    refine congrArg (fun w : Fin 1 → ℝ => (I.grad.Lus 0 + w : Fin 1 → ℝ)) ?_
    exact (congrArg₂ (fun a b : Fin 1 → ℝ => a - b) (el _ rfl _ _) (el _ rfl _ _)).trans (sub_zero _)
  have hq1 : (LQ.termKnot I).q = (I.grad.Lxs 1 + 0 : Fin 1 → ℝ) := by
    refine congrArg (fun w : Fin 1 → ℝ => (I.grad.Lxs 1 + w : Fin 1 → ℝ)) ?_
    exact (congrArg₂ (fun a b : Fin 1 → ℝ => a - b) (el _ rfl _ _) (el _ rfl _ _)).trans (sub_zero _)
  have hC : ∀ v, (LQ.knot I 0).Cᵀ *ᵥ v = (0 : Fin 1 → ℝ) := fun v => el _ rfl _ _
  have hD : ∀ v, (LQ.knot I 0).Dᵀ *ᵥ v = (0 : Fin 1 → ℝ) := fun v => el _ rfl _ _
  have hC1 : ∀ v, (LQ.termKnot I).Cᵀ *ᵥ v = (0 : Fin 1 → ℝ) := fun v => el _ rfl _ _
  refine (LQ.kkt_iff I s.mu ⟨(driftW s).dx, (driftW s).du, (driftW s).dlam0, (driftW s).dlam,
    fun i => List.ofFn ((driftW s).dv i)⟩).2 ⟨?_, ?_, ?_, ?_⟩
  · have e : (driftW s).dx 0 + (fun k : Fin 1 => s.x.init k) = (0 : Fin 1 → ℝ) := by
      funext k
      obtain rfl : k = 0 := Subsingleton.elim _ _
      simp [driftW]
    refine Eq.trans ?_ e
    exact congrArg (fun w : Fin 1 → ℝ => w + fun k : Fin 1 => s.x.init k) (one_mulVec _)
  · intro i hi
    obtain rfl : i = 0 := by omega
    refine ⟨?_, ?_, ?_, ?_⟩
    · show ((0 + s.preg • (1 : Matrix (Fin 1) (Fin 1) ℝ) + 0 + 0) *ᵥ (driftW s).dx 0 + (0 + 0 : Matrix (Fin 1) (Fin 1) ℝ) *ᵥ (driftW s).du 0 +
        (LQ.knot I 0).q + (LQ.knot I 0).Cᵀ *ᵥ _ +
        (0 : Matrix (Fin 1) (Fin 0) ℝ) *ᵥ 0) + (1 : Matrix (Fin 1) (Fin 1) ℝ)ᵀ *ᵥ (driftW s).dlam 0 = -((1 : Matrix (Fin 1) (Fin 1) ℝ)ᵀ *ᵥ (driftW s).dlam0)
      rw [hC, hq, g1]
      funext k
      obtain rfl : k = 0 := Subsingleton.elim _ _
      simp [driftW, smul_mulVec, hL0]
      ring
    · show ((0 + 0 : Matrix (Fin 1) (Fin 1) ℝ)ᵀ *ᵥ (driftW s).dx 0 + (0 + s.preg • (1 : Matrix (Fin 1) (Fin 1) ℝ) + 0) *ᵥ (driftW s).du 0 +
        (LQ.knot I 0).r + (LQ.knot I 0).Dᵀ *ᵥ _ +
        (0 : Matrix (Fin 1) (Fin 0) ℝ) *ᵥ 0) + (1 : Matrix (Fin 1) (Fin 1) ℝ)ᵀ *ᵥ (driftW s).dlam 0 = 0
      rw [hD, hr, g3]
      funext k
      obtain rfl : k = 0 := Subsingleton.elim _ _
      simp [driftW, smul_mulVec]
    · funext k
      exact Fin.elim0 k
    · show (1 : Matrix (Fin 1) (Fin 1) ℝ) *ᵥ (driftW s).dx 0 + (1 : Matrix (Fin 1) (Fin 1) ℝ) *ᵥ (driftW s).du 0 +
        (s.x.it.x 0 + s.x.it.u 0 - s.x.it.x 1) = (driftW s).dx 1
      funext k
      obtain rfl : k = 0 := Subsingleton.elim _ _
      simp [driftW]
      ring
  · show ((0 + s.preg • (1 : Matrix (Fin 1) (Fin 1) ℝ) + 0) *ᵥ (driftW s).dx 1 + (0 : Matrix (Fin 1) (Fin 0) ℝ) *ᵥ Fin.elim0 + (LQ.termKnot I).q +
        (LQ.termKnot I).Cᵀ *ᵥ _ + (0 : Matrix (Fin 1) (Fin 0) ℝ) *ᵥ 0) = (driftW s).dlam 0
    rw [hC1, hq1, g2]
    funext k
    obtain rfl : k = 0 := Subsingleton.elim _ _
    simp [driftW, smul_mulVec]
    ring
  · funext k
    exact Fin.elim0 k

/-- The hypotheses of `C58_initial_state_overshoots` are met, with full steps, for the problem `drift`: every inner loop that ends
after `n` iterations has multiplied the violation of the initial condition by `1 - n` or `-n`. -/
example (p : Params) {s s' : St (NLIter (fun _ => 1) (fun _ => 1) drift.nc0) (ℕ → CSets.Vec) (WS (fun _ => 1) drift.nc0)} {b : Bool}
    (h : innerLoopNL drift p (envNL drift driftSetup (oracleNL drift driftSetup (fun _ _ _ _ => some (1, [1]))
      fun s => some (⟨fun _ => 0, fun _ => 0, fun _ => 0, fun _ => 0⟩, driftW s))) s = .done b s') :
    ∃ n : ℕ, s'.numIters - s.numIters ≤ n ∧ s'.x.it.x 0 0 = (1 - n) * s.x.it.x 0 0 := by
  obtain ⟨as, h1, h2, h3⟩ := C58_initial_state_overshoots drift driftSetup _ _ p (by simp) rfl false ⟨0, 0, 0, 0, 0, 0, 0, 0⟩
    (fun s g w hs => by injection hs with hs; injection hs with _ hs; subst hs; exact drift_solves s)
    (fun x y => by show y = x + (1 : Matrix (Fin 1) (Fin 1) ℝ) *ᵥ (y - x); rw [one_mulVec]; abel) 1 1
    (by
      intro s phi0 dphi0 phi a calls h b hb
      simp only [Option.some.injEq, Prod.mk.injEq] at h
      rw [← h.2, List.mem_singleton] at hb
      subst hb
      exact ⟨le_rfl, le_rfl⟩) h
  have e : as.sum = as.length := by
    clear h2 h3
    induction as with
    | nil => simp
    | cons a as ih =>
      have := h1 a (by simp)
      rw [List.sum_cons, ih fun b hb => h1 b (by simp [hb]), List.length_cons, le_antisymm this.2 this.1]
      push_cast
      ring
  refine ⟨as.length, h2, ?_⟩
  rw [e] at h3
  exact congrFun h3 (0 : Fin 1)

end witnesses

end Aligator.NLRoll
