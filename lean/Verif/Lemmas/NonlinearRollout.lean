import Verif.Model.NonlinearRollout

/-! # Closed form of the nonlinear rollout -/

namespace Aligator.NLRoll

open Matrix

variable {X U : ℕ → Type} {nx nu nc : ℕ → ℕ} {nc0 : ℕ}

/-- State and deviation after `t` stages. -/
def sim (S : Sys X U nx nu) (it : Traj X U nx nc nc0) (g : Gains nx nu nc) (d0 : Fin (nx 0) → ℝ) (a : ℝ) :
    ∀ t, X t × (Fin (nx t) → ℝ)
  | 0 => (S.xint 0 (it.x 0) (a • d0), d0)
  | t + 1 =>
    let x' := S.f t (sim S it g d0 a t).1 (S.uint t (it.u t) (a • g.k t + g.K t *ᵥ (sim S it g d0 a t).2))
    (x', S.xdiff (t + 1) (it.x (t + 1)) x')

/-- The workspace after `n` passes of the loop. -/
def closed (S : Sys X U nx nu) (it : Traj X U nx nc nc0) (g : Gains nx nu nc) (w : Work X U nx nu nc nc0) (a : ℝ) (n m : ℕ) :
    Work X U nx nu nc nc0 where
  trial :=
    { x := fun i => if i ≤ n then (sim S it g (w.dx 0) a i).1 else w.trial.x i
      u := fun i => if i < n then S.uint i (it.u i) (a • g.k i + g.K i *ᵥ (sim S it g (w.dx 0) a i).2) else w.trial.u i
      vs := fun i => if i < m then it.vs i + (a • g.z i + g.Z i *ᵥ (sim S it g (w.dx 0) a i).2) else w.trial.vs i
      lam0 := it.lam0 + a • w.dlam0
      lam := fun i => if i < n then it.lam i + a • w.dlam i else w.trial.lam i }
  dx := fun i => if i ≤ n then (sim S it g (w.dx 0) a i).2 else w.dx i
  du := fun i => if i < n then a • g.k i + g.K i *ᵥ (sim S it g (w.dx 0) a i).2 else w.du i
  dv := fun i => if i < m then a • g.z i + g.Z i *ᵥ (sim S it g (w.dx 0) a i).2 else w.dv i
  dlam0 := w.dlam0
  dlam := w.dlam

theorem update_ite {A : ℕ → Type} (n : ℕ) (p q : ∀ i, A i) (v : A n) (hv : v = p n) :
    Function.update (fun i => if i < n then p i else q i) n v = fun i => if i < n + 1 then p i else q i := by
  funext i
  by_cases h : i = n
  · subst h
    rw [Function.update_self, if_pos (Nat.lt_succ_self _), hv]
  · rw [Function.update_of_ne h]
    by_cases h2 : i < n
    · rw [if_pos h2, if_pos (by omega)]
    · rw [if_neg h2, if_neg (by omega)]

theorem update_ite' {A : ℕ → Type} (n : ℕ) (p q : ∀ i, A i) (v : A (n + 1)) (hv : v = p (n + 1)) :
    Function.update (fun i => if i ≤ n then p i else q i) (n + 1) v = fun i => if i ≤ n + 1 then p i else q i := by
  have := update_ite (n + 1) p q v hv
  simpa only [Nat.lt_succ_iff] using this

theorem head_eq (S : Sys X U nx nu) (it : Traj X U nx nc nc0) (g : Gains nx nu nc) (w : Work X U nx nu nc nc0) (a : ℝ) :
    head S it a w = closed S it g w a 0 0 := by
  refine Work.ext (Traj.ext ?_ ?_ ?_ rfl ?_) ?_ ?_ ?_ rfl rfl
  · funext i
    show Function.update w.trial.x 0 _ i = _
    by_cases h : i = 0
    · subst h
      rw [Function.update_self]
      rfl
    · rw [Function.update_of_ne h]
      simp [closed, h]
  · funext i; simp [head, closed]
  · funext i; simp [head, closed]
  · funext i; simp [head, closed]
  · funext i
    by_cases h : i = 0
    · subst h; rfl
    · simp [head, closed, h]
  · funext i; simp [head, closed]
  · funext i; simp [head, closed]

theorem dual_eq (S : Sys X U nx nu) (it : Traj X U nx nc nc0) (g : Gains nx nu nc) (w : Work X U nx nu nc nc0) (a : ℝ) (n : ℕ) :
    dual it g a n (closed S it g w a n n) = closed S it g w a n (n + 1) := by
  refine Work.ext (Traj.ext rfl rfl ?_ rfl rfl) rfl rfl ?_ rfl rfl
  · exact update_ite (A := fun i => Fin (nc i) → ℝ) n _ _ _ (by simp [closed])
  · exact update_ite (A := fun i => Fin (nc i) → ℝ) n _ _ _ (by simp [closed])

theorem stage_eq (S : Sys X U nx nu) (it : Traj X U nx nc nc0) (g : Gains nx nu nc) (w : Work X U nx nu nc nc0) (a : ℝ) (n : ℕ) :
    stage S it g a (closed S it g w a n n) n = closed S it g w a (n + 1) (n + 1) := by
  have hu : Function.update (closed S it g w a n n).trial.u n
      (S.uint n (it.u n) (a • g.k n + g.K n *ᵥ (closed S it g w a n n).dx n)) =
      fun i => if i < n + 1 then S.uint i (it.u i) (a • g.k i + g.K i *ᵥ (sim S it g (w.dx 0) a i).2) else w.trial.u i :=
    update_ite n _ _ _ (by simp [closed])
  have hx : S.f n ((closed S it g w a n n).trial.x n) (Function.update (closed S it g w a n n).trial.u n
      (S.uint n (it.u n) (a • g.k n + g.K n *ᵥ (closed S it g w a n n).dx n)) n) = (sim S it g (w.dx 0) a (n + 1)).1 := by
    rw [Function.update_self]
    simp [closed, sim]
  refine Work.ext (Traj.ext ?_ hu ?_ rfl ?_) ?_ ?_ ?_ rfl rfl
  · exact update_ite' n _ _ _ hx
  · exact update_ite (A := fun i => Fin (nc i) → ℝ) n _ _ _ (by simp [closed, control])
  · exact update_ite (A := fun i => Fin (nx (i + 1)) → ℝ) n _ _ _ rfl
  · exact update_ite' (A := fun i => Fin (nx i) → ℝ) n _ _ _ (by
      show S.xdiff (n + 1) (it.x (n + 1)) (S.f n _ _) = _
      refine (congrArg (S.xdiff (n + 1) (it.x (n + 1))) hx).trans rfl)
  · exact update_ite (A := fun i => Fin (nu i) → ℝ) n _ _ _ (by simp [closed])
  · exact update_ite (A := fun i => Fin (nc i) → ℝ) n _ _ _ (by simp [closed, control])

theorem rollout_eq (S : Sys X U nx nu) (N : ℕ) (it : Traj X U nx nc nc0) (g : Gains nx nu nc) (w : Work X U nx nu nc nc0)
    (a : ℝ) : rollout S N it g w a = closed S it g w a N (N + 1) := by
  have : ∀ n, (List.range n).foldl (stage S it g a) (head S it a w) = closed S it g w a n n := by
    intro n
    induction n with
    | zero => exact head_eq S it g w a
    | succ n ih => rw [List.range_succ, List.foldl_append, ih, List.foldl_cons, List.foldl_nil, stage_eq]
  rw [rollout, this, dual_eq]

end Aligator.NLRoll
