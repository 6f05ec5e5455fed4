import Verif.Spec.Lagrangian
import Verif.Model.NonlinearRollout
import Mathlib.Analysis.Calculus.FDeriv.Basic

/-!
# Specification: trajectories, linearised dynamics, differentiable problems
-/

namespace Aligator.NLRoll.Spec

open Matrix

/-- Two trajectories with multipliers agree on the nodes `0, ..., N`. -/
structure Same {X U : ℕ → Type} {nx nc : ℕ → ℕ} {nc0 : ℕ} (N : ℕ) (a b : Traj X U nx nc nc0) : Prop where
  x : ∀ i, i ≤ N → a.x i = b.x i
  u : ∀ i, i < N → a.u i = b.u i
  vs : ∀ i, i ≤ N → a.vs i = b.vs i
  lam0 : a.lam0 = b.lam0
  lam : ∀ i, i < N → a.lam i = b.lam i

/-- The dynamics hold. -/
def Dynamics {X U : ℕ → Type} (f : ∀ i, X i → U i → X (i + 1)) (N : ℕ) (x : ∀ i, X i) (u : ∀ i, U i) : Prop :=
  ∀ i, i < N → x (i + 1) = f i (x i) (u i)

variable {nx nu nc : ℕ → ℕ} {nc0 : ℕ}

/-- A step follows a feedback law and the linearised dynamics with given defects. -/
structure Follows (N : ℕ) (k : ∀ i, Fin (nu i) → ℝ) (K : ∀ i, Matrix (Fin (nu i)) (Fin (nx i)) ℝ)
    (z : ∀ i, Fin (nc i) → ℝ) (Z : ∀ i, Matrix (Fin (nc i)) (Fin (nx i)) ℝ)
    (A : ∀ i, Matrix (Fin (nx (i + 1))) (Fin (nx i)) ℝ) (B : ∀ i, Matrix (Fin (nx (i + 1))) (Fin (nu i)) ℝ)
    (gap : ∀ i, Fin (nx (i + 1)) → ℝ) (dx : ∀ i, Fin (nx i) → ℝ) (du : ∀ i, Fin (nu i) → ℝ) (dv : ∀ i, Fin (nc i) → ℝ) :
    Prop where
  u : ∀ i, i < N → du i = k i + K i *ᵥ dx i
  v : ∀ i, i ≤ N → dv i = z i + Z i *ᵥ dx i
  x : ∀ i, i < N → dx (i + 1) = A i *ᵥ dx i + B i *ᵥ du i + gap i

/-- The function has the (Fréchet) derivative `D` at `(x, u)`. -/
def HasF {n m : ℕ} {E : Type*} [NormedAddCommGroup E] [NormedSpace ℝ E] (F : (Fin n → ℝ) → (Fin m → ℝ) → E)
    (x : Fin n → ℝ) (u : Fin m → ℝ) (D : (Fin n → ℝ) → (Fin m → ℝ) → E) : Prop :=
  ∃ L : ((Fin n → ℝ) × (Fin m → ℝ)) →L[ℝ] E, HasFDerivAt (fun p : (Fin n → ℝ) × (Fin m → ℝ) => F p.1 p.2) L (x, u) ∧
    ∀ dx du, L (dx, du) = D dx du

/-- All functions of the problem are differentiable at the trajectory and the returned derivatives are right. -/
structure Right {N : ℕ} (P : Lag.Spec.Problem nx nu N) (x : ∀ i, Fin (nx i) → ℝ) (u : ∀ i, Fin (nu i) → ℝ) : Prop where
  l : ∀ i, i < N → HasF (P.l i) (x i) (u i) fun dx du => P.lx i ⬝ᵥ dx + P.lu i ⬝ᵥ du
  f : ∀ i, i < N → HasF (P.f i) (x i) (u i) fun dx du => P.fx i *ᵥ dx + P.fu i *ᵥ du
  c : ∀ i, i < N → ∀ c ∈ P.c i, HasF c.g (x i) (u i) fun dx du => c.Jx *ᵥ dx + c.Ju *ᵥ du
  lN : HasF (fun x (_ : Fin 0 → ℝ) => P.lN x) (x N) 0 fun dx _ => P.lNx ⬝ᵥ dx
  cN : ∀ c ∈ P.cN, HasF c.g (x N) 0 fun dx du => c.Jx *ᵥ dx + c.Ju *ᵥ du

end Aligator.NLRoll.Spec
