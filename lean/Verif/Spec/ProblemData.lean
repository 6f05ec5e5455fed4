import Verif.Spec.LQSubproblem
import Mathlib.Analysis.Calculus.Deriv.Add
import Mathlib.Analysis.Calculus.Deriv.Mul

/-!
# Specification: second derivatives of the Lagrangian
-/

namespace Aligator.PData.Spec

open Matrix Lag.Spec LQ.Spec

/-- `F` is differentiable near `0` and its derivative has the derivative `D` at `0`. -/
def HasSecond (F : ℝ → ℝ) (D : ℝ) : Prop :=
  ∃ F' : ℝ → ℝ, (∀ᶠ t in nhds 0, HasDerivAt F (F' t) t) ∧ HasDerivAt F' D 0

variable {nx nu : ℕ → ℕ} {N : ℕ}

/-- Squared Euclidean length of a variation. -/
def sqLen (N : ℕ) (ex : ∀ i, Fin (nx i) → ℝ) (eu : ∀ i, Fin (nu i) → ℝ) : ℝ :=
  (∑ i ∈ Finset.range N, (ex i ⬝ᵥ ex i + eu i ⬝ᵥ eu i)) + ex N ⬝ᵥ ex N

/-- `H` is the Hessian of the Lagrangian with the given multipliers, plus `reg` times the identity. -/
def IsLagrangianHessian (P : Problem nx nu N) (H : Curv nx nu N) (reg : ℝ) (lam0 : Fin P.nc0 → ℝ)
    (lam : ∀ i, Fin (nx (i + 1)) → ℝ) (v : ℕ → List ℝ) (x : ∀ i, Fin (nx i) → ℝ) (u : ∀ i, Fin (nu i) → ℝ) : Prop :=
  ∀ (ex : ∀ i, Fin (nx i) → ℝ) (eu : ∀ i, Fin (nu i) → ℝ),
    HasSecond (fun t => lagrangian P lam0 lam v (fun i => x i + t • ex i) (fun i => u i + t • eu i))
      (H.form ex eu ex eu - reg * sqLen N ex eu)

/-- Second derivatives of the functions of a problem along a variation: costs, initial condition, dynamics, constraints. -/
structure Second (P : Problem nx nu N) where
  l : ℕ → ℝ
  lN : ℝ
  h : Fin P.nc0 → ℝ
  f : ∀ i, Fin (nx (i + 1)) → ℝ
  c : ℕ → List ℝ

/-- They are right. -/
structure Second.Right {P : Problem nx nu N} (S : Second P) (x : ∀ i, Fin (nx i) → ℝ) (u : ∀ i, Fin (nu i) → ℝ)
    (ex : ∀ i, Fin (nx i) → ℝ) (eu : ∀ i, Fin (nu i) → ℝ) : Prop where
  l : ∀ i, i < N → HasSecond (fun t => P.l i (x i + t • ex i) (u i + t • eu i)) (S.l i)
  lN : HasSecond (fun t => P.lN (x N + t • ex N)) S.lN
  h : ∀ k, HasSecond (fun t => P.h (x 0 + t • ex 0) k) (S.h k)
  f : ∀ i, i < N → ∀ k, HasSecond (fun t => P.f i (x i + t • ex i) (u i + t • eu i) k) (S.f i k)
  c : ∀ i, i ≤ N → ∀ k, HasSecond (fun t => (cstr P (fun i => x i + t • ex i) (fun i => u i + t • eu i) i).getD k 0)
    ((S.c i).getD k 0)
  len : ∀ i, i ≤ N → (S.c i).length = (cstr P x u i).length

/-- The curvature of the initial condition, the dynamics and the constraints, weighted with the multipliers. -/
def Second.weighted {P : Problem nx nu N} (S : Second P) (lam0 : Fin P.nc0 → ℝ) (lam : ∀ i, Fin (nx (i + 1)) → ℝ)
    (v : ℕ → List ℝ) : ℝ :=
  lam0 ⬝ᵥ S.h + (∑ i ∈ Finset.range N, (lam i ⬝ᵥ S.f i + ldot (v i) (S.c i))) + ldot (v N) (S.c N)

end Aligator.PData.Spec
