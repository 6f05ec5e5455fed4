import Verif.Spec.LQSubproblem

/-!
# Specification: approximate optimality of a trajectory
-/

namespace Aligator.Link.Spec

open Matrix Lag.Spec

variable {nx nu : ℕ → ℕ} {N : ℕ}

/-- Sum of the absolute values of all components of a variation of states and controls. -/
def norm1 (N : ℕ) (ex : ∀ i, Fin (nx i) → ℝ) (eu : ∀ i, Fin (nu i) → ℝ) : ℝ :=
  (∑ i ∈ Finset.range (N + 1), ∑ k, |ex i k|) + ∑ i ∈ Finset.range N, ∑ k, |eu i k|

/-- All partial derivatives of the Lagrangian are at most `eps`; with `fixed` only the variations that keep the first state
count. -/
def ApproxStationary (P : Problem nx nu N) (fixed : Prop) (eps : ℝ) (lam0 : Fin P.nc0 → ℝ) (lam : ∀ i, Fin (nx (i + 1)) → ℝ)
    (v : ℕ → List ℝ) (x : ∀ i, Fin (nx i) → ℝ) (u : ∀ i, Fin (nu i) → ℝ) : Prop :=
  ∀ (ex : ∀ i, Fin (nx i) → ℝ) (eu : ∀ i, Fin (nu i) → ℝ), (fixed → ex 0 = 0) → ∃ D : ℝ,
    HasDerivAt (fun t : ℝ => lagrangian P lam0 lam v (fun i => x i + t • ex i) (fun i => u i + t • eu i)) D 0 ∧
    |D| ≤ eps * norm1 N ex eu

/-- Initial condition, dynamics and constraints hold within `eps`, and `v` is a multiplier of the constraints: it is in the
normal cone at a point of the set within `eps` of the constraint value (sign conditions and complementarity). -/
structure ApproxFeasible (P : Problem nx nu N) (C : ℕ → List ℝ → Prop) (nc : ℕ → ℕ) (eps : ℝ) (v : ℕ → List ℝ)
    (x : ∀ i, Fin (nx i) → ℝ) (u : ∀ i, Fin (nu i) → ℝ) : Prop where
  init : ∀ k, |P.h (x 0) k| ≤ eps
  dynamics : ∀ i, i < N → ∀ k, |(P.f i (x i) (u i) - x (i + 1)) k| ≤ eps
  constraints : ∀ i, i ≤ N → ∃ z : List ℝ, z.length = nc i ∧
    (∀ k, |(LQ.Spec.cstr P x u i).getD k 0 - z.getD k 0| ≤ eps) ∧ CSets.Spec.InNormalCone (C i) (nc i) z (v i)

/-- First-order optimality within tolerances. -/
def ApproxKKT (P : Problem nx nu N) (fixed : Prop) (C : ℕ → List ℝ → Prop) (nc : ℕ → ℕ) (epsP epsD : ℝ)
    (lam0 : Fin P.nc0 → ℝ) (lam : ∀ i, Fin (nx (i + 1)) → ℝ) (v : ℕ → List ℝ)
    (x : ∀ i, Fin (nx i) → ℝ) (u : ∀ i, Fin (nu i) → ℝ) : Prop :=
  ApproxStationary P fixed epsD lam0 lam v x u ∧ ApproxFeasible P C nc epsP v x u

/-- The column sums of the Jacobians of the constraints are at most `K`. -/
structure ColumnSums (P : Problem nx nu N) (K : ℝ) : Prop where
  x : ∀ i, i < N → ∀ k, ((P.c i).map fun c => ∑ j, |c.Jx j k|).sum ≤ K
  u : ∀ i, i < N → ∀ k, ((P.c i).map fun c => ∑ j, |c.Ju j k|).sum ≤ K
  term : ∀ k, (P.cN.map fun c => ∑ j, |c.Jx j k|).sum ≤ K

end Aligator.Link.Spec
