import Mathlib.Algebra.BigOperators.Group.Finset.Basic
import Mathlib.LinearAlgebra.Matrix.PosDef
import Mathlib.Data.Real.Basic

/-!
# Specification: quadratic models, linear-quadratic problems
-/

namespace Aligator.FDDP.Spec

open Matrix Finset

variable {n : ℕ} {m : ℕ → ℕ}

/-- Gradients and Hessians of stage and terminal costs, Jacobians of the dynamics. -/
structure Quad (n : ℕ) (m : ℕ → ℕ) where
  lx : ℕ → Fin n → ℝ
  lu : ∀ i, Fin (m i) → ℝ
  lxx : ℕ → Matrix (Fin n) (Fin n) ℝ
  lxu : ∀ i, Matrix (Fin n) (Fin (m i)) ℝ
  luu : ∀ i, Matrix (Fin (m i)) (Fin (m i)) ℝ
  fx : ℕ → Matrix (Fin n) (Fin n) ℝ
  fu : ∀ i, Matrix (Fin n) (Fin (m i)) ℝ
  lNx : Fin n → ℝ
  lNxx : Matrix (Fin n) (Fin n) ℝ

/-- The Hessians are symmetric. -/
structure Quad.Symm (D : Quad n m) (N : ℕ) : Prop where
  xx : ∀ i, i < N → (D.lxx i)ᵀ = D.lxx i
  uu : ∀ i, i < N → (D.luu i)ᵀ = D.luu i
  N : D.lNxxᵀ = D.lNxx

/-- First-order change of the total cost along `(dx, du)`. -/
def Quad.slope (D : Quad n m) (N : ℕ) (dx : ℕ → Fin n → ℝ) (du : ∀ i, Fin (m i) → ℝ) : ℝ :=
  ∑ i ∈ range N, (D.lx i ⬝ᵥ dx i + D.lu i ⬝ᵥ du i) + D.lNx ⬝ᵥ dx N

/-- Second-order model of the change of the total cost along `(dx, du)`. -/
noncomputable def Quad.change (D : Quad n m) (N : ℕ) (dx : ℕ → Fin n → ℝ) (du : ∀ i, Fin (m i) → ℝ) : ℝ :=
  D.slope N dx du +
    ∑ i ∈ range N, (1 / 2 * (dx i ⬝ᵥ D.lxx i *ᵥ dx i) + dx i ⬝ᵥ D.lxu i *ᵥ du i + 1 / 2 * (du i ⬝ᵥ D.luu i *ᵥ du i)) +
    1 / 2 * (dx N ⬝ᵥ D.lNxx *ᵥ dx N)

/-- Half the squared length of a displacement. -/
noncomputable def half (N : ℕ) (dx : ℕ → Fin n → ℝ) (du : ∀ i, Fin (m i) → ℝ) : ℝ :=
  1 / 2 * (∑ i ∈ range (N + 1), dx i ⬝ᵥ dx i + ∑ i ∈ range N, du i ⬝ᵥ du i)

/-- `(dx, du)` follows the linearised dynamics and removes the fraction `a` of the gaps. -/
def Quad.Closes (D : Quad n m) (N : ℕ) (f : ℕ → Fin n → ℝ) (a : ℝ) (dx : ℕ → Fin n → ℝ) (du : ∀ i, Fin (m i) → ℝ) : Prop :=
  dx 0 = a • f 0 ∧ ∀ i, i < N → dx (i + 1) = D.fx i *ᵥ dx i + D.fu i *ᵥ du i + a • f (i + 1)

/-- The Hessians of the costs are positive semidefinite. -/
structure Quad.Convex (D : Quad n m) (N : ℕ) : Prop where
  stage : ∀ i, i < N → ∀ x u, 0 ≤ 1 / 2 * (x ⬝ᵥ D.lxx i *ᵥ x) + x ⬝ᵥ D.lxu i *ᵥ u + 1 / 2 * (u ⬝ᵥ D.luu i *ᵥ u)
  final : ∀ x, 0 ≤ x ⬝ᵥ D.lNxx *ᵥ x

/-- A linear-quadratic optimal control problem. -/
structure LQ (n : ℕ) (m : ℕ → ℕ) where
  x0 : Fin n → ℝ
  A : ℕ → Matrix (Fin n) (Fin n) ℝ
  B : ∀ i, Matrix (Fin n) (Fin (m i)) ℝ
  b : ℕ → Fin n → ℝ
  Q : ℕ → Matrix (Fin n) (Fin n) ℝ
  S : ∀ i, Matrix (Fin n) (Fin (m i)) ℝ
  R : ∀ i, Matrix (Fin (m i)) (Fin (m i)) ℝ
  q : ℕ → Fin n → ℝ
  r : ∀ i, Fin (m i) → ℝ
  c : ℕ → ℝ
  QN : Matrix (Fin n) (Fin n) ℝ
  qN : Fin n → ℝ
  cN : ℝ

/-- Stage cost. -/
noncomputable def LQ.stage (L : LQ n m) (i : ℕ) (x : Fin n → ℝ) (u : Fin (m i) → ℝ) : ℝ :=
  1 / 2 * (x ⬝ᵥ L.Q i *ᵥ x) + x ⬝ᵥ L.S i *ᵥ u + 1 / 2 * (u ⬝ᵥ L.R i *ᵥ u) + L.q i ⬝ᵥ x + L.r i ⬝ᵥ u + L.c i

/-- Terminal cost. -/
noncomputable def LQ.final (L : LQ n m) (x : Fin n → ℝ) : ℝ := 1 / 2 * (x ⬝ᵥ L.QN *ᵥ x) + L.qN ⬝ᵥ x + L.cN

/-- Total cost. -/
noncomputable def LQ.cost (L : LQ n m) (N : ℕ) (x : ℕ → Fin n → ℝ) (u : ∀ i, Fin (m i) → ℝ) : ℝ :=
  ∑ i ∈ range N, L.stage i (x i) (u i) + L.final (x N)

/-- Initial condition and dynamics hold. -/
def LQ.Feasible (L : LQ n m) (N : ℕ) (x : ℕ → Fin n → ℝ) (u : ∀ i, Fin (m i) → ℝ) : Prop :=
  x 0 = L.x0 ∧ ∀ i, i < N → x (i + 1) = L.A i *ᵥ x i + L.B i *ᵥ u i + L.b i

/-- The trajectory is feasible and no feasible one is cheaper. -/
def LQ.Optimal (L : LQ n m) (N : ℕ) (x : ℕ → Fin n → ℝ) (u : ∀ i, Fin (m i) → ℝ) : Prop :=
  L.Feasible N x u ∧ ∀ y w, L.Feasible N y w → L.cost N x u ≤ L.cost N y w

/-- Symmetric weights. -/
structure LQ.Symm (L : LQ n m) (N : ℕ) : Prop where
  Q : ∀ i, i < N → (L.Q i)ᵀ = L.Q i
  R : ∀ i, i < N → (L.R i)ᵀ = L.R i
  QN : L.QNᵀ = L.QN

/-- Convex costs. -/
structure LQ.Convex (L : LQ n m) (N : ℕ) : Prop where
  stage : ∀ i, i < N → ∀ x u, 0 ≤ 1 / 2 * (x ⬝ᵥ L.Q i *ᵥ x) + x ⬝ᵥ L.S i *ᵥ u + 1 / 2 * (u ⬝ᵥ L.R i *ᵥ u)
  final : ∀ x, 0 ≤ x ⬝ᵥ L.QN *ᵥ x

/-- A solver for positive definite systems. -/
def SolvesPosDef (llt : ∀ m : ℕ, Matrix (Fin m) (Fin m) ℝ → (Fin m → ℝ) → Fin m → ℝ) : Prop :=
  ∀ m A, A.PosDef → ∀ b, A *ᵥ llt m A b = b

end Aligator.FDDP.Spec
