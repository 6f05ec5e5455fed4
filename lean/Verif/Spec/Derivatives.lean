import Mathlib.Analysis.Calculus.FDeriv.Basic
import Mathlib.Topology.Algebra.Module.FiniteDimension
import Mathlib.Data.Matrix.Mul

/-!
# Specification: gradients and Jacobians of functions of several real variables (Fréchet derivatives)
-/

namespace Aligator.Deriv

open Matrix

/-- The linear form `v ↦ g · v`. -/
noncomputable def form {n : ℕ} (g : Fin n → ℝ) : (Fin n → ℝ) →L[ℝ] ℝ :=
  ∑ i, g i • (ContinuousLinearMap.proj i : (Fin n → ℝ) →L[ℝ] ℝ)

/-- `g` is the gradient of `f` at `z`. -/
def IsGradient {n : ℕ} (f : (Fin n → ℝ) → ℝ) (g z : Fin n → ℝ) : Prop := HasFDerivAt f (form g) z

/-- `A` is the Jacobian of `F` at `z`: its rows are the gradients of the coordinates. -/
def IsJacobian {n m : ℕ} (F : (Fin n → ℝ) → Fin m → ℝ) (A : Matrix (Fin m) (Fin n) ℝ) (z : Fin n → ℝ) : Prop :=
  ∀ i, IsGradient (fun y => F y i) (A i) z

/-- `H` is the Hessian of `f` at `z`: the Jacobian of its gradient. -/
def IsHessian {n : ℕ} (f : (Fin n → ℝ) → ℝ) (H : Matrix (Fin n) (Fin n) ℝ) (z : Fin n → ℝ) : Prop :=
  ∃ g : (Fin n → ℝ) → Fin n → ℝ, (∀ᶠ y in nhds z, IsGradient f (g y) y) ∧ IsJacobian g H z

/-- The state part of a stacked variable. -/
def fst {n m : ℕ} (z : Fin (n + m) → ℝ) : Fin n → ℝ := fun i => z (Fin.castAdd m i)

/-- The control part of a stacked variable. -/
def snd {n m : ℕ} (z : Fin (n + m) → ℝ) : Fin m → ℝ := fun j => z (Fin.natAdd n j)

/-- A function of two variables as a function of the stacked variable. -/
def stacked {n m : ℕ} {α : Type} (f : (Fin n → ℝ) → (Fin m → ℝ) → α) (z : Fin (n + m) → ℝ) : α := f (fst z) (snd z)

/-- The joint gradient of a function of two variables. -/
def IsGradient₂ {n m : ℕ} (f : (Fin n → ℝ) → (Fin m → ℝ) → ℝ) (gx : Fin n → ℝ) (gu : Fin m → ℝ) (x : Fin n → ℝ)
    (u : Fin m → ℝ) : Prop := IsGradient (stacked f) (Fin.append gx gu) (Fin.append x u)

/-- A matrix of four blocks. -/
def blocks {n m p q : ℕ} (A : Matrix (Fin n) (Fin p) ℝ) (B : Matrix (Fin n) (Fin q) ℝ) (C : Matrix (Fin m) (Fin p) ℝ)
    (D : Matrix (Fin m) (Fin q) ℝ) : Matrix (Fin (n + m)) (Fin (p + q)) ℝ :=
  Fin.append (fun i => Fin.append (A i) (B i)) (fun i => Fin.append (C i) (D i))

/-- The joint Hessian of a function of two variables. -/
def IsHessian₂ {n m : ℕ} (f : (Fin n → ℝ) → (Fin m → ℝ) → ℝ) (Hxx : Matrix (Fin n) (Fin n) ℝ)
    (Hxu : Matrix (Fin n) (Fin m) ℝ) (Hux : Matrix (Fin m) (Fin n) ℝ) (Huu : Matrix (Fin m) (Fin m) ℝ)
    (x : Fin n → ℝ) (u : Fin m → ℝ) : Prop := IsHessian (stacked f) (blocks Hxx Hxu Hux Huu) (Fin.append x u)

end Aligator.Deriv
