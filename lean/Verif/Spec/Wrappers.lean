import Verif.Model.Wrappers
import Verif.Spec.Derivatives
import Mathlib.Algebra.BigOperators.Fin

/-!
# Specification: what slices, compositions and direct sums should compute
-/

namespace Aligator.Wrap.Spec

open Matrix Aligator.Deriv

variable {n m r k a₁ a₂ n₁ n₂ m₁ m₂ : ℕ}

/-- All indices select an output. -/
def Valid (r : ℕ) (idx : Fin k → ℤ) : Prop := ∀ j, 0 ≤ idx j ∧ idx j < r

/-- The selected output. -/
def pick {idx : Fin k → ℤ} (h : Valid r idx) (j : Fin k) : Fin r := ⟨(idx j).toNat, by have := h j; omega⟩

/-- Multipliers of the selected outputs, as multipliers of all outputs. -/
def scatter (idx : Fin k → ℤ) (lbda : Vec k) : Vec r := fun i => ∑ j, if idx j = (i : ℕ) then lbda j else 0

/-- The vector-Hessian product of `F` with multipliers `lbda`: the Hessian of `z ↦ ∑ᵢ lbdaᵢ Fᵢ(z)`. -/
def IsVHP (F : Vec n → Vec m → Vec r) (lbda : Vec r) (H : Mat (n + m) (n + m)) (x : Vec n) (u : Vec m) : Prop :=
  IsHessian (fun z => ∑ i, lbda i * stacked F z i) H (Fin.append x u)

/-- Two blocks on the diagonal, zero elsewhere. -/
def diag (A : Mat n₁ m₁) (B : Mat n₂ m₂) : Mat (n₁ + n₂) (m₁ + m₂) := blocks A 0 0 B

/-- The sum of two functions of separate variables. -/
def sumFun (l₁ : Vec n₁ → Vec m₁ → ℝ) (l₂ : Vec n₂ → Vec m₂ → ℝ) (x : Vec (n₁ + n₂)) (u : Vec (m₁ + m₂)) : ℝ :=
  l₁ (fst x) (fst u) + l₂ (snd x) (snd u)

/-- The product of two maps of separate variables. -/
def prodFun (F : Vec n₁ → Vec m₁ → Vec n₁) (G : Vec n₂ → Vec m₂ → Vec n₂) (x : Vec (n₁ + n₂)) (u : Vec (m₁ + m₂)) :
    Vec (n₁ + n₂) := Fin.append (F (fst x) (fst u)) (G (snd x) (snd u))

end Aligator.Wrap.Spec
