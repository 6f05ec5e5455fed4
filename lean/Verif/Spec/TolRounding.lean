import Mathlib.Data.Real.Basic
import Mathlib.Data.Set.Finite.Basic

/-!
# Specification: rounding to the nearest number of a grid
-/

namespace Aligator.ProxDDP.Spec

/-- A set of numbers with zero, of which finitely many are below any bound. -/
structure Grid (F : Set ℝ) : Prop where
  zero : 0 ∈ F
  fin : ∀ b, (F ∩ Set.Icc 0 b).Finite

/-- `rnd` rounds nonnegative numbers to a nearest number of the grid, ties in any way. -/
def Nearest (F : Set ℝ) (rnd : ℝ → ℝ) : Prop := ∀ t, 0 ≤ t → rnd t ∈ F ∧ ∀ f ∈ F, |rnd t - t| ≤ |f - t|

/-- `m` is the least positive number of the grid. -/
def Least (F : Set ℝ) (m : ℝ) : Prop := m ∈ F ∧ 0 < m ∧ ∀ f ∈ F, 0 < f → m ≤ f

/-- The nonnegative binary64 numbers with gradual underflow, without a largest one. -/
def Binary64 : Set ℝ := { x | ∃ m e : ℕ, m < 2 ^ 53 ∧ x = m * 2 ^ e / 2 ^ 1074 }

end Aligator.ProxDDP.Spec
