import Mathlib.Data.Real.Basic
import Mathlib.Algebra.BigOperators.Group.List.Basic

/-!
# Specification: Euclidean projections, normal cones, proximal operators on lists of reals
-/

namespace Aligator.CSets.Spec

/-- Inner product. -/
def dot (a b : List ℝ) : ℝ := (List.zipWith (· * ·) a b).sum

/-- Difference. -/
def sub (a b : List ℝ) : List ℝ := List.zipWith (· - ·) a b

/-- Squared distance. -/
def dist2 (a b : List ℝ) : ℝ := dot (sub a b) (sub a b)

/-- Sum of absolute values. -/
def norm1 (a : List ℝ) : ℝ := (a.map fun x => |x|).sum

/-- `v` is in the normal cone to the set `C` (of vectors of dimension `n`) at `p`. -/
def InNormalCone (C : List ℝ → Prop) (n : ℕ) (p v : List ℝ) : Prop :=
  C p ∧ ∀ w, w.length = n → C w → dot v (sub w p) ≤ 0

/-- `P` is the Euclidean projection on the set `C` of vectors of dimension `n`. -/
structure IsEuclideanProjection (C : List ℝ → Prop) (n : ℕ) (P : List ℝ → List ℝ) : Prop where
  length : ∀ z, z.length = n → (P z).length = n
  mem : ∀ z, z.length = n → C (P z)
  closest : ∀ z w, z.length = n → w.length = n → C w → dist2 z (P z) ≤ dist2 z w
  unique : ∀ z w, z.length = n → w.length = n → C w → dist2 z w ≤ dist2 z (P z) → w = P z
  idempotent : ∀ z, z.length = n → P (P z) = P z
  fixed : ∀ z, z.length = n → C z → P z = z
  nonexpansive : ∀ z z', z.length = n → z'.length = n → dist2 (P z) (P z') ≤ dist2 z z'

/-- The singleton `{0}`. -/
def Zero (z : List ℝ) : Prop := ∀ a ∈ z, a = 0

/-- The nonpositive vectors. -/
def Nonpos (z : List ℝ) : Prop := ∀ a ∈ z, a ≤ 0

/-- The box. -/
def Between (lo up z : List ℝ) : Prop := List.Forall₂ (· ≤ ·) lo z ∧ List.Forall₂ (· ≤ ·) z up

/-- The vectors with all components in `[-r, r]`. -/
def Ball (r : ℝ) (z : List ℝ) : Prop := ∀ a ∈ z, |a| ≤ r

/-- The Cartesian product of sets of vectors of given dimensions. -/
def Prod : List ((List ℝ → Prop) × ℕ) → List ℝ → Prop
  | [], z => z = []
  | c :: cs, z => ∃ a b, z = a ++ b ∧ a.length = c.2 ∧ c.1 a ∧ Prod cs b

end Aligator.CSets.Spec
