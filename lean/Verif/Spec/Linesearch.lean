import Mathlib.Analysis.Calculus.Deriv.Basic

/-!
# Specification vocabulary for line searches (independent of the model)
-/

namespace Aligator.Linesearch.Spec

/-- Sufficient decrease of a real merit function with respect to a reference value. -/
def SufficientDecrease (φ : ℝ → ℝ) (ref dphi0 c1 a : ℝ) : Prop := φ a ≤ ref + c1 * a * dphi0

/-- `q` has value `phi0` and slope `dphi0` at zero. -/
def StartsAt (q : ℝ → ℝ) (phi0 dphi0 : ℝ) : Prop := q 0 = phi0 ∧ HasDerivAt q dphi0 0

/-- quadratic and cubic functions -/
def IsQuadratic (q : ℝ → ℝ) : Prop := ∃ a b c, ∀ x, q x = a * x ^ 2 + b * x + c
def IsCubic (q : ℝ → ℝ) : Prop := ∃ a b c d, ∀ x, q x = a * x ^ 3 + b * x ^ 2 + c * x + d

/-- `x` minimises `q` over the interval -/
def MinOn (q : ℝ → ℝ) (lo hi x : ℝ) : Prop := lo ≤ x ∧ x ≤ hi ∧ ∀ y, lo ≤ y → y ≤ hi → q x ≤ q y

/-- Polynomial with coefficients in decreasing order of degree. -/
noncomputable def poly : List ℝ → ℝ → ℝ
  | [], _ => 0
  | c :: l, x => c * x ^ l.length + poly l x

/-- Geometrically weighted mean of a history, newest value first: `Σ ηⁱ φᵢ / Σ ηⁱ`. -/
noncomputable def wsum (eta : ℝ) : List ℝ → ℝ
  | [] => 0
  | x :: l => x + eta * wsum eta l

noncomputable def wmean (eta : ℝ) (l : List ℝ) : ℝ := wsum eta l / wsum eta (l.map fun _ => 1)

end Aligator.Linesearch.Spec
