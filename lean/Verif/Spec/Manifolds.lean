import Verif.Model.Manifolds

/-!
# Specification: the laws of a manifold

The points and steps for which the laws are wanted are part of the statement: on SO(3), say, the points are the unit
quaternions and the steps those shorter than π.
-/

namespace Aligator.Mani.Spec

variable {K : Type} [Field K]

/-- The points of a manifold, and the steps from a point for which integration can be undone. -/
structure Domain (K : Type) where
  pt : Vec K → Prop
  step : Vec K → Vec K → Prop

/-- The laws, for every content of the output buffers. -/
structure Laws (m : Manifold K) (D : Domain K) : Prop where
  len_pt : ∀ x, D.pt x → x.length = m.nx
  len_step : ∀ x v, D.step x v → v.length = m.ndx
  integrate_pt : ∀ x v o, D.pt x → v.length = m.ndx → o.length = m.nx → D.pt (m.integrate x v o)
  difference_step : ∀ x y o, D.pt x → D.pt y → o.length = m.ndx → D.step x (m.difference x y o)
  integrate_difference : ∀ x y o o', D.pt x → D.pt y → o.length = m.ndx → o'.length = m.nx →
    m.integrate x (m.difference x y o) o' = y
  difference_integrate : ∀ x v o o', D.pt x → D.step x v → o.length = m.nx → o'.length = m.ndx →
    m.difference x (m.integrate x v o) o' = v
  integrate_zero : ∀ x o, D.pt x → o.length = m.nx → m.integrate x (List.replicate m.ndx 0) o = x

/-- Interpolation hits the end points. -/
structure Interpolates (m : Manifold K) (D : Domain K) : Prop where
  zero : ∀ x y o, D.pt x → D.pt y → o.length = m.nx → m.interpolate x y 0 o = x
  one : ∀ x y o, D.pt x → D.pt y → o.length = m.nx → m.interpolate x y 1 o = y

/-- Points and steps of a vector space. -/
def euclid (n : ℕ) : Domain K := ⟨fun x => x.length = n, fun _ v => v.length = n⟩

/-- Points of a product: a list of points, one after the other. -/
def prodPt : List (Domain K) → Vec K → Prop
  | [], x => x = []
  | D :: Ds, x => ∃ a b, x = a ++ b ∧ D.pt a ∧ prodPt Ds b

/-- Steps of a product. -/
def prodStep : List (Domain K) → Vec K → Vec K → Prop
  | [], x, v => x = [] ∧ v = []
  | D :: Ds, x, v => ∃ a b c d, x = a ++ b ∧ v = c ++ d ∧ D.pt a ∧ D.step a c ∧ prodStep Ds b d

/-- Points and steps of a product. -/
def prod (Ds : List (Domain K)) : Domain K := ⟨prodPt Ds, prodStep Ds⟩

/-- Points and steps of a tangent bundle. -/
def bundle (n : ℕ) (D : Domain K) : Domain K :=
  ⟨fun x => ∃ p v, x = p ++ v ∧ D.pt p ∧ v.length = n,
   fun x w => ∃ p v a b, x = p ++ v ∧ w = a ++ b ∧ D.pt p ∧ v.length = n ∧ D.step p a ∧ b.length = n⟩

/-- The product of a matrix and a vector. -/
def mulVec (J : Mat K) (v : Vec K) : Vec K := J.map fun r => (List.zipWith (· * ·) r v).sum

end Aligator.Mani.Spec
