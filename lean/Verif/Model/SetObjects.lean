import Verif.Model.ConstraintSets

/-!
# Model: constraint sets as objects with a proximal parameter

`Model/ConstraintSets` fixes the parameter of a set once and for all.  Here it is a member that can be set.
-/

namespace Aligator.CSets

/-- An object of a class derived from `ConstraintSetTpl` (core/constraint-set.hpp:16-117): its virtual methods as a
function of its own member `mu_`, that member, and `mu_inv_` (`none` while it is uninitialised). -/
structure Obj where
  methods : ℝ → CSet
  mu : ℝ
  muInv : Option ℝ

/-- A new object (core/constraint-set.hpp:22, :112-113). -/
noncomputable def Obj.new (methods : ℝ → CSet) : Obj := ⟨methods, 0, none⟩

/-- `setProxParameter` (core/constraint-set.hpp:68-71); not virtual. -/
noncomputable def Obj.setProxParameter (o : Obj) (mu : ℝ) : Obj := { o with mu := mu, muInv := some (1 / mu) }

/-- The methods at the current parameter. -/
def Obj.cset (o : Obj) : CSet := o.methods o.mu

/-- `NonsmoothPenaltyL1Tpl` (modelling/constraints/l1-penalty.hpp:18-53): the methods read `mu_`. -/
noncomputable def Obj.l1 : Obj := .new CSets.l1

/-- The constructor of `ConstraintSetProductTpl` (modelling/constraints/constraint-set-product.hpp:45-53): it stores copies
of the components; no method of the product reads the `mu_` of the product.  `none` is the exception. -/
noncomputable def Obj.product (comps : List Obj) (sizes : List ℕ) : Option Obj :=
  (CSets.product (comps.map Obj.cset) sizes).map fun S => .new fun _ => S

/-- `computeMoreauEnvelope` (core/constraint-set.hpp:102-106 with :93-98); `none` is a read of the uninitialised
`mu_inv_`. -/
noncomputable def Obj.moreauEnvelope (o : Obj) (z out : Vec) : Option ℝ :=
  o.muInv.map fun inv =>
    let zproj := o.cset.normalConeProjection z out
    o.cset.evaluate (List.zipWith (· - ·) z zproj) + 1 / 2 * inv * (zproj.map fun a => a * a).sum

end Aligator.CSets
