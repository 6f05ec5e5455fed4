import Mathlib.Data.Real.Basic
import Mathlib.Data.Real.Sign
import Mathlib.Algebra.BigOperators.Group.List.Basic

/-!
# Model of constraint sets, of their products and of the multiplier update

A vector (`VectorXs`, `VectorRef`) is a list of reals, a matrix the list of its rows.  A method that fills an
output buffer takes the previous content of the buffer and returns the new one.  The size assertions of Eigen
are preconditions of the theorems.
-/

namespace Aligator.CSets

/-- `VectorXs`. -/
abbrev Vec := List ℝ

/-- The virtual methods of `ConstraintSetTpl` (core/constraint-set.hpp:16-117); the parameter `mu_` of a
particular object is part of its methods. -/
structure CSet where
  evaluate : Vec → ℝ
  projection : Vec → Vec → Vec
  normalConeProjection : Vec → Vec → Vec
  applyProjectionJacobian : Vec → List Vec → List Vec
  applyNormalConeProjectionJacobian : Vec → List Vec → List Vec
  computeActiveSet : Vec → List Bool → List Bool

/-- `row.setZero()`. -/
def zeroRow (row : Vec) : Vec := row.map fun _ => 0

/-- The default `applyProjectionJacobian` (core/constraint-set.hxx:9-22).  The local `active_set` is not
initialised in the code; the model starts from `false` (every set of the library fills it). -/
def defaultProjectionJacobian (active : Vec → List Bool → List Bool) (z : Vec) (J : List Vec) : List Vec :=
  List.zipWith (fun a row => if a then zeroRow row else row) (active z (List.replicate z.length false)) J

/-- The default `applyNormalConeProjectionJacobian` (core/constraint-set.hxx:24-37). -/
def defaultNormalConeJacobian (active : Vec → List Bool → List Bool) (z : Vec) (J : List Vec) : List Vec :=
  List.zipWith (fun a row => if !a then zeroRow row else row) (active z (List.replicate z.length false)) J

/-- `EqualityConstraintTpl` (modelling/constraints/equality-constraint.hpp:16-56). -/
def equality : CSet where
  evaluate _ := 0
  projection _ out := out.map fun _ => 0
  normalConeProjection z _ := z
  applyProjectionJacobian _ J := J.map zeroRow
  applyNormalConeProjectionJacobian _ J := J
  computeActiveSet _ out := out.map fun _ => true

/-- `NegativeOrthantTpl::computeActiveSet` (modelling/constraints/negative-orthant.hpp:41-44). -/
noncomputable def orthantActive (z : Vec) (_ : List Bool) : List Bool := z.map fun a => decide (a > 0)

/-- `NegativeOrthantTpl` (modelling/constraints/negative-orthant.hpp:19-45). -/
noncomputable def negativeOrthant : CSet where
  evaluate _ := 0
  projection z _ := z.map fun a => min a 0
  normalConeProjection z _ := z.map fun a => max a 0
  applyProjectionJacobian := defaultProjectionJacobian orthantActive
  applyNormalConeProjectionJacobian := defaultNormalConeJacobian orthantActive
  computeActiveSet := orthantActive

/-- `BoxConstraintTpl::projection_impl` (modelling/constraints/box-constraint.hpp:27-29). -/
noncomputable def boxProj (lower upper z : Vec) : Vec :=
  List.zipWith max (List.zipWith min z upper) lower

/-- `BoxConstraintTpl::computeActiveSet` (modelling/constraints/box-constraint.hpp:39-43). -/
noncomputable def boxActive (lower upper z : Vec) (_ : List Bool) : List Bool :=
  List.zipWith (· || ·) (List.zipWith (fun a u => decide (a > u)) z upper)
    (List.zipWith (fun a l => decide (a < l)) z lower)

/-- `BoxConstraintTpl` (modelling/constraints/box-constraint.hpp:10-44); the constructor does not compare the
limits. -/
noncomputable def box (lower upper : Vec) : CSet where
  evaluate _ := 0
  projection z _ := boxProj lower upper z
  normalConeProjection z _ := List.zipWith (· - ·) z (boxProj lower upper z)
  applyProjectionJacobian := defaultProjectionJacobian (boxActive lower upper)
  applyNormalConeProjectionJacobian := defaultNormalConeJacobian (boxActive lower upper)
  computeActiveSet := boxActive lower upper

/-- `NonsmoothPenaltyL1Tpl::projection_impl` (modelling/constraints/l1-penalty.hpp:36-39). -/
noncomputable def l1Proj (mu : ℝ) (z : Vec) : Vec := z.map fun a => Real.sign a * max (|a| - mu) 0

/-- `NonsmoothPenaltyL1Tpl::computeActiveSet` (modelling/constraints/l1-penalty.hpp:49-52). -/
noncomputable def l1Active (mu : ℝ) (z : Vec) (_ : List Bool) : List Bool := z.map fun a => decide (|a| ≤ mu)

/-- `NonsmoothPenaltyL1Tpl` (modelling/constraints/l1-penalty.hpp:18-53) after `setProxParameter(mu)`; a newly
constructed object has `mu_ = 0` (core/constraint-set.hpp:112). -/
noncomputable def l1 (mu : ℝ) : CSet where
  evaluate z := (z.map fun a => |a|).sum
  projection z _ := l1Proj mu z
  normalConeProjection z _ := List.zipWith (· - ·) z (l1Proj mu z)
  applyProjectionJacobian := defaultProjectionJacobian (l1Active mu)
  applyNormalConeProjectionJacobian := defaultNormalConeJacobian (l1Active mu)
  computeActiveSet := l1Active mu

/-- `evaluateMoreauEnvelope` and `computeMoreauEnvelope` (core/constraint-set.hpp:92-107) with parameter
`mu_ = mu`. -/
noncomputable def moreauEnvelope (S : CSet) (mu : ℝ) (z out : Vec) : ℝ :=
  let zproj := S.normalConeProjection z out
  S.evaluate (List.zipWith (· - ·) z zproj) + 1 / 2 * (1 / mu) * (zproj.map fun a => a * a).sum

/-! ### Products -/

/-- `startIdx` of `blockVectorGetRow`, `blockMatrixGetRow`
(modelling/constraints/constraint-set-product.hpp:14-17, :27-30). -/
def blockStart (sizes : List ℕ) (i : ℕ) : ℕ := (sizes.take i).sum

/-- `segment(start, n)` / `middleRows(start, n)`. -/
def seg {α : Type*} (v : List α) (s n : ℕ) : List α := (v.drop s).take n

/-- Writing through a segment view. -/
def writeSeg {α : Type*} (v : List α) (s : ℕ) (new : List α) : List α :=
  v.take s ++ new ++ v.drop (s + new.length)

/-- The loops of the methods of `ConstraintSetProductTpl`
(modelling/constraints/constraint-set-product.hpp:70-74, :79-83, :88-92, :97-101, :106-110), from component
`i` on: `f` is the method called on the component.  The constructor guarantees as many sizes as
components. -/
def productLoop {α : Type*} (f : CSet → Vec → List α → List α) (sizes : List ℕ) (z : Vec) :
    ℕ → List CSet → List α → List α
  | _, [], out => out
  | i, c :: cs, out =>
    let s := blockStart sizes i
    let n := sizes.getD i 0
    productLoop f sizes z (i + 1) cs (writeSeg out s (f c (seg z s n) (seg out s n)))

/-- `ConstraintSetProductTpl::evaluate` (modelling/constraints/constraint-set-product.hpp:60-67). -/
noncomputable def productEvaluate (sizes : List ℕ) (z : Vec) : ℕ → List CSet → ℝ → ℝ
  | _, [], res => res
  | i, c :: cs, res =>
    productEvaluate sizes z (i + 1) cs (res + c.evaluate (seg z (blockStart sizes i) (sizes.getD i 0)))

/-- `ConstraintSetProductTpl` (modelling/constraints/constraint-set-product.hpp:40-122); `none` is the exception
of the constructor. -/
noncomputable def product (comps : List CSet) (sizes : List ℕ) : Option CSet :=
  if comps.length ≠ sizes.length then none else some {
    evaluate := fun z => productEvaluate sizes z 0 comps 0
    projection := fun z out => productLoop CSet.projection sizes z 0 comps out
    normalConeProjection := fun z out => productLoop CSet.normalConeProjection sizes z 0 comps out
    applyProjectionJacobian := fun z J => productLoop CSet.applyProjectionJacobian sizes z 0 comps J
    applyNormalConeProjectionJacobian := fun z J =>
      productLoop CSet.applyNormalConeProjectionJacobian sizes z 0 comps J
    computeActiveSet := fun z out => productLoop CSet.computeActiveSet sizes z 0 comps out }

/-! ### Multiplier update -/

/-- What `computeMultipliers` stores for a stage. -/
structure MultStep where
  shifted : Vec
  vsPlus : Vec
  Lvs : Vec
  infeas : Vec
  active : List Bool

/-- The part of `computeMultipliers` for the constraints of one stage, or of the terminal constraints
(solvers/proxddp/solver-proxddp.hxx:271-286, :302-310): `value` is the stacked constraint value, `vPrev` the
previous estimate, `v` the current multiplier, `out` and `outA` the previous contents of the buffers. -/
noncomputable def multiplierStep (S : CSet) (mu : ℝ) (value vPrev v out : Vec) (outA : List Bool) : MultStep :=
  let shifted := List.zipWith (· + ·) value (vPrev.map (mu * ·))
  let p := S.normalConeProjection shifted out
  let vsPlus := p.map (1 / mu * ·)
  { shifted := shifted
    vsPlus := vsPlus
    Lvs := List.zipWith (· - ·) p (v.map (mu * ·))
    infeas := (List.zipWith (· - ·) vsPlus vPrev).map (mu * ·)
    active := S.computeActiveSet shifted outA }

end Aligator.CSets
