import Mathlib.Data.Matrix.Mul
import Mathlib.Analysis.SpecialFunctions.Log.Basic
import Mathlib.Data.List.FinRange

/-!
# Model: quadratic and barrier costs

Real arithmetic.  Dimensions agree by type (the constructors throw otherwise, except that
`QuadraticResidualCostTpl` only checks the columns of its weight; rows are assumed equal).  `log` is the natural logarithm; the
theorems take it at positive arguments only (the code yields NaN or infinity elsewhere).
-/

namespace Aligator.QCosts

open Matrix

/-- A vector. -/
abbrev Vec (n : ℕ) := Fin n → ℝ

/-- A matrix. -/
abbrev Mat (m n : ℕ) := Matrix (Fin m) (Fin n) ℝ

/-! ### Euclidean quadratic costs -/

/-- The fields of `QuadraticCostTpl` (modelling/costs/quad-costs.hpp:24-37, :125-127). -/
structure Quad (n m : ℕ) where
  Wxx : Mat n n
  Wuu : Mat m m
  Wxu : Mat n m
  ix : Vec n
  iu : Vec m
  hasCross : Bool

/-- `QuadraticCostDataTpl` (modelling/costs/quad-costs.hpp:148-165; core/cost-abstract.hpp:73-108). -/
structure QuadData (n m : ℕ) where
  value : ℝ
  Lx : Vec n
  Lu : Vec m
  Lxx : Mat n n
  Lxu : Mat n m
  Lux : Mat m n
  Luu : Mat m m
  wx : Vec n
  wu : Vec m
  cx : Vec n
  cu : Vec m

variable {n m k : ℕ}

/-- The constructors without cross term (modelling/costs/quad-costs.hpp:43-55, :71-73). -/
def Quad.new (Wxx : Mat n n) (Wuu : Mat m m) (ix : Vec n) (iu : Vec m) : Quad n m := ⟨Wxx, Wuu, 0, ix, iu, false⟩

/-- The constructors with cross term (modelling/costs/quad-costs.hpp:57-69, :75-78). -/
def Quad.newCross (Wxx : Mat n n) (Wuu : Mat m m) (Wxu : Mat n m) (ix : Vec n) (iu : Vec m) : Quad n m :=
  ⟨Wxx, Wuu, Wxu, ix, iu, true⟩

/-- `setCrossWeight` (modelling/costs/quad-costs.hpp:116-120). -/
def Quad.setCrossWeight (c : Quad n m) (w : Mat n m) : Quad n m := { c with Wxu := w, hasCross := true }

/-- `evaluate` (modelling/costs/quad-costs.hpp:80-94). -/
noncomputable def Quad.evaluate (c : Quad n m) (x : Vec n) (u : Vec m) (d : QuadData n m) : QuadData n m :=
  let d := { d with wx := c.Wxx *ᵥ x, wu := c.Wuu *ᵥ u }
  let d := if c.hasCross then
      let d := { d with cx := c.Wxu *ᵥ u, cu := c.Wxuᵀ *ᵥ x }
      { d with wx := d.wx + d.cx, wu := d.wu + d.cu }
    else d
  { d with value := 1 / 2 * (x ⬝ᵥ (d.wx + (2 : ℝ) • c.ix)) + 1 / 2 * (u ⬝ᵥ (d.wu + (2 : ℝ) • c.iu)) }

/-- `computeGradients` (modelling/costs/quad-costs.hpp:96-101): the point is not used. -/
def Quad.computeGradients (c : Quad n m) (_ : Vec n) (_ : Vec m) (d : QuadData n m) : QuadData n m :=
  { d with Lx := d.wx + c.ix, Lu := d.wu + c.iu }

/-- `computeHessians` (modelling/costs/quad-costs.hpp:103-104). -/
def Quad.computeHessians (_ : Quad n m) (_ : Vec n) (_ : Vec m) (d : QuadData n m) : QuadData n m := d

/-- `createData` (modelling/costs/quad-costs.hpp:106-113). -/
def Quad.createData (c : Quad n m) : QuadData n m :=
  ⟨0, 0, 0, c.Wxx, c.Wxu, c.Wxuᵀ, c.Wuu, 0, 0, 0, 0⟩

/-- Calls of a client on one data object. -/
inductive Call (n m : ℕ)
  | value (x : Vec n) (u : Vec m)
  | grad (x : Vec n) (u : Vec m)
  | hess (x : Vec n) (u : Vec m)

/-- One call. -/
noncomputable def Quad.call (c : Quad n m) (d : QuadData n m) : Call n m → QuadData n m
  | .value x u => c.evaluate x u d
  | .grad x u => c.computeGradients x u d
  | .hess x u => c.computeHessians x u d

/-! ### Costs of a residual -/

/-- A residual function (core/function-abstract.hpp:12-70) of the stacked variable `z = (x, u)`: what its three methods
write into their buffers. -/
structure Res (k m : ℕ) where
  r : Vec k → Vec m
  J : Vec k → Mat m k
  vhp : Vec k → Vec m → Mat k k

/-- The buffers of the residual (core/function-abstract.hpp:73-110; `jac_buffer_` is cut to `ndx + nu` columns). -/
structure ResData (k m : ℕ) where
  value : Vec m
  jac : Mat m k
  vhp : Mat k k

/-- `CompositeCostDataTpl` (modelling/costs/composite-costs.hpp:14-33). -/
structure CompData (k m : ℕ) where
  value : ℝ
  grad : Vec k
  hess : Mat k k
  res : ResData k m
  JtW : Mat k m
  Wv : Vec m

/-- `QuadraticResidualCostTpl` (modelling/costs/quad-residual-cost.hpp:27-29; `QuadraticStateCostTpl` and
`QuadraticControlCostTpl`, modelling/costs/quad-state-cost.hpp:12-80, only choose the residual). -/
structure QRes (k m : ℕ) where
  W : Mat m m
  res : Res k m
  gaussNewton : Bool

/-- `evaluate` (modelling/costs/quad-residual-cost.hxx:22-32). -/
noncomputable def QRes.evaluate (c : QRes k m) (z : Vec k) (d : CompData k m) : CompData k m :=
  let d := { d with res := { d.res with value := c.res.r z } }
  let d := { d with Wv := c.W *ᵥ d.res.value }
  { d with value := 1 / 2 * (d.res.value ⬝ᵥ d.Wv) }

/-- `computeGradients` (modelling/costs/quad-residual-cost.hxx:34-46): the value of the residual is the one in the
buffer. -/
def QRes.computeGradients (c : QRes k m) (z : Vec k) (d : CompData k m) : CompData k m :=
  let d := { d with res := { d.res with jac := c.res.J z } }
  let d := { d with Wv := c.W *ᵥ d.res.value }
  { d with grad := d.res.jacᵀ *ᵥ d.Wv }

/-- `computeHessians` (modelling/costs/quad-residual-cost.hxx:48-64). -/
def QRes.computeHessians (c : QRes k m) (z : Vec k) (d : CompData k m) : CompData k m :=
  let d := { d with JtW := d.res.jacᵀ * c.W }
  let d := { d with hess := d.JtW * d.res.jac }
  if !c.gaussNewton then
    let d := { d with res := { d.res with vhp := c.res.vhp z d.Wv } }
    { d with hess := d.res.vhp }
  else d

/-- Calls of a client on one data object of a composite cost. -/
inductive ZCall (k : ℕ)
  | value (z : Vec k)
  | grad (z : Vec k)
  | hess (z : Vec k)

/-- One call. -/
noncomputable def QRes.call (c : QRes k m) (d : CompData k m) : ZCall k → CompData k m
  | .value z => c.evaluate z d
  | .grad z => c.computeGradients z d
  | .hess z => c.computeHessians z d

/-! ### Barriers -/

/-- `LogResidualCostTpl` and `RelaxedLogBarrierCostTpl` (modelling/costs/log-residual-cost.hpp:30-31,
modelling/costs/relaxed-log-barrier.hpp:19-21). -/
structure Barrier (k m : ℕ) where
  w : Vec m
  res : Res k m

/-- The constructor of the log barrier (modelling/costs/log-residual-cost.hxx:9-25); `none` is an exception. -/
noncomputable def newLog (w : Vec m) (res : Res k m) : Option (Barrier k m) :=
  if ∃ i, w i ≤ 0 then none else some ⟨w, res⟩

/-- The constructor of the relaxed barrier (modelling/costs/relaxed-log-barrier.hxx:9-29). -/
noncomputable def newRelaxed (w : Vec m) (res : Res k m) (threshold : ℝ) : Option (Barrier k m × ℝ) :=
  if ∃ i, w i ≤ 0 then none else if threshold ≤ 0 then none else some (⟨w, res⟩, threshold)

/-- `evaluate` of the log barrier (modelling/costs/log-residual-cost.hxx:34-42). -/
noncomputable def Barrier.evaluate (c : Barrier k m) (z : Vec k) (d : CompData k m) : CompData k m :=
  let d := { d with res := { d.res with value := c.res.r z } }
  { d with value := -(c.w ⬝ᵥ fun i => Real.log (d.res.value i)) }

/-- `computeGradients` of the log barrier (modelling/costs/log-residual-cost.hxx:44-59). -/
noncomputable def Barrier.computeGradients (c : Barrier k m) (z : Vec k) (d : CompData k m) : CompData k m :=
  let d := { d with res := { d.res with jac := c.res.J z } }
  { d with grad := (List.finRange m).foldl (fun g i => g + (-c.w i / d.res.value i) • d.res.jac i) 0 }

/-- `computeHessians` of the log barrier (modelling/costs/log-residual-cost.hxx:61-77). -/
noncomputable def Barrier.computeHessians (c : Barrier k m) (_ : Vec k) (d : CompData k m) : CompData k m :=
  { d with hess := (List.finRange m).foldl (fun H i =>
      H + (-c.w i / (d.res.value i * d.res.value i)) • vecMulVec (d.res.jac i) (d.res.jac i)) 0 }

/-- One call. -/
noncomputable def Barrier.call (c : Barrier k m) (d : CompData k m) : ZCall k → CompData k m
  | .value z => c.evaluate z d
  | .grad z => c.computeGradients z d
  | .hess z => c.computeHessians z d

/-- `evaluate` of the relaxed barrier (modelling/costs/relaxed-log-barrier.hxx:39-55). -/
noncomputable def Barrier.evaluateR (c : Barrier k m) (t : ℝ) (z : Vec k) (d : CompData k m) : CompData k m :=
  let d := { d with res := { d.res with value := c.res.r z } }
  { d with value := (List.finRange m).foldl (fun a i =>
      if d.res.value i < t then
        let sq := (d.res.value i - 2 * t) / t
        a + c.w i * (1 / 2 * (sq * sq - 1) - Real.log t)
      else a - c.w i * Real.log (d.res.value i)) 0 }

/-- `computeGradients` of the relaxed barrier (modelling/costs/relaxed-log-barrier.hxx:57-77). -/
noncomputable def Barrier.computeGradientsR (c : Barrier k m) (t : ℝ) (z : Vec k) (d : CompData k m) : CompData k m :=
  let d := { d with res := { d.res with jac := c.res.J z } }
  { d with grad := (List.finRange m).foldl (fun g i =>
      if d.res.value i < t then g + (c.w i * (d.res.value i - 2 * t) / (t * t)) • d.res.jac i
      else g - (c.w i / d.res.value i) • d.res.jac i) 0 }

/-- `computeHessians` of the relaxed barrier (modelling/costs/relaxed-log-barrier.hxx:79-101). -/
noncomputable def Barrier.computeHessiansR (c : Barrier k m) (t : ℝ) (_ : Vec k) (d : CompData k m) : CompData k m :=
  { d with hess := (List.finRange m).foldl (fun H i =>
      if d.res.value i < t then
        let sq := (d.res.value i - 2 * t) / (t * t)
        H + (c.w i * c.w i * sq * sq) • vecMulVec (d.res.jac i) (d.res.jac i)
      else H + (c.w i * c.w i / (d.res.value i * d.res.value i)) • vecMulVec (d.res.jac i) (d.res.jac i)) 0 }

/-- One call. -/
noncomputable def Barrier.callR (c : Barrier k m) (t : ℝ) (d : CompData k m) : ZCall k → CompData k m
  | .value z => c.evaluateR t z d
  | .grad z => c.computeGradientsR t z d
  | .hess z => c.computeHessiansR t z d

end Aligator.QCosts
