import Mathlib.Data.Matrix.Mul
import Mathlib.Data.Real.Basic
import Mathlib.Data.List.FinRange
import Mathlib.Data.Fin.Tuple.Basic

/-!
# Model: functions sliced and composed with affine maps, and direct sums of costs and dynamics

Real arithmetic.  The state enters the wrapped functions as a vector.
-/

namespace Aligator.Wrap

open Matrix

/-- A vector. -/
abbrev Vec (n : ℕ) := Fin n → ℝ

/-- A matrix. -/
abbrev Mat (m n : ℕ) := Matrix (Fin m) (Fin n) ℝ

variable {a n m r k : ℕ}

/-- `StageFunctionDataTpl` (core/function-abstract.hpp:73-110): value, Jacobian and vector-Hessian product buffers. -/
structure FData (n m r : ℕ) where
  value : Vec r
  jac : Mat r (n + m)
  vhp : Mat (n + m) (n + m)

/-- New data (core/function-abstract.hxx:29-47). -/
def FData.new : FData n m r := ⟨0, 0, 0⟩

/-- A stage function on states of `a` coordinates and `n` tangent coordinates (core/function-abstract.hpp:33-64).  The
multipliers come in a vector of any size. -/
structure Fun (a n m r : ℕ) where
  evaluate : Vec a → Vec m → FData n m r → FData n m r
  computeJacobians : Vec a → Vec m → FData n m r → FData n m r
  computeVHP : Vec a → Vec m → List ℝ → FData n m r → FData n m r

/-! ### Slices -/

/-- The data of a slice (modelling/function-xpr-slice.hpp:103-116). -/
structure SData (n m r k : ℕ) extends FData n m k where
  sub : FData n m r
  lbda : List ℝ

/-- New data (modelling/function-xpr-slice.hpp:111-115): the buffer of multipliers holds arbitrary values. -/
def SData.new (sub : FData n m r) (lbda : List ℝ) : SData n m r k := { (FData.new : FData n m k) with sub, lbda }

/-- Access to a coordinate by an `int`; out of range is undefined. -/
def at? {α : Type} (v : Fin r → α) (i : ℤ) : Option α :=
  if h : 0 ≤ i ∧ i < r then some (v ⟨i.toNat, by omega⟩) else none

/-- `evaluate` of a slice (modelling/function-xpr-slice.hxx:18-31). -/
def sliceEvaluate (f : Fun a n m r) (idx : Fin k → ℤ) (x : Vec a) (u : Vec m) (d : SData n m r k) :
    Option (SData n m r k) :=
  let d := { d with sub := f.evaluate x u d.sub }
  (List.finRange k).foldlM (fun d j => do
    let v ← at? d.sub.value (idx j)
    pure { d with value := Function.update d.value j v }) d

/-- `computeJacobians` of a slice (modelling/function-xpr-slice.hxx:33-47). -/
def sliceJacobians (f : Fun a n m r) (idx : Fin k → ℤ) (x : Vec a) (u : Vec m) (d : SData n m r k) :
    Option (SData n m r k) :=
  let d := { d with sub := f.computeJacobians x u d.sub }
  (List.finRange k).foldlM (fun d j => do
    let v ← at? d.sub.jac (idx j)
    pure { d with jac := Function.update d.jac j v }) d

/-- Writing a coordinate of a vector by an `int`; out of range is undefined. -/
def set? (v : List ℝ) (i : ℤ) (y : ℝ) : Option (List ℝ) :=
  if 0 ≤ i ∧ i < v.length then some (v.set i.toNat y) else none

/-- `computeVectorHessianProducts` of a slice (modelling/function-xpr-slice.hxx:49-64). -/
def sliceVHP (f : Fun a n m r) (idx : Fin k → ℤ) (x : Vec a) (u : Vec m) (lbda : List ℝ) (d : SData n m r k) :
    Option (SData n m r k) := do
  let d := { d with lbda := lbda }
  let l ← (List.finRange k).foldlM (fun l j => set? l (idx j) 0) d.lbda
  let d := { d with lbda := l }
  pure { d with sub := f.computeVHP x u d.lbda d.sub }

/-! ### Affine compositions -/

/-- The data of a composition (modelling/linear-function-composition.hpp:21-26). -/
structure LData (n m r k : ℕ) extends FData n m k where
  sub : FData n m r

/-- The checks of the constructor (modelling/linear-function-composition.hpp:28-43): rows of `A`, of `b`, columns of `A`,
codimension of the function; whether it throws. -/
def composeThrows (rowsA rowsb colsA nr : ℕ) : Bool := (rowsA != rowsb) || (colsA != nr)

/-- `evaluate` of a composition (modelling/linear-function-composition.hxx:7-16, 27-34). -/
def composeEvaluate (f : Fun a n m r) (A : Mat k r) (b : Vec k) (x : Vec a) (u : Vec m) (d : LData n m r k) :
    LData n m r k :=
  let d := { d with sub := f.evaluate x u d.sub }
  let d := { d with value := b }
  { d with value := d.value + A *ᵥ d.sub.value }

/-- `computeJacobians` of a composition (modelling/linear-function-composition.hxx:18-25, 36-42). -/
def composeJacobians (f : Fun a n m r) (A : Mat k r) (x : Vec a) (u : Vec m) (d : LData n m r k) : LData n m r k :=
  let d := { d with sub := f.computeJacobians x u d.sub }
  { d with jac := A * d.sub.jac }

/-- `computeVectorHessianProducts` of a composition: inherited, does nothing (core/function-abstract.hxx:16-19,
modelling/linear-function-composition.hpp:55-76). -/
def composeVHP (d : LData n m r k) : LData n m r k := d

/-! ### Direct sums of costs -/

/-- `CostDataAbstractTpl` (core/cost-abstract.hpp:73-114). -/
structure CData (n m : ℕ) where
  value : ℝ
  Lx : Vec n
  Lu : Vec m
  Lxx : Mat n n
  Lxu : Mat n m
  Lux : Mat m n
  Luu : Mat m m

/-- New data (core/cost-abstract.hpp:94-108). -/
def CData.new : CData n m := ⟨0, 0, 0, 0, 0, 0, 0⟩

/-- A cost: the methods, acting on a data object of any type, and the part of the data every cost has. -/
structure Cost (a n m : ℕ) where
  Data : Type
  base : Data → CData n m
  evaluate : Vec a → Vec m → Data → Data
  computeGradients : Vec a → Vec m → Data → Data
  computeHessians : Vec a → Vec m → Data → Data

variable {a₁ a₂ n₁ n₂ m₁ m₂ : ℕ}

/-- `x.head(a₁)`, and the first vector of `split`. -/
def hd (x : Vec (a₁ + a₂)) : Vec a₁ := fun i => x (Fin.castAdd a₂ i)

/-- `x.tail(a₂)`, and the second vector of `split`. -/
def tl (x : Vec (a₁ + a₂)) : Vec a₂ := fun i => x (Fin.natAdd a₁ i)

/-- Writing through `head`. -/
def setHd (v : Vec (a₁ + a₂)) (w : Vec a₁) : Vec (a₁ + a₂) := Fin.append w (tl v)

/-- Writing through `tail`. -/
def setTl (v : Vec (a₁ + a₂)) (w : Vec a₂) : Vec (a₁ + a₂) := Fin.append (hd v) w

/-- Writing through `topLeftCorner`. -/
def setTL (M : Mat (n₁ + n₂) (m₁ + m₂)) (B : Mat n₁ m₁) : Mat (n₁ + n₂) (m₁ + m₂) := fun i j =>
  Fin.addCases (fun i₁ => Fin.addCases (fun j₁ => B i₁ j₁) (fun _ => M i j) j) (fun _ => M i j) i

/-- Writing through `bottomRightCorner`. -/
def setBR (M : Mat (n₁ + n₂) (m₁ + m₂)) (B : Mat n₂ m₂) : Mat (n₁ + n₂) (m₁ + m₂) := fun i j =>
  Fin.addCases (fun _ => M i j) (fun i₂ => Fin.addCases (fun _ => M i j) (fun j₂ => B i₂ j₂) j) i

/-- The data of a direct sum (modelling/costs/cost-direct-sum.hpp:46-53). -/
structure DData (c₁ : Cost a₁ n₁ m₁) (c₂ : Cost a₂ n₂ m₂) extends CData (n₁ + n₂) (m₁ + m₂) where
  data1 : c₁.Data
  data2 : c₂.Data

variable (c₁ : Cost a₁ n₁ m₁) (c₂ : Cost a₂ n₂ m₂)

/-- New data (modelling/costs/cost-direct-sum.hpp:46-53). -/
def DData.new (d1 : c₁.Data) (d2 : c₂.Data) : DData c₁ c₂ := { (CData.new : CData (n₁ + n₂) (m₁ + m₂)) with
  data1 := d1, data2 := d2 }

/-- `evaluate` (modelling/costs/cost-direct-sum.hpp:55-69). -/
def sumEvaluate (x : Vec (a₁ + a₂)) (u : Vec (m₁ + m₂)) (d : DData c₁ c₂) : DData c₁ c₂ :=
  let d := { d with data1 := c₁.evaluate (hd x) (hd u) d.data1 }
  let d := { d with data2 := c₂.evaluate (tl x) (tl u) d.data2 }
  { d with value := (c₁.base d.data1).value + (c₂.base d.data2).value }

/-- `computeGradients` (modelling/costs/cost-direct-sum.hpp:71-91). -/
def sumGradients (x : Vec (a₁ + a₂)) (u : Vec (m₁ + m₂)) (d : DData c₁ c₂) : DData c₁ c₂ :=
  let d := { d with data1 := c₁.computeGradients (hd x) (hd u) d.data1 }
  let d := { d with data2 := c₂.computeGradients (tl x) (tl u) d.data2 }
  let d := { d with Lx := setHd d.Lx (c₁.base d.data1).Lx }
  let d := { d with Lx := setTl d.Lx (c₂.base d.data2).Lx }
  let d := { d with Lu := setHd d.Lu (c₁.base d.data1).Lu }
  { d with Lu := setTl d.Lu (c₂.base d.data2).Lu }

/-- `computeHessians` (modelling/costs/cost-direct-sum.hpp:93-119). -/
def sumHessians (x : Vec (a₁ + a₂)) (u : Vec (m₁ + m₂)) (d : DData c₁ c₂) : DData c₁ c₂ :=
  let d := { d with data1 := c₁.computeHessians (hd x) (hd u) d.data1 }
  let d := { d with data2 := c₂.computeHessians (tl x) (tl u) d.data2 }
  let d := { d with Lxx := setTL d.Lxx (c₁.base d.data1).Lxx }
  let d := { d with Lxx := setBR d.Lxx (c₂.base d.data2).Lxx }
  let d := { d with Luu := setTL d.Luu (c₁.base d.data1).Luu }
  let d := { d with Luu := setBR d.Luu (c₂.base d.data2).Luu }
  let d := { d with Lxu := setTL d.Lxu (c₁.base d.data1).Lxu }
  let d := { d with Lxu := setBR d.Lxu (c₂.base d.data2).Lxu }
  { d with Lux := d.Lxuᵀ }

/-- Calls of a client. -/
inductive CCall (a m : ℕ)
  | value (x : Vec a) (u : Vec m)
  | grad (x : Vec a) (u : Vec m)
  | hess (x : Vec a) (u : Vec m)

/-- One call on a cost. -/
def Cost.call (c : Cost a n m) (d : c.Data) : CCall a m → c.Data
  | .value x u => c.evaluate x u d
  | .grad x u => c.computeGradients x u d
  | .hess x u => c.computeHessians x u d

/-- The direct sum as a cost. -/
def directSum : Cost (a₁ + a₂) (n₁ + n₂) (m₁ + m₂) where
  Data := DData c₁ c₂
  base d := d.toCData
  evaluate := sumEvaluate c₁ c₂
  computeGradients := sumGradients c₁ c₂
  computeHessians := sumHessians c₁ c₂

/-! ### Direct sums of dynamics -/

/-- `ExplicitDynamicsDataTpl` (core/explicit-dynamics.hpp:64-122): next state and Jacobians. -/
structure EData (a n m : ℕ) where
  xnext : Vec a
  Jx : Mat n n
  Ju : Mat n m

/-- Explicit dynamics (core/explicit-dynamics.hpp:21-60), on one state space. -/
structure Dyn (a n m : ℕ) where
  Data : Type
  base : Data → EData a n m
  forward : Vec a → Vec m → Data → Data
  dForward : Vec a → Vec m → Data → Data

/-- The data of a direct sum (modelling/explicit-dynamics-direct-sum.hxx:19-24). -/
structure DDData (f : Dyn a₁ n₁ m₁) (g : Dyn a₂ n₂ m₂) extends EData (a₁ + a₂) (n₁ + n₂) (m₁ + m₂) where
  data1 : f.Data
  data2 : g.Data

variable (f : Dyn a₁ n₁ m₁) (g : Dyn a₂ n₂ m₂)

/-- New data (modelling/explicit-dynamics-direct-sum.hxx:19-24, core/explicit-dynamics.hpp:68-84, 106-110): zero Jacobians,
the neutral state. -/
def DDData.new (neutral : Vec (a₁ + a₂)) (d1 : f.Data) (d2 : g.Data) : DDData f g := ⟨⟨neutral, 0, 0⟩, d1, d2⟩

/-- `forward` (modelling/explicit-dynamics-direct-sum.hxx:26-41). -/
def sumForward (x : Vec (a₁ + a₂)) (u : Vec (m₁ + m₂)) (d : DDData f g) : DDData f g :=
  let d := { d with data1 := f.forward (hd x) (hd u) d.data1 }
  let d := { d with data2 := g.forward (tl x) (tl u) d.data2 }
  let d := { d with xnext := setHd d.xnext (f.base d.data1).xnext }
  { d with xnext := setTl d.xnext (g.base d.data2).xnext }

/-- `dForward` (modelling/explicit-dynamics-direct-sum.hxx:43-71). -/
def sumDForward (x : Vec (a₁ + a₂)) (u : Vec (m₁ + m₂)) (d : DDData f g) : DDData f g :=
  let d := { d with data1 := f.dForward (hd x) (hd u) d.data1 }
  let d := { d with data2 := g.dForward (tl x) (tl u) d.data2 }
  let d := { d with Jx := setTL d.Jx (f.base d.data1).Jx }
  let d := { d with Jx := setBR d.Jx (g.base d.data2).Jx }
  let d := { d with Ju := setTL d.Ju (f.base d.data1).Ju }
  { d with Ju := setBR d.Ju (g.base d.data2).Ju }

/-- The direct sum as dynamics. -/
def directSumDyn : Dyn (a₁ + a₂) (n₁ + n₂) (m₁ + m₂) where
  Data := DDData f g
  base d := d.toEData
  forward := sumForward f g
  dForward := sumDForward f g

/-- Calls of a client. -/
inductive DCall (a m : ℕ)
  | forward (x : Vec a) (u : Vec m)
  | dForward (x : Vec a) (u : Vec m)

/-- One call. -/
def Dyn.call (f : Dyn a n m) (d : f.Data) : DCall a m → f.Data
  | .forward x u => f.forward x u d
  | .dForward x u => f.dForward x u d

end Aligator.Wrap
