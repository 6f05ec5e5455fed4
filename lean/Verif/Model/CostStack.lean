import Mathlib.Data.Matrix.Basic
import Mathlib.Algebra.Field.Defs

/-!
# Model: weighted sums of costs

Scalars are elements of a field (exact arithmetic).  A hash table is the list of its entries; the order in which it is
iterated is an argument of the functions that iterate.
-/

namespace Aligator.Costs

open Matrix

/-- `CostKey` (modelling/costs/sum-of-costs.hpp:30). -/
abbrev Key := ℕ ⊕ String

/-- The data of a cost (core/cost-abstract.hpp:72-112): value, gradient, Hessian, and what a derived class adds (`D`).
`n` is `ndx + nu`. -/
structure Data (K : Type) (n : ℕ) (D : Type) where
  value : K
  grad : Fin n → K
  hess : Matrix (Fin n) (Fin n) K
  priv : D

/-- A cost (core/cost-abstract.hpp:13-48): dimensions, the three virtual functions as transformations of the data, and
the data they start from.  Nothing is assumed about the functions.  `z` stands for the pair (x, u). -/
structure Cost (K Z : Type) (n : ℕ) (D : Type) where
  nx : ℕ
  ndx : ℕ
  nu : ℕ
  evaluate : Z → Data K n D → Data K n D
  computeGradients : Z → Data K n D → Data K n D
  computeHessians : Z → Data K n D → Data K n D
  createData : Data K n D

variable {K Z D : Type} {n : ℕ}

/-- `CostItem` under its key (modelling/costs/sum-of-costs.hpp:29-31). -/
structure Item (K Z : Type) (n : ℕ) (D : Type) where
  key : Key
  cost : Cost K Z n D
  weight : K

/-- A cost stack: dimensions and the entries of `components_` (modelling/costs/sum-of-costs.hpp:20-34). -/
structure Stack (K Z : Type) (n : ℕ) (D : Type) where
  nx : ℕ
  ndx : ℕ
  nu : ℕ
  comps : List (Item K Z n D)

/-- `checkDimension` (modelling/costs/sum-of-costs.hxx:38-42). -/
def Stack.checkDimension (s : Stack K Z n D) (c : Cost K Z n D) : Bool :=
  c.nx == s.nx && c.ndx == s.ndx && c.nu == s.nu

/-- `unordered_map::emplace`: nothing happens if the key is present. -/
def emplace (l : List (Item K Z n D)) (i : Item K Z n D) : List (Item K Z n D) :=
  if l.any (fun j => decide (j.key = i.key)) then l else l ++ [i]

/-- `addCost` with a key (modelling/costs/sum-of-costs.hxx:44-55); `none` is the thrown exception. -/
def Stack.addCostKey (s : Stack K Z n D) (key : Key) (c : Cost K Z n D) (w : K) : Option (Stack K Z n D) :=
  if s.checkDimension c then some { s with comps := emplace s.comps ⟨key, c, w⟩ } else none

/-- `addCost` without key (modelling/costs/sum-of-costs.hpp:64-67). -/
def Stack.addCost (s : Stack K Z n D) (c : Cost K Z n D) (w : K) : Option (Stack K Z n D) :=
  s.addCostKey (.inl s.comps.length) c w

/-- `setWeight` (modelling/costs/sum-of-costs.hpp:101-105; the mutable `getWeight` :94-97 gives the same access);
`none` is the exception of `at`. -/
def Stack.setWeight (s : Stack K Z n D) (key : Key) (w : K) : Option (Stack K Z n D) :=
  if s.comps.any (fun j => decide (j.key = key)) then
    some { s with comps := s.comps.map fun j => if j.key = key then { j with weight := w } else j }
  else none

/-- `getWeight` (modelling/costs/sum-of-costs.hpp:87-90). -/
def Stack.getWeight (s : Stack K Z n D) (key : Key) : Option K :=
  (s.comps.find? fun j => decide (j.key = key)).map (·.weight)

/-- Multiplication by a scalar (modelling/costs/sum-of-costs.hpp:154-161). -/
def Stack.scale [Mul K] (s : Stack K Z n D) (c : K) : Stack K Z n D :=
  { s with comps := s.comps.map fun j => { j with weight := j.weight * c } }

/-- The loop of the constructor from vectors (modelling/costs/sum-of-costs.hxx:25-27). -/
def ctorLoop : ℕ → List (Item K Z n D) → List (Cost K Z n D × K) → List (Item K Z n D)
  | _, m, [] => m
  | i, m, c :: cs => ctorLoop (i + 1) (emplace m ⟨.inl i, c.1, c.2⟩) cs

/-- Constructor from vectors (modelling/costs/sum-of-costs.hxx:6-30); `none` is a thrown exception. -/
def Stack.ofVectors (nx ndx nu : ℕ) (cs : List (Cost K Z n D)) (ws : List K) : Option (Stack K Z n D) :=
  if cs.length ≠ ws.length then none
  else if cs.all (fun c => Stack.checkDimension ⟨nx, ndx, nu, ([] : List (Item K Z n D))⟩ c) then
    some ⟨nx, ndx, nu, ctorLoop 0 [] (cs.zip ws)⟩
  else none

/-- Constructor from one cost (modelling/costs/sum-of-costs.hxx:32-36). -/
def Stack.ofCost [One K] (c : Cost K Z n D) : Stack K Z n D := ⟨c.nx, c.ndx, c.nu, [⟨.inl 0, c, 1⟩]⟩

/-- `sub_cost_data`: a missing entry stands for the null pointer that `operator[]` inserts. -/
abbrev Sub (K : Type) (n : ℕ) (D : Type) := Key → Option (Data K n D)

/-- `CostStackData` (modelling/costs/sum-of-costs.hxx:101-107, modelling/costs/sum-of-costs.hpp:163-173). -/
structure StackData (K : Type) (n : ℕ) (D : Type) where
  value : K
  grad : Fin n → K
  hess : Matrix (Fin n) (Fin n) K
  sub : Sub K n D

/-- The constructor of the data, with its loop over the components (modelling/costs/sum-of-costs.hxx:101-107). -/
def Stack.createData [Zero K] (s : Stack K Z n D) : StackData K n D where
  value := 0
  grad := 0
  hess := 0
  sub := s.comps.foldl (fun m i => Function.update m i.key (some i.cost.createData)) fun _ => none

/-- The loop that the three functions share: every component transforms its own data, and `acc` adds the wanted part of
it.  `none` is the dereferenced null pointer. -/
def loop {A : Type} (call : Cost K Z n D → Data K n D → Data K n D) (acc : A → K → Data K n D → A) :
    List (Item K Z n D) → A × Sub K n D → Option (A × Sub K n D)
  | [], p => some p
  | i :: is, (a, m) =>
    match m i.key with
    | none => none
    | some d => loop call acc is (acc a i.weight (call i.cost d), Function.update m i.key (some (call i.cost d)))

/-- `evaluate` (modelling/costs/sum-of-costs.hxx:57-67); `order` is the order in which the table is iterated. -/
def evaluate [Field K] (order : List (Item K Z n D)) (z : Z) (d : StackData K n D) : Option (StackData K n D) :=
  (loop (fun c => c.evaluate z) (fun a w e => a + w * e.value) order (0, d.sub)).map
    fun r => { d with value := r.1, sub := r.2 }

/-- `computeGradients` (modelling/costs/sum-of-costs.hxx:69-79). -/
def computeGradients [Field K] (order : List (Item K Z n D)) (z : Z) (d : StackData K n D) :
    Option (StackData K n D) :=
  (loop (fun c => c.computeGradients z) (fun a w e => a + w • e.grad) order ((0 : Fin n → K), d.sub)).map
    fun r => { d with grad := r.1, sub := r.2 }

/-- `computeHessians` (modelling/costs/sum-of-costs.hxx:81-91). -/
def computeHessians [Field K] (order : List (Item K Z n D)) (z : Z) (d : StackData K n D) :
    Option (StackData K n D) :=
  (loop (fun c => c.computeHessians z) (fun a w e => a + w • e.hess) order
    ((0 : Matrix (Fin n) (Fin n) K), d.sub)).map fun r => { d with hess := r.1, sub := r.2 }

/-- Operations of a client on a stack. -/
inductive Op (K Z : Type) (n : ℕ) (D : Type)
  | add (c : Cost K Z n D) (w : K)
  | addKey (key : Key) (c : Cost K Z n D) (w : K)
  | setWeight (key : Key) (w : K)
  | scale (c : K)

/-- One operation; `none` is a thrown exception. -/
def Stack.step [Mul K] (s : Stack K Z n D) : Op K Z n D → Option (Stack K Z n D)
  | .add c w => s.addCost c w
  | .addKey k c w => s.addCostKey k c w
  | .setWeight k w => s.setWeight k w
  | .scale c => some (s.scale c)

/-- A sequence of operations; an exception leaves the stack as it is and the client goes on. -/
def Stack.run [Mul K] : Stack K Z n D → List (Op K Z n D) → Stack K Z n D
  | s, [] => s
  | s, o :: os => Stack.run ((s.step o).getD s) os

/-- Calls of a client on one data object. -/
inductive Call (Z : Type)
  | value (z : Z)
  | grad (z : Z)
  | hess (z : Z)

/-- One call; every call may see another iteration order. -/
def callStep [Field K] (order : List (Item K Z n D)) (d : StackData K n D) : Call Z → Option (StackData K n D)
  | .value z => evaluate order z d
  | .grad z => computeGradients order z d
  | .hess z => computeHessians order z d

/-- A sequence of calls. -/
def calls [Field K] : List (List (Item K Z n D) × Call Z) → StackData K n D → Option (StackData K n D)
  | [], d => some d
  | (o, c) :: cs, d => (callStep o d c).bind (calls cs)

end Aligator.Costs
