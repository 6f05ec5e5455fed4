import Verif.Model.LqrObjects
import Mathlib.Algebra.BigOperators.Group.Finset.Basic
import Mathlib.Algebra.BigOperators.Ring.Finset

/-!
# Specification: LQ knots and problems as values

A knot is five dimensions and sixteen named blocks; a block is a shape and its coefficients.  What copies, moves,
assignments and comparisons have to do is said block by block, with no reference to the order or the way in which the
code treats them.
-/

namespace Aligator.LqrObj.Spec

open LqrObj

variable {K A : Type}

/-- The sixteen blocks of a knot (gar/lqr-problem.hpp:45-56). -/
inductive Block
  | Q | S | R | q | r | A | B | f | C | D | d | Gth | Gx | Gu | Gv | gamma

/-- The blocks that describe the dependence on the parameter. -/
def Block.parametric : Block → Bool
  | .Gth | .Gx | .Gu | .Gv | .gamma => true
  | _ => false

/-- The block of a given name. -/
def blk (k : Knot K A) : Block → AMat K A
  | .Q => k.Q
  | .S => k.S
  | .R => k.R
  | .q => k.q
  | .r => k.r
  | .A => k.A'
  | .B => k.B
  | .f => k.f
  | .C => k.C
  | .D => k.D
  | .d => k.d
  | .Gth => k.Gth
  | .Gx => k.Gx
  | .Gu => k.Gu
  | .Gv => k.Gv
  | .gamma => k.gamma

/-- Shape of each block in the documented problem (gar/lqr-problem.hpp:16-33): cost in `(x, u)`, dynamics
`x' = A x + B u + f` with `x'` of dimension `nx2`, `nc` constraints, parameter of dimension `nth`. -/
def shape (nx nu nc nx2 nth : ℕ) : Block → ℕ × ℕ
  | .Q => (nx, nx)
  | .S => (nx, nu)
  | .R => (nu, nu)
  | .q => (nx, 1)
  | .r => (nu, 1)
  | .A => (nx2, nx)
  | .B => (nx2, nu)
  | .f => (nx2, 1)
  | .C => (nc, nx)
  | .D => (nc, nu)
  | .d => (nc, 1)
  | .Gth => (nth, nth)
  | .Gx => (nx, nth)
  | .Gu => (nu, nth)
  | .Gv => (nc, nth)
  | .gamma => (nth, 1)

/-- The value of a block: shape and coefficients (`none`: they cannot be read). -/
def val (m : AMat K A) : ℕ × ℕ × Option (List K) := (m.rows, m.cols, m.contents)

/-- A block whose coefficients can be read and written (an empty one always). -/
def Live (m : AMat K A) : Prop := ∃ l, m.contents = some l ∧ l.length = m.rows * m.cols ∧ m.cap = m.rows * m.cols

/-- A knot that holds data of the shapes its dimensions ask for. -/
def Intact (k : Knot K A) : Prop :=
  ∀ b, Live (blk k b) ∧ ((blk k b).rows, (blk k b).cols) = shape k.nx k.nu k.nc k.nx2 k.nth b

/-- A knot that can be assigned to: each block holds data or nothing at all. -/
def Assignable (k : Knot K A) : Prop := ∀ b, (blk k b).data ≠ none ∨ (blk k b).cap = 0

/-- A knot without buffers. -/
def Hollow (k : Knot K A) : Prop := ∀ b, (blk k b).data = none ∧ (blk k b).cap = 0

/-- Same dimensions. -/
def SameDims (k o : Knot K A) : Prop := k.nx = o.nx ∧ k.nu = o.nu ∧ k.nc = o.nc ∧ k.nx2 = o.nx2 ∧ k.nth = o.nth

/-- Two knots with the same value. -/
def SameKnot (k o : Knot K A) : Prop := SameDims k o ∧ ∀ b, val (blk k b) = val (blk o b)

/-- Everything in the knot is on allocator `a`. -/
def OnAlloc (a : A) (k : Knot K A) : Prop := k.alloc = a ∧ ∀ b, (blk k b).alloc = a

/-- Two problems with the same value. -/
def SameProblem (p o : Problem K A) : Prop :=
  val p.G0 = val o.G0 ∧ val p.g0 = val o.g0 ∧ List.Forall₂ SameKnot p.stages o.stages

/-- Everything in the problem is on allocator `a`. -/
def POnAlloc (a : A) (p : Problem K A) : Prop :=
  p.G0.alloc = a ∧ p.g0.alloc = a ∧ p.valloc = a ∧ ∀ k ∈ p.stages, OnAlloc a k

/-- A problem that holds data. -/
def PIntact (p : Problem K A) : Prop :=
  Live p.G0 ∧ Live p.g0 ∧ p.g0.cols = 1 ∧ p.G0.rows = p.g0.rows ∧ ∀ k ∈ p.stages, Intact k

section near
variable [Field K] [LinearOrder K]

/-- Coefficient `i` of a readable block. -/
def coeff (m : AMat K A) (i : ℕ) : K := (m.contents.getD []).getD i 0

/-- Two blocks of one shape are near when the norm of the difference is at most `prec` times the smaller norm
(squares on both sides). -/
def Near (prec : K) (m o : AMat K A) : Prop :=
  let n := m.rows * m.cols
  ∑ i ∈ Finset.range n, (coeff m i - coeff o i) ^ 2 ≤
    prec ^ 2 * min (∑ i ∈ Finset.range n, coeff m i ^ 2) (∑ i ∈ Finset.range n, coeff o i ^ 2)

end near

end Aligator.LqrObj.Spec
