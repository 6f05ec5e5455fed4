import Mathlib.LinearAlgebra.Matrix.Symmetric
import Mathlib.LinearAlgebra.Matrix.NonsingularInverse
import Mathlib.Data.Matrix.Block
import Mathlib.Data.Matrix.ColumnRowPartitioned
import Mathlib.Logic.Equiv.Fin.Basic

/-!
# Model of linear-quadratic problems

Models `include/aligator/gar/lqr-problem.hpp` / `.hxx`.

Scalars are elements of an arbitrary field (`double` rounding is not modelled).  The dimensions of a
knot are indices of its type; the code stores them in the object and relies (by `assert`s of Eigen) on
matching dimensions of consecutive knots: this precondition is built into the type `Chain`.
-/

namespace Aligator.Gar

/-- Column vectors `VectorXs`. -/
abbrev Vec (𝕜 : Type*) (n : ℕ) := Fin n → 𝕜

/-- Dense matrices `MatrixXs`. -/
abbrev Mat (𝕜 : Type*) (m n : ℕ) := Matrix (Fin m) (Fin n) 𝕜

/-- `LqrKnotTpl` (gar/lqr-problem.hpp:34-103): one stage of a LQ problem, dimensions
`nx, nu, nc, nx2` and parameter dimension `nth`. -/
structure Knot (𝕜 : Type*) (nth nx nu nc nx2 : ℕ) where
  Q : Mat 𝕜 nx nx
  S : Mat 𝕜 nx nu
  R : Mat 𝕜 nu nu
  q : Vec 𝕜 nx
  r : Vec 𝕜 nu
  A : Mat 𝕜 nx2 nx
  B : Mat 𝕜 nx2 nu
  f : Vec 𝕜 nx2
  C : Mat 𝕜 nc nx
  D : Mat 𝕜 nc nu
  d : Vec 𝕜 nc
  Gth : Mat 𝕜 nth nth
  Gx : Mat 𝕜 nx nth
  Gu : Mat 𝕜 nu nth
  Gv : Mat 𝕜 nc nth
  gamma : Vec 𝕜 nth

/-- `LqrKnotTpl(nx, nu, nc, nx2, nth)` constructor (gar/lqr-problem.hxx:28-72): all blocks zero. -/
def Knot.zero (𝕜 : Type*) [Zero 𝕜] (nth nx nu nc nx2 : ℕ) : Knot 𝕜 nth nx nu nc nx2 where
  Q := 0
  S := 0
  R := 0
  q := 0
  r := 0
  A := 0
  B := 0
  f := 0
  C := 0
  D := 0
  d := 0
  Gth := 0
  Gx := 0
  Gu := 0
  Gv := 0
  gamma := 0

/-- `LqrKnotTpl::addParameterization` (gar/lqr-problem.hxx:231-240): sets the parameter dimension and
resets every parametric block to zero (previous parametric data is lost). -/
def Knot.addParameterization {𝕜 : Type*} [Zero 𝕜] {nth nx nu nc nx2 : ℕ}
    (k : Knot 𝕜 nth nx nu nc nx2) (nth' : ℕ) : Knot 𝕜 nth' nx nu nc nx2 where
  Q := k.Q
  S := k.S
  R := k.R
  q := k.q
  r := k.r
  A := k.A
  B := k.B
  f := k.f
  C := k.C
  D := k.D
  d := k.d
  Gth := 0
  Gx := 0
  Gu := 0
  Gv := 0
  gamma := 0

/-- A non-empty sequence of knots (`boost::span<const KnotType> stages`), indexed by the state
dimension of its first knot.  `last` is the terminal knot (its `A, B, f` are not part of the problem);
`cons k tl` is a stage followed by the rest, whose first state dimension is `k`'s `nx2`. -/
inductive Chain (𝕜 : Type*) (nth : ℕ) : ℕ → Type _
  | last {nx nu nc nx2 : ℕ} (k : Knot 𝕜 nth nx nu nc nx2) : Chain 𝕜 nth nx
  | cons {nx nu nc nx2 : ℕ} (k : Knot 𝕜 nth nx nu nc nx2) (tl : Chain 𝕜 nth nx2) : Chain 𝕜 nth nx

/-- `LqrProblemTpl` (gar/lqr-problem.hpp:105-195): knots plus the initial condition `G0 x0 + g0 = 0`. -/
structure Problem (𝕜 : Type*) (nth nc0 nx : ℕ) where
  G0 : Mat 𝕜 nc0 nx
  g0 : Vec 𝕜 nc0
  stages : Chain 𝕜 nth nx

/-- `horizon()` (gar/lqr-problem.hpp:115). -/
def Chain.horizon {𝕜 : Type*} {nth : ℕ} : {nx : ℕ} → Chain 𝕜 nth nx → ℕ
  | _, .last _ => 0
  | _, .cons _ tl => tl.horizon + 1

/-- State, control and constraint multiplier of one knot (`xs[t]`, `us[t]`, `vs[t]`). -/
structure Node (𝕜 : Type*) (nx nu nc : ℕ) where
  x : Vec 𝕜 nx
  u : Vec 𝕜 nu
  v : Vec 𝕜 nc

/-- A primal-dual trajectory over a chain: the node values `xs[t], us[t], vs[t]` of every knot and,
between two knots, the costate `lbdas[t+1]` of the dynamics constraint linking them. -/
inductive Traj {𝕜 : Type*} {nth : ℕ} : {nx : ℕ} → Chain 𝕜 nth nx → Type _
  | last {nx nu nc nx2 : ℕ} {k : Knot 𝕜 nth nx nu nc nx2} (n : Node 𝕜 nx nu nc) : Traj (.last k)
  | cons {nx nu nc nx2 : ℕ} {k : Knot 𝕜 nth nx nu nc nx2} {tl : Chain 𝕜 nth nx2}
      (n : Node 𝕜 nx nu nc) (lam : Vec 𝕜 nx2) (t : Traj tl) : Traj (.cons k tl)

/-- First state of a trajectory. -/
def Traj.x0 {𝕜 : Type*} {nth : ℕ} : {nx : ℕ} → {ch : Chain 𝕜 nth nx} → Traj ch → Vec 𝕜 nx
  | _, _, .last n => n.x
  | _, _, .cons n _ _ => n.x

end Aligator.Gar
