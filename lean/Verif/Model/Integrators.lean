import Mathlib.Data.Matrix.Mul
import Mathlib.Data.Real.Basic
import Mathlib.Data.Fin.Tuple.Basic

/-!
# Model: integrators of ordinary differential equations, on vector spaces

The state space is a vector space (core/vector-space.hpp:22-90): `integrate` adds, `difference` subtracts, the Jacobians of
`integrate` are identities, those of `difference` are minus and plus the identity, and `JintegrateTransport` leaves its
argument.  Other state spaces are not modelled here.  Real arithmetic.
-/

namespace Aligator.Integ

open Matrix

/-- A vector. -/
abbrev Vec (n : ℕ) := Fin n → ℝ

/-- A matrix. -/
abbrev Mat (m n : ℕ) := Matrix (Fin m) (Fin n) ℝ

variable {n m p : ℕ}

/-- `topRows(p)` of a vector or a matrix with `p + p` rows. -/
def top {α : Type} (v : Fin (p + p) → α) : Fin p → α := fun i => v (Fin.castAdd p i)

/-- `bottomRows(p)`. -/
def bot {α : Type} (v : Fin (p + p) → α) : Fin p → α := fun i => v (Fin.natAdd p i)

/-- Writing through `topRows(p)`. -/
def setTop {α : Type} (v : Fin (p + p) → α) (t : Fin p → α) : Fin (p + p) → α := Fin.append t (bot v)

/-- Writing through `bottomRows(p)`. -/
def setBot {α : Type} (v : Fin (p + p) → α) (b : Fin p → α) : Fin (p + p) → α := Fin.append (top v) b

/-- `ContinuousDynamicsDataTpl` (modelling/dynamics/continuous-dynamics-abstract.hpp:64-89). -/
structure CData (n m : ℕ) where
  value : Vec n
  Jx : Mat n n
  Ju : Mat n m
  Jxdot : Mat n n
  xdot : Vec n

/-- An ODE: its two virtual methods (modelling/dynamics/ode-abstract.hpp:26-32). -/
structure ODE (n m : ℕ) where
  forward : Vec n → Vec m → CData n m → CData n m
  dForward : Vec n → Vec m → CData n m → CData n m

/-- Continuous dynamics in implicit form (modelling/dynamics/continuous-dynamics-abstract.hpp:41-57). -/
structure DAE (n m : ℕ) where
  evaluate : Vec n → Vec m → Vec n → CData n m → CData n m
  computeJacobians : Vec n → Vec m → Vec n → CData n m → CData n m

/-- New data (modelling/dynamics/continuous-dynamics-abstract.hxx:20-35). -/
def CData.new : CData n m := ⟨0, 0, 0, -1, 0⟩

/-- An ODE as continuous dynamics (modelling/dynamics/ode-abstract.hxx:12-31). -/
def ODE.toDAE (o : ODE n m) : DAE n m where
  evaluate x u xdot d := let d := o.forward x u d; { d with value := d.xdot - xdot }
  computeJacobians x u _ d := let d := o.dForward x u d; { d with Jxdot := -1 }

/-- `LinearODETpl` (modelling/dynamics/linear-ode.hxx:8-18): `dForward` does nothing. -/
def linearODE (A : Mat n n) (B : Mat n m) (c : Vec n) : ODE n m where
  forward x u d := { d with xdot := A *ᵥ x + B *ᵥ u + c }
  dForward _ _ d := d

/-- `createData` of `LinearODETpl` (modelling/dynamics/linear-ode.hpp:59-64). -/
def linearData (A : Mat n n) (B : Mat n m) : CData n m := { (CData.new : CData n m) with Jx := A, Ju := B }

/-! ### Explicit integrators -/

/-- The data of the explicit integrators (modelling/dynamics/integrator-explicit.hpp:53-71, core/explicit-dynamics.hpp:64-122,
modelling/dynamics/integrator-rk2.hpp:41-64, modelling/dynamics/integrator-semi-euler.hpp:44-64); each integrator uses some
of the fields. -/
structure IData (n m : ℕ) where
  xnext : Vec n
  Jx : Mat n n
  Ju : Mat n m
  Jtmp : Mat n n
  c1 : CData n m
  dx : Vec n
  c2 : CData n m
  x1 : Vec n
  dx1 : Vec n
  Jtmp2 : Mat n n
  Jtmpu : Mat n m

/-- The two methods of an explicit integrator. -/
structure Integrator (n m : ℕ) where
  forward : Vec n → Vec m → IData n m → IData n m
  dForward : Vec n → Vec m → IData n m → IData n m

/-- Explicit Euler (modelling/dynamics/integrator-euler.hxx:14-41). -/
def euler (o : ODE n m) (h : ℝ) : Integrator n m where
  forward x u d :=
    let d := { d with c1 := o.forward x u d.c1 }
    let d := { d with dx := h • d.c1.xdot }
    { d with xnext := x + d.dx }
  dForward x u d :=
    let d := { d with c1 := o.dForward x u d.c1 }
    let d := { d with Jx := h • d.c1.Jx, Ju := h • d.c1.Ju }
    let d := { d with Jtmp := 1 }
    { d with Jx := d.Jx + d.Jtmp }

/-- Semi-implicit Euler (modelling/dynamics/integrator-semi-euler.hxx:18-63), for an even dimension (asserted,
:14-15). -/
def semiEuler (o : ODE (p + p) m) (h : ℝ) : Integrator (p + p) m where
  forward x u d :=
    let d := { d with c1 := o.forward x u d.c1 }
    let d := { d with dx := setBot d.dx (h • bot d.c1.xdot) }
    let d := { d with xnext := x + d.dx }
    let d := { d with dx := setTop d.dx (h • bot d.xnext) }
    { d with xnext := x + d.dx }
  dForward x u d :=
    let d := { d with c1 := o.dForward x u d.c1 }
    let d := { d with Jx := h • d.c1.Jx, Ju := h • d.c1.Ju }
    let d := { d with Jtmp := 1 }
    let d := { d with Jx := d.Jx + d.Jtmp }
    let d := { d with Jtmp2 := setTop d.Jtmp2 (h • bot d.Jx) }
    let d := { d with Jtmp2 := setBot d.Jtmp2 (h • bot d.c1.Jx) }
    let d := { d with Jtmpu := setTop d.Jtmpu (h • bot d.Ju) }
    let d := { d with Jtmpu := setBot d.Jtmpu (h • bot d.c1.Ju) }
    let d := { d with Jtmp2 := d.Jtmp2 + d.Jtmp }
    let d := { d with Jx := setTop d.Jx (top d.Jtmp2) }
    { d with Ju := setTop d.Ju (top d.Jtmpu) }

/-- The second-order Runge–Kutta integrator (modelling/dynamics/integrator-rk2.hxx:14-63). -/
noncomputable def rk2 (o : ODE n m) (h : ℝ) : Integrator n m where
  forward x u d :=
    let d := { d with c1 := o.forward x u d.c1 }
    let h2 := 1 / 2 * h
    let d := { d with dx1 := h2 • d.c1.xdot }
    let d := { d with x1 := x + d.dx1 }
    let d := { d with c2 := o.forward d.x1 u d.c2 }
    let d := { d with dx := h • d.c2.xdot }
    { d with xnext := x + d.dx }
  dForward x u d :=
    let d := { d with c1 := o.dForward x u d.c1 }
    let h2 := 1 / 2 * h
    let d := { d with Jx := h2 • d.c1.Jx, Ju := h2 • d.c1.Ju }
    let d := { d with Jtmp := 1 }
    let d := { d with Jx := d.Jx + d.Jtmp }
    let d := { d with c2 := o.dForward d.x1 u d.c2 }
    let d := { d with Jx := (h • d.c2.Jx) * d.Jx }
    let d := { d with Ju := (h • d.c2.Jx) * d.Ju + h • d.c2.Ju }
    let d := { d with Jtmp := 1 }
    { d with Jx := d.Jx + d.Jtmp }

/-- Calls of a client. -/
inductive ICall (n m : ℕ)
  | forward (x : Vec n) (u : Vec m)
  | dForward (x : Vec n) (u : Vec m)

/-- One call. -/
def Integrator.call (i : Integrator n m) (d : IData n m) : ICall n m → IData n m
  | .forward x u => i.forward x u d
  | .dForward x u => i.dForward x u d

/-! ### Implicit midpoint -/

/-- The data of the midpoint rule (modelling/dynamics/integrator-midpoint.hpp:52-81, integrator-abstract.hxx:19-26). -/
structure MData (n m : ℕ) where
  value : Vec n
  Jx : Mat n n
  Ju : Mat n m
  Jy : Mat n n
  c : CData n m
  xdot : Vec n
  x1 : Vec n
  dx1 : Vec n
  Jv0 : Mat n n
  Jv1 : Mat n n
  Jtm0 : Mat n n
  Jtm1 : Mat n n

/-- The constructor (modelling/dynamics/integrator-midpoint.hxx:9-18): whether it throws. -/
def midpointThrows (h : ℝ) : Prop := h ≤ 0

/-- `evaluate` of the midpoint rule (modelling/dynamics/integrator-midpoint.hxx:20-38). -/
noncomputable def midEvaluate (g : DAE n m) (h : ℝ) (x : Vec n) (u : Vec m) (y : Vec n) (d : MData n m) : MData n m :=
  let d := { d with xdot := y - x }
  let d := { d with dx1 := (1 / 2 : ℝ) • d.xdot }
  let d := { d with xdot := h⁻¹ • d.xdot }
  let d := { d with x1 := x + d.dx1 }
  let d := { d with c := g.evaluate d.x1 u d.xdot d.c }
  { d with value := h • d.c.value }

/-- `computeJacobians` of the midpoint rule (modelling/dynamics/integrator-midpoint.hxx:40-72). -/
noncomputable def midJacobians (g : DAE n m) (h : ℝ) (_ : Vec n) (u : Vec m) (_ : Vec n) (d : MData n m) : MData n m :=
  let d := { d with Jv0 := -1, Jv1 := 1 }
  let d := { d with Jtm0 := 1, Jtm1 := 1 }
  let d := { d with Jtm0 := d.Jtm0 + (1 / 2 : ℝ) • d.Jtm1 * d.Jv0 }
  let d := { d with Jtm1 := (1 / 2 : ℝ) • d.Jtm1 * d.Jv1 }
  let d := { d with c := g.computeJacobians d.x1 u d.xdot d.c }
  let d := { d with Jx := h • (d.c.Jx * d.Jtm0) + d.c.Jxdot * d.Jv0 }
  let d := { d with Ju := h • d.c.Ju }
  { d with Jy := h • (d.c.Jx * d.Jtm1) + d.c.Jxdot * d.Jv1 }

/-- Calls of a client. -/
inductive MCall (n m : ℕ)
  | value (x : Vec n) (u : Vec m) (y : Vec n)
  | jac (x : Vec n) (u : Vec m) (y : Vec n)

/-- One call. -/
noncomputable def midCall (g : DAE n m) (h : ℝ) (d : MData n m) : MCall n m → MData n m
  | .value x u y => midEvaluate g h x u y d
  | .jac x u y => midJacobians g h x u y d

end Aligator.Integ
