import Verif.Model.Integrators

/-!
# Model: integrators of ordinary differential equations, on manifolds

Points have `a` coordinates, tangent vectors `n`.  The manifold and the ODE are arbitrary; an ODE owns data of any type, from
which results are read.  Real arithmetic, sizes right.
-/

namespace Aligator.MInteg

open Matrix
open Integ (Vec Mat)

variable {a b n m p : ℕ} {σ : Type}

/-- The operations of a manifold the integrators call (core/manifold-base.hpp:64-90): `integrate`, `Jintegrate` for both
arguments, `JintegrateTransport` for the second, `difference`, `Jdifference` for both. -/
structure Space (a n : ℕ) where
  integrate : Vec a → Vec n → Vec a
  Jint0 : Vec a → Vec n → Mat n n
  Jint1 : Vec a → Vec n → Mat n n
  transport : ∀ {k : ℕ}, Vec a → Vec n → Mat n k → Mat n k
  difference : Vec a → Vec a → Vec n
  Jdiff0 : Vec a → Vec a → Mat n n
  Jdiff1 : Vec a → Vec a → Mat n n

/-- The head of a vector with `p` coordinates at the end. -/
def hd {α : Type} (v : Fin (b + p) → α) : Fin b → α := fun i => v (Fin.castAdd p i)

/-- `bottomRows(p)`. -/
def tl {α : Type} (v : Fin (b + p) → α) : Fin p → α := fun i => v (Fin.natAdd b i)

/-- Two matrices on a diagonal. -/
def diag2 (A B : Mat p p) : Mat (p + p) (p + p) :=
  Fin.append (fun i => Fin.append (A i) 0) (fun i => Fin.append 0 (B i))

/-- `TangentBundleTpl` (modelling/spaces/tangent-bundle.hxx:21-82). -/
def bundle (Q : Space b p) : Space (b + p) (p + p) where
  integrate x v := Fin.append (Q.integrate (hd x) (hd v)) (tl x + tl v)
  Jint0 x v := diag2 (Q.Jint0 (hd x) (hd v)) 1
  Jint1 x v := diag2 (Q.Jint1 (hd x) (hd v)) 1
  transport x v J := Fin.append (Q.transport (hd x) (hd v) (hd J)) (tl J)
  difference x y := Fin.append (Q.difference (hd x) (hd y)) (tl y - tl x)
  Jdiff0 x y := diag2 (Q.Jdiff0 (hd x) (hd y)) (-1)
  Jdiff1 x y := diag2 (Q.Jdiff1 (hd x) (hd y)) 1

/-- `VectorSpaceTpl` (core/vector-space.hpp:51-84). -/
def euclid (n : ℕ) : Space n n where
  integrate x v := x + v
  Jint0 _ _ := 1
  Jint1 _ _ := 1
  transport _ _ J := J
  difference x y := y - x
  Jdiff0 _ _ := -1
  Jdiff1 _ _ := 1

/-- An ODE (modelling/dynamics/ode-abstract.hpp:26-32), with the fields of its data the integrators read
(modelling/dynamics/continuous-dynamics-abstract.hpp:64-89). -/
structure ODE (a n m : ℕ) (σ : Type) where
  createData : σ
  forward : Vec a → Vec m → σ → σ
  dForward : Vec a → Vec m → σ → σ
  xdot : σ → Vec n
  Jx : σ → Mat n n
  Ju : σ → Mat n m

/-! ### Explicit integrators -/

/-- The data of the explicit integrators (modelling/dynamics/integrator-explicit.hpp:53-71, core/explicit-dynamics.hpp:64-122,
modelling/dynamics/integrator-rk2.hpp:41-64, modelling/dynamics/integrator-semi-euler.hpp:44-64); each integrator uses some
of the fields. -/
structure IData (a n m : ℕ) (σ : Type) where
  xnext : Vec a
  Jx : Mat n n
  Ju : Mat n m
  Jtmp : Mat n n
  c1 : σ
  dx : Vec n
  c2 : σ
  x1 : Vec a
  dx1 : Vec n
  Jtmp2 : Mat n n
  Jtmpu : Mat n m

/-- The two methods of an explicit integrator. -/
structure Integrator (a n m : ℕ) (σ : Type) where
  forward : Vec a → Vec m → IData a n m σ → IData a n m σ
  dForward : Vec a → Vec m → IData a n m σ → IData a n m σ

/-- Explicit Euler (modelling/dynamics/integrator-euler.hxx:14-41). -/
def euler (S : Space a n) (o : ODE a n m σ) (h : ℝ) : Integrator a n m σ where
  forward x u d :=
    let d := { d with c1 := o.forward x u d.c1 }
    let d := { d with dx := h • o.xdot d.c1 }
    { d with xnext := S.integrate x d.dx }
  dForward x u d :=
    let d := { d with c1 := o.dForward x u d.c1 }
    let d := { d with Jx := h • o.Jx d.c1 }
    let d := { d with Ju := h • o.Ju d.c1 }
    let d := { d with Jx := S.transport x d.dx d.Jx }
    let d := { d with Jtmp := S.Jint0 x d.dx }
    let d := { d with Jx := d.Jx + d.Jtmp }
    { d with Ju := S.transport x d.dx d.Ju }

/-- Semi-implicit Euler (modelling/dynamics/integrator-semi-euler.hxx:18-63): `p` is half the number of tangent coordinates
(even, asserted :14-15), points have at least as many coordinates. -/
def semiEuler (S : Space (b + p) (p + p)) (o : ODE (b + p) (p + p) m σ) (h : ℝ) : Integrator (b + p) (p + p) m σ where
  forward x u d :=
    let d := { d with c1 := o.forward x u d.c1 }
    let d := { d with dx := Integ.setBot d.dx (h • Integ.bot (o.xdot d.c1)) }
    let d := { d with xnext := S.integrate x d.dx }
    let d := { d with dx := Integ.setTop d.dx (h • tl d.xnext) }
    { d with xnext := S.integrate x d.dx }
  dForward x u d :=
    let d := { d with c1 := o.dForward x u d.c1 }
    let d := { d with Jx := h • o.Jx d.c1 }
    let d := { d with Ju := h • o.Ju d.c1 }
    let d := { d with Jx := S.transport x d.dx d.Jx }
    let d := { d with Ju := S.transport x d.dx d.Ju }
    let d := { d with Jtmp := S.Jint0 x d.dx }
    let d := { d with Jx := d.Jx + d.Jtmp }
    let d := { d with Jtmp2 := Integ.setTop d.Jtmp2 (h • Integ.bot d.Jx) }
    let d := { d with Jtmp2 := Integ.setBot d.Jtmp2 (h • Integ.bot (o.Jx d.c1)) }
    let d := { d with Jtmpu := Integ.setTop d.Jtmpu (h • Integ.bot d.Ju) }
    let d := { d with Jtmpu := Integ.setBot d.Jtmpu (h • Integ.bot (o.Ju d.c1)) }
    let d := { d with Jtmp2 := S.transport x d.dx d.Jtmp2 }
    let d := { d with Jtmpu := S.transport x d.dx d.Jtmpu }
    let d := { d with Jtmp2 := d.Jtmp2 + d.Jtmp }
    let d := { d with Jx := Integ.setTop d.Jx (Integ.top d.Jtmp2) }
    { d with Ju := Integ.setTop d.Ju (Integ.top d.Jtmpu) }

/-- The second-order Runge–Kutta integrator (modelling/dynamics/integrator-rk2.hxx:14-63). -/
noncomputable def rk2 (S : Space a n) (o : ODE a n m σ) (h : ℝ) : Integrator a n m σ where
  forward x u d :=
    let d := { d with c1 := o.forward x u d.c1 }
    let h2 := 1 / 2 * h
    let d := { d with dx1 := h2 • o.xdot d.c1 }
    let d := { d with x1 := S.integrate x d.dx1 }
    let d := { d with c2 := o.forward d.x1 u d.c2 }
    let d := { d with dx := h • o.xdot d.c2 }
    { d with xnext := S.integrate x d.dx }
  dForward x u d :=
    let d := { d with c1 := o.dForward x u d.c1 }
    let h2 := 1 / 2 * h
    let d := { d with Jx := h2 • o.Jx d.c1 }
    let d := { d with Ju := h2 • o.Ju d.c1 }
    let d := { d with Jx := S.transport x d.dx1 d.Jx }
    let d := { d with Ju := S.transport x d.dx1 d.Ju }
    let d := { d with Jtmp := S.Jint0 x d.dx1 }
    let d := { d with Jx := d.Jx + d.Jtmp }
    let d := { d with c2 := o.dForward d.x1 u d.c2 }
    let d := { d with Jx := (h • o.Jx d.c2) * d.Jx }
    let d := { d with Ju := (h • o.Jx d.c2) * d.Ju + h • o.Ju d.c2 }
    let d := { d with Jx := S.transport d.x1 d.dx d.Jx }
    let d := { d with Ju := S.transport d.x1 d.dx d.Ju }
    let d := { d with Jtmp := S.Jint0 d.x1 d.dx }
    { d with Jx := d.Jx + d.Jtmp }

/-- Calls of a client. -/
inductive ICall (a m : ℕ)
  | forward (x : Vec a) (u : Vec m)
  | dForward (x : Vec a) (u : Vec m)

/-- One call. -/
def Integrator.call (i : Integrator a n m σ) (d : IData a n m σ) : ICall a m → IData a n m σ
  | .forward x u => i.forward x u d
  | .dForward x u => i.dForward x u d

/-! ### Implicit midpoint -/

/-- Continuous dynamics in implicit form (modelling/dynamics/continuous-dynamics-abstract.hpp:41-57), with the fields of its
data the midpoint rule reads; it overwrites `Jx_`. -/
structure DAE (a n m : ℕ) (σ : Type) where
  evaluate : Vec a → Vec m → Vec n → σ → σ
  computeJacobians : Vec a → Vec m → Vec n → σ → σ
  value : σ → Vec n
  Jx : σ → Mat n n
  setJx : σ → Mat n n → σ
  Ju : σ → Mat n m
  Jxdot : σ → Mat n n

/-- The data of the midpoint rule (modelling/dynamics/integrator-midpoint.hpp:52-81, integrator-abstract.hxx:19-26). -/
structure MData (a n m : ℕ) (σ : Type) where
  value : Vec n
  Jx : Mat n n
  Ju : Mat n m
  Jy : Mat n n
  c : σ
  xdot : Vec n
  x1 : Vec a
  dx1 : Vec n
  Jv0 : Mat n n
  Jv1 : Mat n n
  Jtm0 : Mat n n
  Jtm1 : Mat n n

/-- `evaluate` of the midpoint rule (modelling/dynamics/integrator-midpoint.hxx:20-38). -/
noncomputable def midEvaluate (S : Space a n) (g : DAE a n m σ) (h : ℝ) (x : Vec a) (u : Vec m) (y : Vec a)
    (d : MData a n m σ) : MData a n m σ :=
  let d := { d with xdot := S.difference x y }
  let d := { d with dx1 := (1 / 2 : ℝ) • d.xdot }
  let d := { d with xdot := h⁻¹ • d.xdot }
  let d := { d with x1 := S.integrate x d.dx1 }
  let d := { d with c := g.evaluate d.x1 u d.xdot d.c }
  { d with value := h • g.value d.c }

/-- `computeJacobians` of the midpoint rule (modelling/dynamics/integrator-midpoint.hxx:40-72). -/
noncomputable def midJacobians (S : Space a n) (g : DAE a n m σ) (h : ℝ) (x : Vec a) (u : Vec m) (y : Vec a)
    (d : MData a n m σ) : MData a n m σ :=
  let dx := (2 : ℝ) • d.dx1
  let d := { d with Jv0 := S.Jdiff0 x y }
  let d := { d with Jv1 := S.Jdiff1 x y }
  let d := { d with Jtm0 := S.Jint0 x d.dx1 }
  let d := { d with Jtm1 := S.Jint1 x d.dx1 }
  let d := { d with Jtm0 := d.Jtm0 + (1 / 2 : ℝ) • d.Jtm1 * d.Jv0 }
  let d := { d with Jtm1 := (1 / 2 : ℝ) • d.Jtm1 * d.Jv1 }
  let d := { d with c := g.computeJacobians d.x1 u d.xdot d.c }
  let d := { d with c := g.setJx d.c (S.transport x d.dx1 (g.Jx d.c)) }
  let d := { d with Jx := h • (g.Jx d.c * d.Jtm0) + g.Jxdot d.c * d.Jv0 }
  let d := { d with Ju := h • g.Ju d.c }
  let d := { d with c := g.setJx d.c (S.transport y (-dx) (g.Jx d.c)) }
  { d with Jy := h • (g.Jx d.c * d.Jtm1) + g.Jxdot d.c * d.Jv1 }

/-- Calls of a client. -/
inductive MCall (a m : ℕ)
  | value (x : Vec a) (u : Vec m) (y : Vec a)
  | jac (x : Vec a) (u : Vec m) (y : Vec a)

/-- One call. -/
noncomputable def midCall (S : Space a n) (g : DAE a n m σ) (h : ℝ) (d : MData a n m σ) : MCall a m → MData a n m σ
  | .value x u y => midEvaluate S g h x u y d
  | .jac x u y => midJacobians S g h x u y d

end Aligator.MInteg
