import Verif.Model.ManifoldIntegrators
import Verif.Spec.Integrators

/-!
# Specification: laws of manifolds and ODEs, and the step maps of the integrators
-/

namespace Aligator.MInteg.Spec

open Matrix Aligator.Deriv Aligator.MInteg
open Integ (Vec Mat)
open Integ.Spec (hcat)

variable {a b n m p : ℕ} {σ : Type}

/-- The laws of a manifold on its points `pt`; `near` are the pairs at which the difference is smooth (on rotation groups: not
antipodal).  Jacobians are derivatives along steps, of both arguments together. -/
structure Lawful (S : Space a n) (pt : Vec a → Prop) (near : Vec a → Vec a → Prop) : Prop where
  point : ∀ x v, pt x → pt (S.integrate x v)
  integrate_zero : ∀ x, pt x → S.integrate x 0 = x
  difference_self : ∀ x, pt x → S.difference x x = 0
  integrate_difference : ∀ x y, pt x → pt y → S.integrate x (S.difference x y) = y
  retract : ∀ x, pt x → IsJacobian (fun w : Vec n => S.difference x (S.integrate x w)) 1 0
  integrate_jac : ∀ x v, pt x →
    IsJacobian (fun z : Vec (n + n) => S.difference (S.integrate x v) (S.integrate (S.integrate x (fst z)) (v + snd z)))
      (hcat (S.Jint0 x v) (S.Jint1 x v)) 0
  difference_jac : ∀ x y, pt x → pt y → near x y →
    IsJacobian (fun z : Vec (n + n) => S.difference (S.integrate x (fst z)) (S.integrate y (snd z)))
      (hcat (S.Jdiff0 x y) (S.Jdiff1 x y)) 0
  transport : ∀ {k : ℕ} (x : Vec a) (v : Vec n) (J : Mat n k), pt x → S.transport x v J = S.Jint1 x v * J

/-- The last coordinates are a velocity: they form a vector space, apart from the others. -/
structure VelocityLast (S : Space (b + p) (p + p)) : Prop where
  integrate : ∀ x v, tl (S.integrate x v) = tl x + tl v
  Jint0 : ∀ x v, tl (S.Jint0 x v) = fun i => Fin.append 0 (Pi.single i 1)
  transport : ∀ {k : ℕ} (x : Vec (b + p)) (v : Vec (p + p)) (J : Mat (p + p) k), tl (S.transport x v J) = tl J

/-- An ODE computes the vector field `f` and, after a call of `forward` at the same point, its derivatives along steps.
`Inv` is what its data satisfy at all times, `ready` what they satisfy after `forward` at a point. -/
structure Computes (S : Space a n) (pt : Vec a → Prop) (o : ODE a n m σ) (f : Vec a → Vec m → Vec n) (Inv : σ → Prop)
    (ready : σ → Vec a → Vec m → Prop) : Prop where
  keep : ∀ x u d, Inv d → Inv (o.forward x u d)
  keepJ : ∀ x u d, Inv d → Inv (o.dForward x u d)
  readyF : ∀ x u d, pt x → Inv d → ready (o.forward x u d) x u
  readyJ : ∀ x u d, ready d x u → ready (o.dForward x u d) x u
  value : ∀ x u d, pt x → Inv d → o.xdot (o.forward x u d) = f x u
  jac : ∀ x u d, pt x → Inv d → ready d x u →
    IsJacobian (fun z : Vec (n + m) => f (S.integrate x (fst z)) (u + snd z))
      (hcat (o.Jx (o.dForward x u d)) (o.Ju (o.dForward x u d))) 0

/-- Implicit dynamics compute `g` and its derivatives, likewise; overwriting `Jx_` does no harm. -/
structure ComputesDAE (S : Space a n) (pt : Vec a → Prop) (o : DAE a n m σ) (g : Vec a → Vec m → Vec n → Vec n)
    (Inv : σ → Prop) (ready : σ → Vec a → Vec m → Vec n → Prop) : Prop where
  keep : ∀ x u v d, Inv d → Inv (o.evaluate x u v d)
  keepJ : ∀ x u v d, Inv d → Inv (o.computeJacobians x u v d)
  keepS : ∀ d J, Inv d → Inv (o.setJx d J)
  readyF : ∀ x u v d, pt x → Inv d → ready (o.evaluate x u v d) x u v
  readyJ : ∀ x u v d, ready d x u v → ready (o.computeJacobians x u v d) x u v
  readyS : ∀ x u v d J, ready d x u v → ready (o.setJx d J) x u v
  value : ∀ x u v d, pt x → Inv d → o.value (o.evaluate x u v d) = g x u v
  jac : ∀ x u v d, pt x → Inv d → ready d x u v → let e := o.computeJacobians x u v d
    IsJacobian (fun z : Vec (n + m + n) => g (S.integrate x (fst (fst z))) (u + snd (fst z)) (v + snd z))
      (hcat (hcat (o.Jx e) (o.Ju e)) (o.Jxdot e)) 0
  Jx_set : ∀ d J, o.Jx (o.setJx d J) = J
  Ju_set : ∀ d J, o.Ju (o.setJx d J) = o.Ju d
  Jxdot_set : ∀ d J, o.Jxdot (o.setJx d J) = o.Jxdot d

/-- `(A, B)` are the derivatives of a step map at `(x, u)`, along steps at `x` and at its value. -/
def IsStepJacobian (S : Space a n) (F : Vec a → Vec m → Vec a) (A : Mat n n) (B : Mat n m) (x : Vec a) (u : Vec m) : Prop :=
  IsJacobian (fun z : Vec (n + m) => S.difference (F x u) (F (S.integrate x (fst z)) (u + snd z))) (hcat A B) 0

/-- The step of explicit Euler. -/
def eulerStep (S : Space a n) (f : Vec a → Vec m → Vec n) (h : ℝ) (x : Vec a) (u : Vec m) : Vec a :=
  S.integrate x (h • f x u)

/-- The step of semi-implicit Euler: the new velocity, and the step with it. -/
def semiStep (S : Space (b + p) (p + p)) (f : Vec (b + p) → Vec m → Vec (p + p)) (h : ℝ) (x : Vec (b + p)) (u : Vec m) :
    Vec (b + p) :=
  S.integrate x (Fin.append (h • (tl x + h • tl (f x u))) (h • tl (f x u)))

/-- The step of the explicit midpoint method (modelling/dynamics/integrator-rk2.hpp:12-18). -/
noncomputable def rk2Step (S : Space a n) (f : Vec a → Vec m → Vec n) (h : ℝ) (x : Vec a) (u : Vec m) : Vec a :=
  S.integrate x (h • f (S.integrate x ((h / 2) • f x u)) u)

/-- The residual of the implicit midpoint rule. -/
noncomputable def midResidual (S : Space a n) (g : Vec a → Vec m → Vec n → Vec n) (h : ℝ) (x : Vec a) (u : Vec m) (y : Vec a) :
    Vec n :=
  h • g (S.integrate x ((1 / 2 : ℝ) • S.difference x y)) u (h⁻¹ • S.difference x y)

/-- The derivatives of the residual at `(x, u, y)`, along steps. -/
def IsMidJacobian (S : Space a n) (g : Vec a → Vec m → Vec n → Vec n) (h : ℝ) (A : Mat n n) (B : Mat n m) (C : Mat n n)
    (x : Vec a) (u : Vec m) (y : Vec a) : Prop :=
  IsJacobian (fun z : Vec (n + m + n) => midResidual S g h (S.integrate x (fst (fst z))) (u + snd (fst z))
    (S.integrate y (snd z))) (hcat (hcat A B) C) 0

end Aligator.MInteg.Spec
