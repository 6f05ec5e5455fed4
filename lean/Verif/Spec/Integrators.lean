import Verif.Model.Integrators
import Verif.Spec.Derivatives

/-!
# Specification: differentiable vector fields, and the step maps of the integrators
-/

namespace Aligator.Integ.Spec

open Matrix Aligator.Deriv

variable {n m p : ℕ}

/-- Two matrices side by side. -/
def hcat {k n m : ℕ} (A : Mat k n) (B : Mat k m) : Mat k (n + m) := fun i => Fin.append (A i) (B i)

/-- `(A, B)` are the Jacobians of `F` at `(x, u)`. -/
def IsJacobian₂ {k : ℕ} (F : Vec n → Vec m → Vec k) (A : Mat k n) (B : Mat k m) (x : Vec n) (u : Vec m) : Prop :=
  IsJacobian (stacked F) (hcat A B) (Fin.append x u)

/-- An ODE object computes the vector field `f` and its derivatives, on data that satisfy a condition on the Jacobian
buffers which every call maintains. -/
structure Computes (o : ODE n m) (f : Vec n → Vec m → Vec n) (Inv : Mat n n → Mat n m → Prop) : Prop where
  value : ∀ x u d, Inv d.Jx d.Ju → (o.forward x u d).xdot = f x u
  keep : ∀ x u d, Inv d.Jx d.Ju → Inv (o.forward x u d).Jx (o.forward x u d).Ju
  jac : ∀ x u d, Inv d.Jx d.Ju → IsJacobian₂ f (o.dForward x u d).Jx (o.dForward x u d).Ju x u
  keepJ : ∀ x u d, Inv d.Jx d.Ju → Inv (o.dForward x u d).Jx (o.dForward x u d).Ju

/-- The step of explicit Euler. -/
def eulerStep (f : Vec n → Vec m → Vec n) (h : ℝ) (x : Vec n) (u : Vec m) : Vec n := x + h • f x u

/-- The step of semi-implicit Euler: first the velocities, then the positions with the new velocities. -/
def semiStep (f : Vec (p + p) → Vec m → Vec (p + p)) (h : ℝ) (x : Vec (p + p)) (u : Vec m) : Vec (p + p) :=
  let v := bot x + h • bot (f x u)
  Fin.append (top x + h • v) v

/-- The step of the explicit midpoint method (RK2). -/
noncomputable def rk2Step (f : Vec n → Vec m → Vec n) (h : ℝ) (x : Vec n) (u : Vec m) : Vec n :=
  x + h • f (x + (h / 2) • f x u) u

/-- A DAE object computes `g` and its three Jacobians. -/
structure ComputesDAE (o : DAE n m) (g : Vec n → Vec m → Vec n → Vec n) (Inv : Mat n n → Mat n m → Prop) : Prop where
  value : ∀ x u v d, Inv d.Jx d.Ju → (o.evaluate x u v d).value = g x u v
  keep : ∀ x u v d, Inv d.Jx d.Ju → Inv (o.evaluate x u v d).Jx (o.evaluate x u v d).Ju
  jac : ∀ x u v d, Inv d.Jx d.Ju → let e := o.computeJacobians x u v d
    IsJacobian (fun z : Fin (n + m + n) → ℝ => g (fst (fst z)) (snd (fst z)) (snd z)) (hcat (hcat e.Jx e.Ju) e.Jxdot)
      (Fin.append (Fin.append x u) v)
  keepJ : ∀ x u v d, Inv d.Jx d.Ju → Inv (o.computeJacobians x u v d).Jx (o.computeJacobians x u v d).Ju

/-- The residual of the implicit midpoint rule. -/
noncomputable def midResidual (g : Vec n → Vec m → Vec n → Vec n) (h : ℝ) (x : Vec n) (u : Vec m) (y : Vec n) : Vec n :=
  h • g ((1 / 2 : ℝ) • (x + y)) u (h⁻¹ • (y - x))

end Aligator.Integ.Spec
