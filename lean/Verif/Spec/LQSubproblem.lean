import Verif.Spec.Lagrangian
import Verif.Spec.ConstraintSets

/-!
# Specification: Newton steps on the proximal optimality conditions, stationary points
-/

namespace Aligator.LQ.Spec

open Matrix Lag.Spec

/-- A primal-dual step: states, controls, multipliers of the initial condition, of the dynamics, of the constraints. -/
structure Step (nx nu : ℕ → ℕ) (nc0 : ℕ) where
  dx : ∀ i, Fin (nx i) → ℝ
  du : ∀ i, Fin (nu i) → ℝ
  dlam0 : Fin nc0 → ℝ
  dlam : ∀ i, Fin (nx (i + 1)) → ℝ
  dv : ℕ → List ℝ

/-- A block-diagonal symmetric curvature. -/
structure Curv (nx nu : ℕ → ℕ) (N : ℕ) where
  Q : ∀ i, Matrix (Fin (nx i)) (Fin (nx i)) ℝ
  S : ∀ i, Matrix (Fin (nx i)) (Fin (nu i)) ℝ
  R : ∀ i, Matrix (Fin (nu i)) (Fin (nu i)) ℝ
  QN : Matrix (Fin (nx N)) (Fin (nx N)) ℝ

variable {nx nu : ℕ → ℕ} {N : ℕ}

/-- The bilinear form of a curvature. -/
def Curv.form (H : Curv nx nu N) (ex : ∀ i, Fin (nx i) → ℝ) (eu : ∀ i, Fin (nu i) → ℝ)
    (dx : ∀ i, Fin (nx i) → ℝ) (du : ∀ i, Fin (nu i) → ℝ) : ℝ :=
  (∑ i ∈ Finset.range N, (ex i ⬝ᵥ (H.Q i *ᵥ dx i + H.S i *ᵥ du i) + eu i ⬝ᵥ ((H.S i)ᵀ *ᵥ dx i + H.R i *ᵥ du i))) +
    ex N ⬝ᵥ H.QN *ᵥ dx N

/-- Sum of two lists. -/
def ladd (v w : List ℝ) : List ℝ := List.zipWith (· + ·) v w

/-- With the updated multipliers, the gradient of the Lagrangian is minus the curvature times the step: the Newton equation of
stationarity. -/
def NewtonStationarity (P : Problem nx nu N) (H : Curv nx nu N) (x : ∀ i, Fin (nx i) → ℝ) (u : ∀ i, Fin (nu i) → ℝ)
    (lam0 : Fin P.nc0 → ℝ) (lam : ∀ i, Fin (nx (i + 1)) → ℝ) (v : ℕ → List ℝ) (s : Step nx nu P.nc0) : Prop :=
  ∀ (ex : ∀ i, Fin (nx i) → ℝ) (eu : ∀ i, Fin (nu i) → ℝ), HasDerivAt (fun t : ℝ => lagrangian P (lam0 + s.dlam0) (fun i => lam i + s.dlam i) (fun i => ladd (v i) (s.dv i))
    (fun i => x i + t • ex i) (fun i => u i + t • eu i)) (-H.form ex eu s.dx s.du) 0

/-- The step cancels the errors of the dynamics to first order. -/
def NewtonDynamics (P : Problem nx nu N) (x : ∀ i, Fin (nx i) → ℝ) (u : ∀ i, Fin (nu i) → ℝ)
    (s : Step nx nu P.nc0) : Prop :=
  ∀ i, i < N → HasDerivAt (fun t : ℝ => P.f i (x i + t • s.dx i) (u i + t • s.du i) - (x (i + 1) + t • s.dx (i + 1)))
    (-(P.f i (x i) (u i) - x (i + 1))) 0

/-- The step cancels the error of the initial condition to first order. -/
def NewtonInit (P : Problem nx nu N) (x : ∀ i, Fin (nx i) → ℝ) (s : Step nx nu P.nc0) : Prop :=
  HasDerivAt (fun t : ℝ => P.h (x 0 + t • s.dx 0)) (-P.h (x 0)) 0

/-- The stacked constraint values of stage `i`; stage `N` has the terminal constraints. -/
def cstr (P : Problem nx nu N) (x : ∀ i, Fin (nx i) → ℝ) (u : ∀ i, Fin (nu i) → ℝ) (i : ℕ) : List ℝ :=
  if i < N then stack (P.c i) (x i) (u i) else stack P.cN (x N) 0

/-- The step cancels the residual `Π(c(x, u) + mu v_prev) - mu v` to first order. -/
def NewtonConstraints (P : Problem nx nu N) (nc : ℕ → ℕ) (Pi : ℕ → List ℝ → List ℝ) (mu : ℝ) (vPrev v : ℕ → List ℝ)
    (x : ∀ i, Fin (nx i) → ℝ) (u : ∀ i, Fin (nu i) → ℝ) (s : Step nx nu P.nc0) : Prop :=
  ∀ i, i ≤ N → ∀ k, k < nc i → HasDerivAt (fun t : ℝ =>
      (Pi i (List.zipWith (· + ·) (cstr P (fun i => x i + t • s.dx i) (fun i => u i + t • s.du i) i)
        ((vPrev i).map (mu * ·)))).getD k 0 - mu * ((v i).getD k 0 + t * (s.dv i).getD k 0))
    (-((Pi i (List.zipWith (· + ·) (cstr P x u i) ((vPrev i).map (mu * ·)))).getD k 0 - mu * (v i).getD k 0)) 0

/-- The same, with one element of the generalised derivative of the projection in the place of its derivative: `act i k` says
whether the slope along coordinate `k` is 1 or 0.  After the step the multiplier is the linearised projection over `mu`. -/
def SemismoothConstraints (P : Problem nx nu N) (nc : ℕ → ℕ) (Pi : ℕ → List ℝ → List ℝ) (act : ℕ → ℕ → Bool) (mu : ℝ)
    (vPrev v : ℕ → List ℝ) (x : ∀ i, Fin (nx i) → ℝ) (u : ∀ i, Fin (nu i) → ℝ) (s : Step nx nu P.nc0) : Prop :=
  ∀ i, i ≤ N → ∀ k, k < nc i → ∀ D : ℝ,
    HasDerivAt (fun t : ℝ => (cstr P (fun i => x i + t • s.dx i) (fun i => u i + t • s.du i) i).getD k 0) D 0 →
    (Pi i (List.zipWith (· + ·) (cstr P x u i) ((vPrev i).map (mu * ·)))).getD k 0 + (if act i k then D else 0) =
      mu * ((v i).getD k 0 + (s.dv i).getD k 0)

/-- The Lagrangian is stationary at `(x, u)`. -/
def Stationary (P : Problem nx nu N) (lam0 : Fin P.nc0 → ℝ) (lam : ∀ i, Fin (nx (i + 1)) → ℝ) (v : ℕ → List ℝ)
    (x : ∀ i, Fin (nx i) → ℝ) (u : ∀ i, Fin (nu i) → ℝ) : Prop :=
  ∀ (ex : ∀ i, Fin (nx i) → ℝ) (eu : ∀ i, Fin (nu i) → ℝ), HasDerivAt (fun t : ℝ => lagrangian P lam0 lam v (fun i => x i + t • ex i) (fun i => u i + t • eu i)) 0 0

/-- First-order optimality conditions of the proximal problem, in which the constraint `c(x, u) ∈ C` is replaced by
`c(x, u) + mu (v_prev - v) ∈ C` with `v` in the normal cone there. -/
structure ProximalKKT (P : Problem nx nu N) (C : ℕ → List ℝ → Prop) (nc : ℕ → ℕ) (mu : ℝ) (vPrev : ℕ → List ℝ)
    (lam0 : Fin P.nc0 → ℝ) (lam : ∀ i, Fin (nx (i + 1)) → ℝ) (v : ℕ → List ℝ)
    (x : ∀ i, Fin (nx i) → ℝ) (u : ∀ i, Fin (nu i) → ℝ) : Prop where
  stationary : Stationary P lam0 lam v x u
  init : P.h (x 0) = 0
  dynamics : ∀ i, i < N → P.f i (x i) (u i) = x (i + 1)
  constraints : ∀ i, i ≤ N → CSets.Spec.InNormalCone (C i) (nc i)
    (CSets.Spec.sub (List.zipWith (· + ·) (cstr P x u i) ((vPrev i).map (mu * ·))) ((v i).map (mu * ·))) (v i)

end Aligator.LQ.Spec
