import Mathlib.Analysis.Calculus.Deriv.Basic
import Mathlib.Data.Matrix.Mul

/-!
# Specification: an optimal control problem in Euclidean spaces, its Lagrangian
-/

namespace Aligator.Lag.Spec

open Matrix

/-- A constraint function of a stage, with the Jacobians that its callback returned at the current point. -/
structure CFun (nx nu : ℕ) where
  dim : ℕ
  g : (Fin nx → ℝ) → (Fin nu → ℝ) → Fin dim → ℝ
  Jx : Matrix (Fin dim) (Fin nx) ℝ
  Ju : Matrix (Fin dim) (Fin nu) ℝ

/-- An optimal control problem with `N` stages, with the derivatives that the callbacks returned at the current trajectory. -/
structure Problem (nx nu : ℕ → ℕ) (N : ℕ) where
  nc0 : ℕ
  h : (Fin (nx 0) → ℝ) → Fin nc0 → ℝ
  hx : Matrix (Fin nc0) (Fin (nx 0)) ℝ
  l : ∀ i, (Fin (nx i) → ℝ) → (Fin (nu i) → ℝ) → ℝ
  lx : ∀ i, Fin (nx i) → ℝ
  lu : ∀ i, Fin (nu i) → ℝ
  f : ∀ i, (Fin (nx i) → ℝ) → (Fin (nu i) → ℝ) → Fin (nx (i + 1)) → ℝ
  fx : ∀ i, Matrix (Fin (nx (i + 1))) (Fin (nx i)) ℝ
  fu : ∀ i, Matrix (Fin (nx (i + 1))) (Fin (nu i)) ℝ
  c : ∀ i, List (CFun (nx i) (nu i))
  lN : (Fin (nx N) → ℝ) → ℝ
  lNx : Fin (nx N) → ℝ
  cN : List (CFun (nx N) 0)

variable {nx nu : ℕ → ℕ} {N : ℕ}

/-- The stacked constraint values. -/
def stack {nx nu : ℕ} (cs : List (CFun nx nu)) (x : Fin nx → ℝ) (u : Fin nu → ℝ) : List ℝ :=
  cs.flatMap fun c => List.ofFn (c.g x u)

/-- Inner product of two lists. -/
def ldot (a b : List ℝ) : ℝ := (List.zipWith (· * ·) a b).sum

/-- Total cost of a trajectory. -/
def cost (P : Problem nx nu N) (x : ∀ i, Fin (nx i) → ℝ) (u : ∀ i, Fin (nu i) → ℝ) : ℝ :=
  (∑ i ∈ Finset.range N, P.l i (x i) (u i)) + P.lN (x N)

/-- The Lagrangian: cost, plus multipliers times constraint values; the dynamics constraint is `f(x_i, u_i) - x_{i+1}`. -/
def lagrangian (P : Problem nx nu N) (lam0 : Fin P.nc0 → ℝ) (lam : ∀ i, Fin (nx (i + 1)) → ℝ) (v : ℕ → List ℝ)
    (x : ∀ i, Fin (nx i) → ℝ) (u : ∀ i, Fin (nu i) → ℝ) : ℝ :=
  cost P x u + lam0 ⬝ᵥ P.h (x 0) +
    (∑ i ∈ Finset.range N, (lam i ⬝ᵥ (P.f i (x i) (u i) - x (i + 1)) + ldot (v i) (stack (P.c i) (x i) (u i)))) +
    ldot (v N) (stack P.cN (x N) 0)

/-- The Lagrangian without the multipliers of the initial condition and of the dynamics. -/
def lagrangianNoDyn (P : Problem nx nu N) (v : ℕ → List ℝ)
    (x : ∀ i, Fin (nx i) → ℝ) (u : ∀ i, Fin (nu i) → ℝ) : ℝ :=
  cost P x u + (∑ i ∈ Finset.range N, ldot (v i) (stack (P.c i) (x i) (u i))) + ldot (v N) (stack P.cN (x N) 0)

/-- `D` is the derivative at `0` of the function `F` of `t`, along the direction `(dx, du)`: directional derivative of a function
of a state and a control. -/
def HasDir {n m : ℕ} {E : Type*} [NormedAddCommGroup E] [NormedSpace ℝ E]
    (F : (Fin n → ℝ) → (Fin m → ℝ) → E) (x : Fin n → ℝ) (u : Fin m → ℝ) (dx : Fin n → ℝ) (du : Fin m → ℝ) (D : E) : Prop :=
  HasDerivAt (fun t : ℝ => F (x + t • dx) (u + t • du)) D 0

/-- The Jacobians of a constraint are right at `(x, u)`. -/
def CFun.Right {n m : ℕ} (c : CFun n m) (x : Fin n → ℝ) (u : Fin m → ℝ) : Prop :=
  ∀ dx du, HasDir c.g x u dx du (c.Jx *ᵥ dx + c.Ju *ᵥ du)

/-- The derivatives are right at the trajectory `(x, u)`. -/
structure Problem.Right (P : Problem nx nu N) (x : ∀ i, Fin (nx i) → ℝ) (u : ∀ i, Fin (nu i) → ℝ) : Prop where
  h : ∀ dx, HasDerivAt (fun t : ℝ => P.h (x 0 + t • dx)) (P.hx *ᵥ dx) 0
  l : ∀ i, i < N → ∀ dx du, HasDir (P.l i) (x i) (u i) dx du (P.lx i ⬝ᵥ dx + P.lu i ⬝ᵥ du)
  f : ∀ i, i < N → ∀ dx du, HasDir (P.f i) (x i) (u i) dx du (P.fx i *ᵥ dx + P.fu i *ᵥ du)
  c : ∀ i, i < N → ∀ c ∈ P.c i, c.Right (x i) (u i)
  lN : ∀ dx, HasDerivAt (fun t : ℝ => P.lN (x N + t • dx)) (P.lNx ⬝ᵥ dx) 0
  cN : ∀ c ∈ P.cN, c.Right (x N) 0

end Aligator.Lag.Spec
