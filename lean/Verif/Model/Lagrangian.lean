import Verif.Model.ConstraintSets
import Mathlib.Data.Matrix.Mul

/-!
# Model: Lagrangian gradient and merit function

Exact real arithmetic; the NaN checks are not modelled.  The state and control spaces are vector spaces: `integrate` is `x + dx`
and `difference(x', y)` is `y - x'`.  The stages have arbitrary, different dimensions `nx i`, `nu i`.
-/

namespace Aligator.Lag

open Matrix CSets

/-- Jacobians of one constraint of a stage (`StageFunctionData`: core/function-abstract.hpp). -/
structure CstrData (nx nu : ℕ) where
  dim : ℕ
  Jx : Matrix (Fin dim) (Fin nx) ℝ
  Ju : Matrix (Fin dim) (Fin nu) ℝ

/-- The part of the problem data read by `LagrangianDerivatives::compute`.  The terminal constraints have no control. -/
structure ProbData (nx nu : ℕ → ℕ) (N : ℕ) where
  nc0 : ℕ
  initJx : Matrix (Fin nc0) (Fin (nx 0)) ℝ
  Lx : ∀ i, Fin (nx i) → ℝ
  Lu : ∀ i, Fin (nu i) → ℝ
  fx : ∀ i, Matrix (Fin (nx (i + 1))) (Fin (nx i)) ℝ
  fu : ∀ i, Matrix (Fin (nx (i + 1))) (Fin (nu i)) ℝ
  cstr : ∀ i, List (CstrData (nx i) (nu i))
  termLx : Fin (nx N) → ℝ
  termCstr : List (CstrData (nx N) 0)

variable {nx nu : ℕ → ℕ} {N : ℕ}

/-- The multipliers of the initial condition and of the dynamics; absent when the argument `lams` is empty. -/
structure Lams (nx : ℕ → ℕ) (nc0 : ℕ) where
  init : Fin nc0 → ℝ
  dyn : ∀ i, Fin (nx (i + 1)) → ℝ

/-- The gradient arrays. -/
structure Grad (nx nu : ℕ → ℕ) where
  Lxs : ∀ i, Fin (nx i) → ℝ
  Lus : ∀ i, Fin (nu i) → ℝ

/-- `Lxs[i] += v`. -/
def Grad.addX (g : Grad nx nu) (i : ℕ) (v : Fin (nx i) → ℝ) : Grad nx nu :=
  { g with Lxs := Function.update g.Lxs i (g.Lxs i + v) }

/-- `Lus[i] += v`. -/
def Grad.addU (g : Grad nx nu) (i : ℕ) (v : Fin (nu i) → ℝ) : Grad nx nu :=
  { g with Lus := Function.update g.Lus i (g.Lus i + v) }

/-- `Lxs[i] = v`. -/
def Grad.setX (g : Grad nx nu) (i : ℕ) (v : Fin (nx i) → ℝ) : Grad nx nu :=
  { g with Lxs := Function.update g.Lxs i v }

/-- `Lus[i] = v`. -/
def Grad.setU (g : Grad nx nu) (i : ℕ) (v : Fin (nu i) → ℝ) : Grad nx nu :=
  { g with Lus := Function.update g.Lus i v }

/-- `v_[j]` of the block view `v_`: the slice that starts at `start`. -/
def slice (v : List ℝ) (start dim : ℕ) : Fin dim → ℝ := fun k => v.getD (start + k) 0

/-- The loop over the constraints of a stage (core/lagrangian.hpp:67-72). -/
def cstrLoop (i : ℕ) (v : List ℝ) : List (CstrData (nx i) (nu i)) → ℕ → Grad nx nu → Grad nx nu
  | [], _, g => g
  | c :: cs, start, g =>
    cstrLoop i v cs (start + c.dim)
      ((g.addX i (c.Jxᵀ *ᵥ slice v start c.dim)).addU i (c.Juᵀ *ᵥ slice v start c.dim))

/-- The loop over the terminal constraints (core/lagrangian.hpp:86-90). -/
def termLoop (N : ℕ) (v : List ℝ) : List (CstrData (nx N) 0) → ℕ → Grad nx nu → Grad nx nu
  | [], _, g => g
  | c :: cs, start, g => termLoop N v cs (start + c.dim) (g.addX N (c.Jxᵀ *ᵥ slice v start c.dim))

/-- The body of the loop over the stages (core/lagrangian.hpp:55-79). -/
def stageStep (pd : ProbData nx nu N) (lams : Option (Lams nx pd.nc0)) (vs : ℕ → List ℝ) (g : Grad nx nu) (i : ℕ) :
    Grad nx nu :=
  let g := (g.addX i (pd.Lx i)).setU i (pd.Lu i)
  let g := match lams with
    | some l => (g.addX i ((pd.fx i)ᵀ *ᵥ l.dyn i)).addU i ((pd.fu i)ᵀ *ᵥ l.dyn i)
    | none => g
  let g := cstrLoop i (vs i) (pd.cstr i) 0 g
  match lams with
    | some l => g.setX (i + 1) (-l.dyn i)
    | none => g.setX (i + 1) 0

/-- `LagrangianDerivatives::compute` (core/lagrangian.hpp:28-92). -/
def compute (pd : ProbData nx nu N) (lams : Option (Lams nx pd.nc0)) (vs : ℕ → List ℝ) : Grad nx nu :=
  let g : Grad nx nu := ⟨fun _ => 0, fun _ => 0⟩
  let g := match lams with
    | some l => g.setX 0 (pd.initJxᵀ *ᵥ l.init)
    | none => g
  let g := (List.range N).foldl (stageStep pd lams vs) g
  termLoop N (vs N) pd.termCstr 0 (g.addX N pd.termLx)

/-! ## Merit function -/

/-- The values read by `computeMultipliers` and `ALFunction::evaluate` at one trajectory: constraint values `c i` (stacked),
dynamics errors, initial-condition value, total cost. -/
structure Values (nx : ℕ → ℕ) (nc0 : ℕ) where
  cost : ℝ
  init : Fin nc0 → ℝ
  gap : ∀ i, Fin (nx (i + 1)) → ℝ
  c : ℕ → List ℝ

/-- `lams_plus` of `computeMultipliers` (solvers/proxddp/solver-proxddp.hxx:243-250, :264-266). -/
noncomputable def lamsPlus {nc0 : ℕ} (mu muDyn : ℝ) (lams : Lams nx nc0) (V : Values nx nc0) : Lams nx nc0 :=
  { init := fun k => lams.init k + V.init k / mu
    dyn := fun i k => lams.dyn i k + V.gap i k / muDyn }

/-- `vs_plus` of `computeMultipliers` (solvers/proxddp/solver-proxddp.hxx:271-286, :302-310).  For the terminal constraints
the code guards with `!term_cstrs_.empty()`; without terminal constraints the list is empty. -/
noncomputable def vsPlus {nc0 : ℕ} (op : ℕ → CSet) (mu : ℝ) (vPrev vs out : ℕ → List ℝ) (V : Values nx nc0) (i : ℕ) : List ℝ :=
  (multiplierStep (op i) mu (V.c i) (vPrev i) (vs i) (out i) []).vsPlus

/-- `squaredNorm` of a list. -/
def sqNorm (v : List ℝ) : ℝ := (v.map fun a => a * a).sum

/-- `ALFunction::evaluate` (solvers/proxddp/merit-function.hxx:31-64), with multipliers.  (In the solver `lams_plus` is never
empty.)  The terminal term is guarded by `!term_cstrs_.empty()`; an empty list contributes zero. -/
noncomputable def meritEvaluate {nc0 : ℕ} (muDyn mu : ℝ) (N : ℕ) (cost : ℝ) (l : Lams nx nc0) (v : ℕ → List ℝ) : ℝ :=
  let pen := 1 / 2 * (mu * (l.init ⬝ᵥ l.init))
  let pen := (List.range N).foldl (fun pen i =>
    pen + 1 / 2 * (muDyn * (l.dyn i ⬝ᵥ l.dyn i)) + 1 / 2 * (mu * sqNorm (v i))) pen
  cost + (pen + 1 / 2 * (mu * sqNorm (v N)))

/-- `ALFunction::directionalDerivative` (solvers/proxddp/merit-function.hxx:66-105). -/
def directionalDerivative (pd : ProbData nx nu N) (lPlus : Lams nx pd.nc0) (vPlus : ℕ → List ℝ)
    (dxs : ∀ i, Fin (nx i) → ℝ) (dus : ∀ i, Fin (nu i) → ℝ) : ℝ :=
  let g := compute pd (some lPlus) vPlus
  (List.range N).foldl (fun d i => d + g.Lxs (i + 1) ⬝ᵥ dxs (i + 1) + g.Lus i ⬝ᵥ dus i) (g.Lxs 0 ⬝ᵥ dxs 0)

end Aligator.Lag
