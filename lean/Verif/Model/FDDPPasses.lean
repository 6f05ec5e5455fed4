import Verif.Model.FDDP
import Mathlib.Data.Matrix.Mul
import Mathlib.LinearAlgebra.Matrix.PosDef

/-!
# Model: backward pass, forward pass and line search of FDDP

`Verif.Model.FDDP` takes gaps, gradients and line search as arbitrary functions; here they are filled in.  Exact real
arithmetic, no NaN; the callbacks do not raise.  All nodes have tangent spaces of one dimension: the code calls the space of a stage
on points of the next node (solvers/fddp/solver-fddp.hxx:101, :183).
-/

namespace Aligator.FDDP

open Matrix Linesearch

/-- `ManifoldAbstract::integrate` and `difference` (core/manifold-base.hpp:62-63, :78-79). -/
structure Space (X : Type) (n : ℕ) where
  integrate : X → (Fin n → ℝ) → X
  difference : X → X → Fin n → ℝ

/-- What `computeDerivatives` leaves in the problem data (core/cost-abstract.hpp:81-92, core/explicit-dynamics.hpp:87-94). -/
structure Deriv (n : ℕ) (m : ℕ → ℕ) where
  lx : ℕ → Fin n → ℝ
  lu : ∀ i, Fin (m i) → ℝ
  lxx : ℕ → Matrix (Fin n) (Fin n) ℝ
  lxu : ∀ i, Matrix (Fin n) (Fin (m i)) ℝ
  luu : ∀ i, Matrix (Fin (m i)) (Fin (m i)) ℝ
  fx : ℕ → Matrix (Fin n) (Fin n) ℝ
  fu : ∀ i, Matrix (Fin n) (Fin (m i)) ℝ
  lNx : Fin n → ℝ
  lNxx : Matrix (Fin n) (Fin n) ℝ

/-- `results_.xs, us`. -/
@[ext] structure Iterate (X : Type) (U : ℕ → Type) where
  x : ℕ → X
  u : ∀ i, U i

/-- A problem (core/traj-opt-problem.hpp:102-127, core/stage-model.hpp:40-56): `space i`, `next i` are `xspace` and `xspace_next` of
stage `i`, `term` the space of the terminal cost; `vec i` is the vector that represents a control; the terminal cost has a control
argument of dimension `nuT`. -/
structure Problem (X : Type) (U : ℕ → Type) (n : ℕ) (m : ℕ → ℕ) where
  space : ℕ → Space X n
  next : ℕ → Space X n
  term : Space X n
  uint : ∀ i, U i → (Fin (m i) → ℝ) → U i
  vec : ∀ i, U i → List ℝ
  x0 : X
  f : ∀ i, X → U i → X
  l : ∀ i, X → U i → ℝ
  lN : X → List ℝ → ℝ
  nuT : ℕ
  deriv : Iterate X U → Deriv n m

variable {X : Type} {U : ℕ → Type} {n : ℕ} {m : ℕ → ℕ}

/-- Cost of `TrajOptProblemTpl::evaluate` (core/traj-opt-problem.hxx:64-82, core/traj-opt-data.hxx:31-47): the terminal cost gets a zero control
(core/traj-opt-problem.hxx:22-25, :74). -/
def evaluate (P : Problem X U n m) (N : ℕ) (it : Iterate X U) : ℝ :=
  (List.range N).foldl (fun s i => s + P.l i (it.x i) (it.u i)) 0 + P.lN (it.x N) (List.replicate P.nuT 0)

/-- `dyn_slacks` of `computeInfeasibility` (solvers/fddp/solver-fddp.hxx:175-184). -/
def gaps (P : Problem X U n m) (it : Iterate X U) : ℕ → Fin n → ℝ
  | 0 => (P.space 0).difference (it.x 0) P.x0
  | i + 1 => (P.space i).difference (it.x (i + 1)) (P.f i (it.x i) (it.u i))

/-! ### Backward pass -/

/-- `value_params[i]` and `ftVxx_[i]` (solvers/value-function.hpp:16-22). -/
structure VP (n : ℕ) where
  Vx : Fin n → ℝ
  Vxx : Matrix (Fin n) (Fin n) ℝ
  ft : Fin n → ℝ

/-- `q_params[i]`, the gains and `Quuks_[i]` (solvers/value-function.hpp:53-66). -/
structure QP (n m : ℕ) where
  Qx : Fin n → ℝ
  Qu : Fin m → ℝ
  Qxx : Matrix (Fin n) (Fin n) ℝ
  Qxu : Matrix (Fin n) (Fin m) ℝ
  Quu : Matrix (Fin m) (Fin m) ℝ
  k : Fin m → ℝ
  K : Matrix (Fin m) (Fin n) ℝ
  Quuk : Fin m → ℝ

/-- Regularisation of the Hessian and shift of the gradient by the gap (solvers/fddp/solver-fddp.hxx:218-221, :273-276). -/
def close (preg : ℝ) (g : Fin n → ℝ) (H : Matrix (Fin n) (Fin n) ℝ) (f : Fin n → ℝ) : VP n :=
  let Vxx := H + preg • (1 : Matrix (Fin n) (Fin n) ℝ)
  let ft := Vxx *ᵥ f
  ⟨g + ft, Vxx, ft⟩

/-- `selfadjointView<Lower>` (solvers/fddp/solver-fddp.hxx:272). -/
def lower (M : Matrix (Fin n) (Fin n) ℝ) : Matrix (Fin n) (Fin n) ℝ := Matrix.of fun a b => if b ≤ a then M a b else M b a

/-- A solver for the gains: `llt.compute(A)` and `solveInPlace` of one column (solvers/fddp/solver-fddp.hxx:260-262).  The result of
`compute` is not checked, so nothing is known unless the matrix is positive definite. -/
abbrev LLT := ∀ m : ℕ, Matrix (Fin m) (Fin m) ℝ → (Fin m → ℝ) → Fin m → ℝ

/-- One pass of the loop up to the gains (solvers/fddp/solver-fddp.hxx:238-264). -/
def qfun (llt : LLT) (D : Deriv n m) (preg : ℝ) (i : ℕ) (v : VP n) : QP n (m i) :=
  let Qu := D.lu i + (D.fu i)ᵀ *ᵥ v.Vx
  let Qxu := D.lxu i + (D.fx i)ᵀ * v.Vxx * D.fu i
  let Quu := D.luu i + (D.fu i)ᵀ * v.Vxx * D.fu i + preg • (1 : Matrix (Fin (m i)) (Fin (m i)) ℝ)
  let k := llt (m i) Quu (-Qu)
  { Qx := D.lx i + (D.fx i)ᵀ *ᵥ v.Vx
    Qu := Qu
    Qxx := D.lxx i + (D.fx i)ᵀ * v.Vxx * D.fx i
    Qxu := Qxu
    Quu := Quu
    k := k
    K := Matrix.of fun a b => llt (m i) Quu (fun c => -Qxu b c) a
    Quuk := Quu *ᵥ k }

/-- The rest of the pass (solvers/fddp/solver-fddp.hxx:266-276). -/
def vfun {mi : ℕ} (preg : ℝ) (q : QP n mi) (f : Fin n → ℝ) : VP n :=
  close preg (q.Qx + q.Kᵀ *ᵥ q.Qu) (lower (q.Qxx + q.Qxu * q.K)) f

/-- `value_params[N - j]` after `backwardPass` (solvers/fddp/solver-fddp.hxx:203-280). -/
def valueRev (llt : LLT) (D : Deriv n m) (preg : ℝ) (N : ℕ) (f : ℕ → Fin n → ℝ) : ℕ → VP n
  | 0 => close preg D.lNx D.lNxx (f N)
  | j + 1 => vfun preg (qfun llt D preg (N - (j + 1)) (valueRev llt D preg N f j)) (f (N - (j + 1)))

/-- `value_params[i]`. -/
def value (llt : LLT) (D : Deriv n m) (preg : ℝ) (N : ℕ) (f : ℕ → Fin n → ℝ) (i : ℕ) : VP n := valueRev llt D preg N f (N - i)

/-- `q_params[i]` and the gains. -/
def qpar (llt : LLT) (D : Deriv n m) (preg : ℝ) (N : ℕ) (f : ℕ → Fin n → ℝ) (i : ℕ) : QP n (m i) :=
  qfun llt D preg i (value llt D preg N f (i + 1))

/-! ### Forward pass -/

/-- `results.getFeedforward`, `getFeedback`. -/
structure Gains (n : ℕ) (m : ℕ → ℕ) where
  k : ∀ i, Fin (m i) → ℝ
  K : ∀ i, Matrix (Fin (m i)) (Fin n) ℝ

/-- New control (solvers/fddp/solver-fddp.hxx:84-86). -/
def newControl (P : Problem X U n m) (it : Iterate X U) (g : Gains n m) (a : ℝ) (i : ℕ) (dx : Fin n → ℝ) : U i :=
  P.uint i (it.u i) (a • g.k i + g.K i *ᵥ dx)

/-- `xs_try[i]` and `dxs[i]` in the loop of `forwardPass` (solvers/fddp/solver-fddp.hxx:70-102). -/
def roll (P : Problem X U n m) (it : Iterate X U) (g : Gains n m) (f : ℕ → Fin n → ℝ) (a : ℝ) : ℕ → X × (Fin n → ℝ)
  | 0 => ((P.space 0).integrate (it.x 0) (a • f 0), a • f 0)
  | i + 1 =>
    let p := roll P it g f a i
    let y := (P.next i).integrate (P.f i p.1 (newControl P it g a i p.2)) ((a - 1) • f (i + 1))
    (y, (P.space i).difference (it.x (i + 1)) y)

/-- The trial trajectory (solvers/fddp/solver-fddp.hxx:65-66). -/
def trial (P : Problem X U n m) (it : Iterate X U) (g : Gains n m) (f : ℕ → Fin n → ℝ) (a : ℝ) : Iterate X U where
  x i := (roll P it g f a i).1
  u i := newControl P it g a i (roll P it g f a i).2

/-- `dxs` after `forwardPass`; the last one is computed again, in the space of the terminal cost
(solvers/fddp/solver-fddp.hxx:113-114). -/
def devs (P : Problem X U n m) (N : ℕ) (it : Iterate X U) (g : Gains n m) (f : ℕ → Fin n → ℝ) (a : ℝ) (i : ℕ) : Fin n → ℝ :=
  if i = N then P.term.difference (it.x N) (roll P it g f a N).1 else (roll P it g f a i).2

/-- The value of `forwardPass` (solvers/fddp/solver-fddp.hxx:58-119): the terminal cost gets the last control (:109).  At least one
stage. -/
def trialCost (P : Problem X U n m) (N : ℕ) (t : Iterate X U) : ℝ :=
  (List.range N).foldl (fun s i => s + P.l i (t.x i) (t.u i)) 0 + P.lN (t.x N) (P.vec (N - 1) (t.u (N - 1)))

/-! ### Line search -/

/-- What the backward pass leaves for the line search: gaps, values, Q-functions. -/
structure Pass (n : ℕ) (m : ℕ → ℕ) where
  f : ℕ → Fin n → ℝ
  v : ℕ → VP n
  q : ∀ i, QP n (m i)

/-- `acceptGains` (solvers/fddp/solver-fddp.hpp:144-149). -/
def Pass.gains (b : Pass n m) : Gains n m := ⟨fun i => (b.q i).k, fun i => (b.q i).K⟩

/-- `computeInfeasibility` and `backwardPass` at an iterate (solvers/fddp/solver-fddp.hxx:333-338). -/
def pass (llt : LLT) (P : Problem X U n m) (N : ℕ) (preg : ℝ) (it : Iterate X U) : Pass n m :=
  let D := P.deriv it
  let f := gaps P it
  ⟨f, value llt D preg N f, qpar llt D preg N f⟩

/-- `dg_` of `updateExpectedImprovement` (solvers/fddp/solver-fddp.hxx:151-163). -/
def Pass.dg (b : Pass n m) (N : ℕ) : ℝ :=
  (List.range (N + 1)).foldl (fun s i => s + (b.v i).Vx ⬝ᵥ b.f i)
    ((List.range N).foldl (fun s i => s + (b.q i).Qu ⬝ᵥ (b.q i).k) 0)

/-- `dq_` of `updateExpectedImprovement` (solvers/fddp/solver-fddp.hxx:151-163). -/
def Pass.dq (b : Pass n m) (N : ℕ) : ℝ :=
  (List.range (N + 1)).foldl (fun s i => s - (b.v i).ft ⬝ᵥ b.f i)
    ((List.range N).foldl (fun s i => s + (b.q i).k ⬝ᵥ (b.q i).Quuk) 0)

/-- `dv_` of `expectedImprovement` (solvers/fddp/solver-fddp.hxx:125-132). -/
def Pass.dv (b : Pass n m) (N : ℕ) (dx : ℕ → Fin n → ℝ) : ℝ :=
  (List.range (N + 1)).foldl (fun s i => s - dx i ⬝ᵥ (b.v i).ft) 0

/-- `d1` of `expectedImprovement` (solvers/fddp/solver-fddp.hxx:134). -/
def Pass.d1 (b : Pass n m) (N : ℕ) (dx : ℕ → Fin n → ℝ) : ℝ := b.dg N + b.dv N dx

/-- `d2` of `expectedImprovement` (solvers/fddp/solver-fddp.hxx:135). -/
def Pass.d2 (b : Pass n m) (N : ℕ) (dx : ℕ → Fin n → ℝ) : ℝ := b.dq N - 2 * b.dv N dx

/-- `ls_model` (solvers/fddp/solver-fddp.hxx:322-325). -/
noncomputable def Pass.model (b : Pass n m) (N : ℕ) (phi0 a : ℝ) (dx : ℕ → Fin n → ℝ) : ℝ :=
  phi0 + a * (b.d1 N dx + 0.5 * b.d2 N dx * a)

/-- Constants of the line search: options (solvers/fddp/solver-fddp.hxx:26), machine epsilon, thresholds
(solvers/fddp/linesearch.hpp:20). -/
structure LSParams where
  o : Options
  eps : ℝ
  thAccept : ℝ
  thAcceptNeg : ℝ

open Classical in
/-- `fddp_goldstein_linesearch` (solvers/fddp/linesearch.hpp:17-55) for functions that do not raise; `last` is the step of the last
call of `phi`, which the workspace is left at.  Result: returned step, `last`, whether the test passed. -/
noncomputable def searchLoop (p : LSParams) (thGrad phi0 : ℝ) (phi : ℝ → ℝ) (model : ℝ → ℝ × ℝ) :
    ℕ → ℝ → ℝ → Option (ℝ × ℝ × Bool)
  | 0, _, _ => none
  | n + 1, a, last =>
    if a < p.o.alphaMin + p.eps then some (a, last, false)
    else
      let dVmodel := (model a).1 - phi0
      if (dVmodel < 0 ∧ (|(model a).2| < thGrad ∨ phi a - phi0 ≤ p.thAccept * dVmodel)) ∨
          (¬ dVmodel < 0 ∧ phi a - phi0 ≤ p.thAcceptNeg * dVmodel) then some (a, a, true)
      else searchLoop p thGrad phi0 phi model n (max (a * p.o.contractionMin) p.o.alphaMin) a

/-- Steps and acceptance in one iteration (solvers/fddp/solver-fddp.hxx:349-374).  The first trial is evaluated when
`alpha_min + eps ≤ 1`; otherwise the code would return what the workspace holds. -/
noncomputable def search (llt : LLT) (p : LSParams) (thGrad : ℝ) (fuel : ℕ) (P : Problem X U n m) (N : ℕ) (it : Iterate X U)
    (preg phi0 : ℝ) : Option (Step (Iterate X U)) :=
  let b := pass llt P N preg it
  let t := trial P it b.gains b.f
  let dx := devs P N it b.gains b.f
  (searchLoop p thGrad phi0 (fun a => trialCost P N (t a)) (fun a => (b.model N phi0 a (dx a), b.d1 N (dx a))) fuel 1 1).map
    fun r => ⟨r.1, trialCost P N (t r.2.1), t r.2.1, b.d1 N (dx r.2.1)⟩

/-- Largest absolute value of the entries (math.hpp:149-166). -/
noncomputable def norm {k : ℕ} (v : Fin k → ℝ) : Fl := .fin ((List.ofFn v).foldr (fun a s => max |a| s) 0)

/-- The environment of the loop for a problem (solvers/fddp/solver-fddp.hxx:167-201, :331-374). -/
noncomputable def problemEnv (llt : LLT) (p : LSParams) (thGrad : ℝ) (fuel : ℕ) (P : Problem X U n m) (N : ℕ) : Env (Iterate X U) where
  gaps it := (List.range (N + 1)).map fun i => norm (gaps P it i)
  grads it preg := (List.range N).map fun i => norm ((pass llt P N preg it).q i).Qu
  search := search llt p thGrad fuel P N

/-- `run` (solvers/fddp/solver-fddp.hxx:282-399) from a stored initial guess. -/
noncomputable def runProblem (llt : LLT) (par : Params) (p : LSParams) (fuel : ℕ) (P : Problem X U n m) (N : ℕ) (it : Iterate X U)
    (prim dual : Fl) : Out (Iterate X U) :=
  run par (problemEnv llt p par.thGrad fuel P N) it (.fin (evaluate P N it)) prim dual

end Aligator.FDDP
