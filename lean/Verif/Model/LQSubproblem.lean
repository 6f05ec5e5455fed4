import Verif.Model.Lagrangian
import Verif.Model.Lqr

/-!
# Model: assembly of the linear-quadratic subproblem and stopping criterion of ProxDDP

Exact real arithmetic.  The stages have arbitrary, different dimensions; the code creates the knots with equal state
dimensions (solvers/proxddp/workspace.hxx:49-52) and the assignment of the Jacobians resizes the matrices.  As in
`Verif.Model.ConstraintSets`, vectors and matrices handed to a constraint set are lists (of rows).
-/

namespace Aligator.LQ

open Matrix CSets Lag

/-- Second-order data read by `updateLQSubproblem`: Hessians of the stage and terminal costs, the vector-Hessian products stored
in the data of the dynamics (core/explicit-dynamics.hpp:96-99) and of the initial condition (core/function-abstract.hpp:100-104). -/
structure Hess (nx nu : ℕ → ℕ) (N : ℕ) where
  Lxx : ∀ i, Matrix (Fin (nx i)) (Fin (nx i)) ℝ
  Lxu : ∀ i, Matrix (Fin (nx i)) (Fin (nu i)) ℝ
  Luu : ∀ i, Matrix (Fin (nu i)) (Fin (nu i)) ℝ
  Hxx : ∀ i, Matrix (Fin (nx i)) (Fin (nx i)) ℝ
  Hxu : ∀ i, Matrix (Fin (nx i)) (Fin (nu i)) ℝ
  Huu : ∀ i, Matrix (Fin (nu i)) (Fin (nu i)) ℝ
  termLxx : Matrix (Fin (nx N)) (Fin (nx N)) ℝ
  initHxx : Matrix (Fin (nx 0)) (Fin (nx 0)) ℝ

/-- The rows of the block matrix `jac` after the assignments of its blocks (solvers/proxddp/solver-proxddp.hxx:39-42, :58-60);
that the blocks tile the matrix is C34. -/
def rows {n m : ℕ} (cs : List (CstrData n m)) : List CSets.Vec :=
  cs.flatMap fun c => List.ofFn fun k => List.ofFn (c.Jx k) ++ List.ofFn (c.Ju k)

/-- Number of constraint rows (core/constraint.hpp:75-80). -/
def dim {n m : ℕ} (cs : List (CstrData n m)) : ℕ := (cs.map (·.dim)).sum

/-- `jac.blockCol(0)` (core/blk-matrix.hpp:129-135). -/
def colX (nc n : ℕ) (J : List CSets.Vec) : Matrix (Fin nc) (Fin n) ℝ := Matrix.of fun a b => (J.getD a []).getD b 0

/-- `jac.blockCol(1)` (core/blk-matrix.hpp:129-135). -/
def colU (nc n m : ℕ) (J : List CSets.Vec) : Matrix (Fin nc) (Fin m) ℝ := Matrix.of fun a b => (J.getD a []).getD (n + b) 0

/-- A list as a vector of the given size. -/
def vec (nc : ℕ) (l : List ℝ) : Fin nc → ℝ := fun k => l.getD k 0

/-- What `computeProjectedJacobians` stores for a stage: the block columns of `cstr_proj_jacs` and the two corrections. -/
structure Proj (nc n m : ℕ) where
  C : Matrix (Fin nc) (Fin n) ℝ
  D : Matrix (Fin nc) (Fin m) ℝ
  lx : Fin n → ℝ
  lu : Fin m → ℝ

/-- The body of the loop of `computeProjectedJacobians` (solvers/proxddp/solver-proxddp.hxx:37-52).  The part for the terminal
constraints (:55-68) is the same without controls; it is skipped when there are none, and then its results are empty or zero. -/
def project {n m : ℕ} (op : CSet) (muInv : ℝ) (shifted Lv : CSets.Vec) (cs : List (CstrData n m)) : Proj (dim cs) n m :=
  let jac := rows cs
  let w : Fin (dim cs) → ℝ := fun k => vec (dim cs) Lv k * muInv
  let lx := (colX (dim cs) n jac)ᵀ *ᵥ w
  let lu := (colU (dim cs) n m jac)ᵀ *ᵥ w
  let jac := op.applyNormalConeProjectionJacobian shifted jac
  { C := colX (dim cs) n jac
    D := colU (dim cs) n m jac
    lx := lx - (colX (dim cs) n jac)ᵀ *ᵥ w
    lu := lu - (colU (dim cs) n m jac)ᵀ *ᵥ w }

variable {nx nu : ℕ → ℕ} {N : ℕ}

/-- What the solver holds when it assembles the subproblem: the data of the problem, the gradient (`Lxs`, `Lus`), the slacks of
the dynamics `dyn_slacks[i + 1]` and of the initial condition (`init_data->value_`), `Lvs`, `shifted_constraints`, the product
sets, and the parameters. -/
structure Input (nx nu : ℕ → ℕ) (N : ℕ) where
  pd : ProbData nx nu N
  hess : Hess nx nu N
  grad : Grad nx nu
  gap : ∀ i, Fin (nx (i + 1)) → ℝ
  init : Fin pd.nc0 → ℝ
  Lvs : ℕ → CSets.Vec
  shifted : ℕ → CSets.Vec
  op : ℕ → CSet
  muInv : ℝ
  preg : ℝ
  exact : Bool

/-- `model.Q += id.Hxx_` on the first knot only (solvers/proxddp/solver-proxddp.hxx:803-804). -/
def initHess (M : Matrix (Fin (nx 0)) (Fin (nx 0)) ℝ) : ∀ i, Matrix (Fin (nx i)) (Fin (nx i)) ℝ
  | 0 => M
  | _ + 1 => 0

/-- One pass of the loop of `updateLQSubproblem` (solvers/proxddp/solver-proxddp.hxx:746-785), with the addition of
lines 803-804. -/
def knot (I : Input nx nu N) (i : ℕ) : Gar.Knot ℝ 0 (nx i) (nu i) (dim (I.pd.cstr i)) (nx (i + 1)) :=
  let pr := project (I.op i) I.muInv (I.shifted i) (I.Lvs i) (I.pd.cstr i)
  { Q := I.hess.Lxx i + I.preg • 1 + (if I.exact then I.hess.Hxx i else 0) + initHess I.hess.initHxx i
    S := I.hess.Lxu i + (if I.exact then I.hess.Hxu i else 0)
    R := I.hess.Luu i + I.preg • 1 + (if I.exact then I.hess.Huu i else 0)
    q := I.grad.Lxs i + pr.lx
    r := I.grad.Lus i + pr.lu
    A := I.pd.fx i
    B := I.pd.fu i
    f := I.gap i
    C := pr.C
    D := pr.D
    d := vec _ (I.Lvs i)
    Gth := 0, Gx := 0, Gu := 0, Gv := 0, gamma := 0 }

/-- The terminal knot (solvers/proxddp/solver-proxddp.hxx:787-797, and :803-804 when it is the first one); no control, no
dynamics (solvers/proxddp/workspace.hxx:54-55). -/
def termKnot (I : Input nx nu N) : Gar.Knot ℝ 0 (nx N) 0 (dim I.pd.termCstr) 0 :=
  let pr := project (I.op N) I.muInv (I.shifted N) (I.Lvs N) I.pd.termCstr
  { Q := I.hess.termLxx + I.preg • 1 + initHess I.hess.initHxx N
    S := 0
    R := 0
    q := I.grad.Lxs N + pr.lx
    r := 0
    A := 0
    B := 0
    f := 0
    C := pr.C
    D := 0
    d := vec _ (I.Lvs N)
    Gth := 0, Gx := 0, Gu := 0, Gv := 0, gamma := 0 }

/-- The knots `0 ≤ i < k` in front of a chain. -/
def build (I : Input nx nu N) : (k : ℕ) → Gar.Chain ℝ 0 (nx k) → Gar.Chain ℝ 0 (nx 0)
  | 0, tl => tl
  | k + 1, tl => build I k (.cons (knot I k) tl)

/-- `updateLQSubproblem` (solvers/proxddp/solver-proxddp.hxx:734-805). -/
def subproblem (I : Input nx nu N) : Gar.Problem ℝ 0 I.pd.nc0 (nx 0) :=
  { G0 := I.pd.initJx, g0 := I.init, stages := build I N (.last (termKnot I)) }

/-- The input at an iterate (solvers/proxddp/solver-proxddp.hxx:571-605): constraint values, slacks and multiplier residuals of
`computeMultipliers`, gradient of the Lagrangian at the multipliers of the iterate, its first state block erased when
`force_initial_condition_` is set (:592-594). -/
noncomputable def inputAt (pd : ProbData nx nu N) (hess : Hess nx nu N) (V : Values nx pd.nc0) (op : ℕ → CSet) (mu preg : ℝ)
    (exact force : Bool) (l : Lams nx pd.nc0) (vPrev vs out : ℕ → CSets.Vec) : Input nx nu N :=
  let ms := fun i => multiplierStep (op i) mu (V.c i) (vPrev i) (vs i) (out i) []
  let g := compute pd (some l) vs
  { pd := pd
    hess := hess
    grad := if force then g.setX 0 0 else g
    gap := V.gap
    init := V.init
    Lvs := fun i => (ms i).Lvs
    shifted := fun i => (ms i).shifted
    op := op
    muInv := 1 / mu
    preg := preg
    exact := exact }

/-! ## The stopping criterion -/

/-- `math::infty_norm` of a vector (math.hpp:149-166); the norm of an empty vector is zero. -/
def infNorm (l : List ℝ) : ℝ := l.foldr (fun a m => max |a| m) 0

/-- What `computeCriterion` records. -/
structure Criterion where
  inner : ℝ
  dual : ℝ

/-- `computeCriterion` (solvers/proxddp/solver-proxddp.hxx:703-732).  `slack i` is `dyn_slacks[i]`. -/
def computeCriterion (N : ℕ) (g : Grad nx nu) (slack Lvs : ℕ → List ℝ) : Criterion :=
  let rx := fun i => infNorm (List.ofFn (g.Lxs i))
  let ru := fun i => infNorm (List.ofFn (g.Lus i))
  let crits := (List.range N).map (fun i => max (max (rx i) (ru i)) (max (infNorm (slack i)) (infNorm (Lvs i)))) ++
    [max (rx N) (infNorm (Lvs N))]
  { inner := infNorm crits
    dual := max (infNorm ((List.range (N + 1)).map rx)) (infNorm ((List.range N).map ru)) }

/-- `dyn_slacks` of `computeMultipliers` (solvers/proxddp/solver-proxddp.hxx:246, :263). -/
def slacks {nc0 : ℕ} (V : Values nx nc0) : ℕ → List ℝ
  | 0 => List.ofFn V.init
  | i + 1 => List.ofFn (V.gap i)

/-- `results_.prim_infeas` (solvers/proxddp/solver-proxddp.hxx:286-288, :310-316): `infeas i` is `stage_infeas[i]`. -/
def primInfeas (N : ℕ) (infeas slack : ℕ → List ℝ) : ℝ :=
  max (infNorm ((List.range (N + 1)).map fun i => infNorm (infeas i)))
    (infNorm ((List.range (N + 1)).map fun i => infNorm (slack i)))

end Aligator.LQ
