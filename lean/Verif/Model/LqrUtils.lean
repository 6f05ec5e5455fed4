import Verif.Model.Lqr
import Mathlib.Algebra.Order.Field.Basic
import Mathlib.Algebra.BigOperators.Intervals

/-!
# Model of the LQ problem utilities

Models `include/aligator/gar/utils.hpp` and `utils.hxx`, and the cost evaluation of `lqr-problem.hxx`.
-/

namespace Aligator.Gar

open Matrix

variable {𝕜 : Type*} {nth : ℕ}

/-- `math::infty_norm` of a vector (math.hpp:149-156): `0` for the empty vector, else the largest absolute
value. -/
def inftyNorm [Field 𝕜] [LinearOrder 𝕜] {n : ℕ} (v : Vec 𝕜 n) : 𝕜 :=
  (List.ofFn fun i => |v i|).foldr max 0

/-- The returned array `{dynErr, cstErr, dualErr}` (gar/utils.hxx:181). -/
structure KktErr (𝕜 : Type*) where
  dyn : 𝕜
  cst : 𝕜
  dual : 𝕜

section kktError
variable [Field 𝕜] [LinearOrder 𝕜]

/-- `_gx` of one knot before the costate terms, with the parametric term (gar/utils.hxx:133, 138, 161). -/
def errGx {nx nu nc nx2 : ℕ} (k : Knot 𝕜 nth nx nu nc nx2) (θ : Option (Vec 𝕜 nth)) (n : Node 𝕜 nx nu nc) :
    Vec 𝕜 nx :=
  let g := k.q + k.Q *ᵥ n.x + k.Cᵀ *ᵥ n.v
  let g := if 0 < nu then g + k.S *ᵥ n.u else g
  match θ with
  | none => g
  | some th => g + k.Gx *ᵥ th

/-- `_gu` of one knot before the costate terms, with the parametric term (gar/utils.hxx:134, 139, 162). -/
def errGu {nx nu nc nx2 : ℕ} (k : Knot 𝕜 nth nx nu nc nx2) (θ : Option (Vec 𝕜 nth)) (n : Node 𝕜 nx nu nc) :
    Vec 𝕜 nu :=
  let g := k.r + k.Sᵀ *ᵥ n.x + k.Dᵀ *ᵥ n.v
  let g := if 0 < nu then g + k.R *ᵥ n.u else g
  match θ with
  | none => g
  | some th => g + k.Gu *ᵥ th

/-- `_cst` of one knot (gar/utils.hxx:132, 137). The parameter does not enter. -/
def errCst {nx nu nc nx2 : ℕ} (k : Knot 𝕜 nth nx nu nc nx2) (mueq : 𝕜) (n : Node 𝕜 nx nu nc) : Vec 𝕜 nc :=
  let g := k.C *ᵥ n.x + k.d - mueq • n.v
  if 0 < nu then g + k.D *ᵥ n.u else g

/-- The loop over the knots of `lqrComputeKktError` (gar/utils.hxx:122-179). `c` is the costate term added to `_gx`
(`G0ᵀ lbdas[0]` at the first knot, `- lbdas[t]` at the others). The `_gt` vector computed there is not used and
not modelled; the sums of `_gx` are reordered (exact arithmetic). -/
def kktErrLoop (mueq : 𝕜) (θ : Option (Vec 𝕜 nth)) :
    {nx : ℕ} → (ch : Chain 𝕜 nth nx) → Vec 𝕜 nx → Traj ch → KktErr 𝕜 → KktErr 𝕜
  | _, .last k, c, .last n, e =>
    { dyn := e.dyn
      cst := max e.cst (inftyNorm (errCst k mueq n))
      dual := max (max e.dual (inftyNorm (errGx k θ n + c))) (inftyNorm (errGu k θ n)) }
  | _, .cons k tl, c, .cons n lam t, e =>
    kktErrLoop mueq θ tl (-lam) t
      { dyn := max e.dyn (inftyNorm (k.A *ᵥ n.x + k.B *ᵥ n.u + k.f - t.x0))
        cst := max e.cst (inftyNorm (errCst k mueq n))
        dual := max (max e.dual (inftyNorm (errGx k θ n + c + k.Aᵀ *ᵥ lam)))
          (inftyNorm (errGu k θ n + k.Bᵀ *ᵥ lam)) }

/-- `lqrComputeKktError` (gar/utils.hxx:87-182), exact arithmetic, no NaN. -/
def lqrComputeKktError {nc0 nx : ℕ} (P : Problem 𝕜 nth nc0 nx) (mueq : 𝕜) (θ : Option (Vec 𝕜 nth))
    (lam0 : Vec 𝕜 nc0) (t : Traj P.stages) : KktErr 𝕜 :=
  kktErrLoop mueq θ P.stages (P.G0ᵀ *ᵥ lam0) t
    { dyn := max 0 (inftyNorm (P.g0 + P.G0 *ᵥ t.x0)), cst := 0, dual := 0 }

end kktError

/-! ### Sparse assembly -/

/-- `lqrNumRows` (gar/utils.hpp:64-77), the part of the loop over the given knots. -/
def numRowsAux : {nx : ℕ} → Chain 𝕜 nth nx → ℕ
  | nx, .last (nu := nu) (nc := nc) _ => nx + nu + nc
  | nx, .cons (nu := nu) (nc := nc) _ tl => nx + nu + nc + nx + numRowsAux tl

/-- `lqrNumRows` (gar/utils.hpp:64-77). -/
def lqrNumRows {nc0 nx : ℕ} (P : Problem 𝕜 nth nc0 nx) : ℕ := nc0 + numRowsAux P.stages

/-- One past the last row the assembly writes to, from `idx` on (the running index of gar/utils.hxx:34-84). -/
def endIdx : {nx : ℕ} → Chain 𝕜 nth nx → ℕ → ℕ
  | nx, .last (nu := nu) (nc := nc) _, idx => idx + nx + nu + nc
  | nx, .cons (nu := nu) (nc := nc) (nx2 := nx2) _ tl, idx => endIdx tl (idx + nx + nu + nc + nx2)

section sparse
variable [Field 𝕜]

/-- `sparseAssignDenseBlock` (gar/utils.hpp:13-28) on the matrix as a function of row and column. -/
def assignBlock {m n : ℕ} (i0 j0 : ℕ) (M : Mat 𝕜 m n) (mat : ℕ → ℕ → 𝕜) : ℕ → ℕ → 𝕜 := fun i j =>
  if h : (i0 ≤ i ∧ i < i0 + m) ∧ (j0 ≤ j ∧ j < j0 + n) then M ⟨i - i0, by omega⟩ ⟨j - j0, by omega⟩
  else mat i j

/-- `sparseAssignDiagonal` (gar/utils.hpp:30-43). -/
def assignDiag (i0 i1 : ℕ) (a : 𝕜) (mat : ℕ → ℕ → 𝕜) : ℕ → ℕ → 𝕜 := fun i j =>
  if i = j ∧ i0 ≤ i ∧ i < i1 then a else mat i j

/-- Assignment of a segment of the right-hand side. -/
def assignSeg {n : ℕ} (i0 : ℕ) (v : Vec 𝕜 n) (rhs : ℕ → 𝕜) : ℕ → 𝕜 := fun i =>
  if h : i0 ≤ i ∧ i < i0 + n then v ⟨i - i0, by omega⟩ else rhs i

/-- The writes to the matrix for the blocks of one knot other than the dynamics (gar/utils.hxx:44-63). -/
def knotMat {nx nu nc nx2 : ℕ} (k : Knot 𝕜 nth nx nu nc nx2) (mueq : 𝕜) (idx : ℕ) (mat : ℕ → ℕ → 𝕜) :
    ℕ → ℕ → 𝕜 :=
  let i0 := idx + nx
  let i1 := i0 + nu
  let i2 := i1 + nc
  let mat := assignBlock idx idx k.Q mat
  let mat := assignBlock i0 idx k.Sᵀ mat
  let mat := assignBlock idx i0 k.S mat
  let mat := assignBlock i0 i0 k.R mat
  let mat := assignBlock i1 idx k.C mat
  let mat := assignBlock idx i1 k.Cᵀ mat
  let mat := assignBlock i1 i0 k.D mat
  let mat := assignBlock i0 i1 k.Dᵀ mat
  assignDiag i1 i2 (-mueq) mat

/-- The writes to the matrix for the dynamics of one stage (gar/utils.hxx:65-80). -/
def dynMat {nx nu nc nx2 : ℕ} (k : Knot 𝕜 nth nx nu nc nx2) (idx : ℕ) (mat : ℕ → ℕ → 𝕜) : ℕ → ℕ → 𝕜 :=
  let i0 := idx + nx
  let i2 := i0 + nu + nc
  let i3 := i2 + nx2
  let mat := assignBlock i2 idx k.A mat
  let mat := assignBlock idx i2 k.Aᵀ mat
  let mat := assignBlock i2 i0 k.B mat
  let mat := assignBlock i0 i2 k.Bᵀ mat
  let mat := assignBlock i2 i3 (1 : Mat 𝕜 nx2 nx2) mat
  assignBlock i3 i2 (1 : Mat 𝕜 nx2 nx2) mat

/-- The writes to the right-hand side for one knot (gar/utils.hxx:38-42). -/
def knotRhs {nx nu nc nx2 : ℕ} (k : Knot 𝕜 nth nx nu nc nx2) (idx : ℕ) (rhs : ℕ → 𝕜) : ℕ → 𝕜 :=
  assignSeg (idx + nx + nu) k.d (assignSeg (idx + nx) k.r (assignSeg idx k.q rhs))

/-- The loop of `lqrCreateSparseMatrix` (gar/utils.hxx:34-84). -/
def sparseLoop (mueq : 𝕜) : {nx : ℕ} → Chain 𝕜 nth nx → ℕ → (ℕ → ℕ → 𝕜) × (ℕ → 𝕜) →
    (ℕ → ℕ → 𝕜) × (ℕ → 𝕜)
  | _, .last k, idx, (mat, rhs) => (knotMat k mueq idx mat, knotRhs k idx rhs)
  | nx, .cons (nu := nu) (nc := nc) (nx2 := nx2) k tl, idx, (mat, rhs) =>
    sparseLoop mueq tl (idx + nx + nu + nc + nx2)
      (dynMat k idx (knotMat k mueq idx mat), assignSeg (idx + nx + nu + nc) k.f (knotRhs k idx rhs))

/-- `lqrCreateSparseMatrix` with `update = false` (gar/utils.hxx:8-85): the number of rows, the matrix and the
right-hand side; `none` when a write falls outside of the matrix (an assertion, undefined behaviour in release
builds). -/
def lqrCreateSparseMatrix {nc0 nx : ℕ} (P : Problem 𝕜 nth nc0 nx) (mueq : 𝕜) :
    Option (ℕ × (ℕ → ℕ → 𝕜) × (ℕ → 𝕜)) :=
  if lqrNumRows P < endIdx P.stages nc0 then none
  else some (lqrNumRows P, sparseLoop mueq P.stages nc0
    (assignBlock nc0 0 P.G0ᵀ (assignBlock 0 nc0 P.G0 fun _ _ => 0), assignSeg 0 P.g0 fun _ => 0))

end sparse

/-- `solution.segment(i, n)`. -/
def seg (z : ℕ → 𝕜) (i n : ℕ) : Vec 𝕜 n := fun j => z (i + j)

/-- The loop of `lqrDenseSolutionToTraj` (gar/utils.hpp:98-110). -/
def splitTraj (z : ℕ → 𝕜) : {nx : ℕ} → (ch : Chain 𝕜 nth nx) → ℕ → Traj ch
  | nx, .last (nu := nu) (nc := nc) _, idx =>
    .last ⟨seg z idx nx, seg z (idx + nx) nu, seg z (idx + nx + nu) nc⟩
  | nx, .cons (nu := nu) (nc := nc) (nx2 := nx2) _ tl, idx =>
    .cons ⟨seg z idx nx, seg z (idx + nx) nu, seg z (idx + nx + nu) nc⟩
      (seg z (idx + nx + nu + nc) nx2) (splitTraj z tl (idx + nx + nu + nc + nx2))

/-- `lqrDenseSolutionToTraj` (gar/utils.hpp:79-111): `lbdas[0]` and the rest. -/
def lqrDenseSolutionToTraj {nc0 nx : ℕ} (P : Problem 𝕜 nth nc0 nx) (z : ℕ → 𝕜) :
    Vec 𝕜 nc0 × Traj P.stages :=
  (seg z 0 nc0, splitTraj z P.stages nc0)

/-! ### Cost evaluation -/

section evaluate
variable [Field 𝕜]

/-- The two loops of `LqrProblemTpl::evaluate` (gar/lqr-problem.hxx:296-316), summed knot by knot (exact
arithmetic); `nth = 0` makes the parametric part vanish. The sizes of `xs`, `us` are right by type. -/
def evalLoop (θ : Option (Vec 𝕜 nth)) : {nx : ℕ} → (ch : Chain 𝕜 nth nx) → Traj ch → 𝕜
  | _, .last k, .last n =>
    (1 / 2 * (n.x ⬝ᵥ k.Q *ᵥ n.x) + n.x ⬝ᵥ k.q) +
      (match θ with
       | none => 0
       | some th => 1 / 2 * (th ⬝ᵥ k.Gth *ᵥ th) + th ⬝ᵥ k.Gxᵀ *ᵥ n.x + th ⬝ᵥ k.gamma)
  | _, .cons k tl, .cons n _ t =>
    (1 / 2 * (n.x ⬝ᵥ k.Q *ᵥ n.x) + n.x ⬝ᵥ k.q + (1 / 2 * (n.u ⬝ᵥ k.R *ᵥ n.u) + n.u ⬝ᵥ k.r) +
        n.x ⬝ᵥ k.S *ᵥ n.u) +
      (match θ with
       | none => 0
       | some th => 1 / 2 * (th ⬝ᵥ k.Gth *ᵥ th) + th ⬝ᵥ k.Gxᵀ *ᵥ n.x + th ⬝ᵥ k.gamma +
          th ⬝ᵥ k.Guᵀ *ᵥ n.u) + evalLoop θ tl t

end evaluate

end Aligator.Gar
