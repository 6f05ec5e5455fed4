import Verif.Model.Parallel
import Verif.Model.DenseRiccati

/-!
# Model of the feedback gains handed to the user

Models what happens to the gains of the linear solvers on their way to the user: `ResultsTpl::gains_`
(solvers/results-base.hpp, solvers/proxddp/results.hxx) and the block of
`SolverProxDDPTpl::innerLoop` that fills it (solvers/proxddp/solver-proxddp.hxx:612-633), for the three
linear solvers.
-/

namespace Aligator.Gains

open Matrix Aligator.Gar

variable {𝕜 : Type*} [Field 𝕜] {nth : ℕ}

/-- One matrix of `gains_` (results-base.hpp:31): `rows × (ndx + 1)`, the first column is the feedforward
(`getFeedforward`, results-base.hpp:42-44), the other `ndx` ones the feedback (`getFeedback`,
results-base.hpp:52-54). -/
structure Gain (𝕜 : Type*) where
  rows : ℕ
  ndx : ℕ
  e : Matrix (Fin rows) (Fin (ndx + 1)) 𝕜

/-- `getFeedforward(i)` (results-base.hpp:42-49). -/
def Gain.ff (g : Gain 𝕜) : Vec 𝕜 g.rows := fun i => g.e i 0

/-- `getFeedback(i)` (results-base.hpp:52-59). -/
def Gain.fb (g : Gain 𝕜) : Mat 𝕜 g.rows g.ndx := fun i j => g.e i j.succ

/-- What `getFeedforward(i)`, `getFeedback(i)` of a linear solver return (gar/riccati-base.hpp:33-34). -/
structure Shown (𝕜 : Type*) where
  rows : ℕ
  ndx : ℕ
  ff : Vec 𝕜 rows
  fb : Mat 𝕜 rows ndx

/-- Stacked row blocks (core/blk-matrix.hpp:100, the whole matrix behind a block view). -/
def vcat {a b m : ℕ} (Y : Mat 𝕜 a m) (Z : Mat 𝕜 b m) : Mat 𝕜 (a + b) m :=
  fun i j => Fin.append (fun r => Y r j) (fun r => Z r j) i

/-- `datas[i].ff.matrix()`, `datas[i].fb.matrix()` of the serial and the parallel solvers
(gar/proximal-riccati.hpp:35-36, gar/parallel-solver.hpp:80-81): blocks `{nu, nc, nx2}`
(gar/riccati-kernel.hpp:86-101). -/
def shownFactor {nx nu nc nx2 : ℕ} (F : Factor 𝕜 nth nx nu nc nx2) : Shown 𝕜 where
  rows := nu + nc + nx2
  ndx := nx
  ff := Fin.append (Fin.append F.kff F.zff) F.yff
  fb := vcat (vcat F.K F.Z) F.Aff

/-- `stage_factors[i].ff`, `stage_factors[i].fb` of the dense solver (gar/dense-riccati.hpp:52-53): blocks
`{nu, nc, nx2, nx2}` (gar/dense-kernel.hpp:18-44). -/
def shownDense {nx nu nc nx2 : ℕ} (F : Dense.DFactor 𝕜 nth nx nu nc nx2) : Shown 𝕜 where
  rows := nu + nc + nx2 + nx2
  ndx := nx
  ff := Fin.append (Fin.append (Fin.append F.kff F.zff) F.lff) F.yff
  fb := vcat (vcat (vcat F.K F.Z) F.L) F.Y

/-- All knots of the serial solver. -/
def shownFacs : {nx : ℕ} → {ch : Chain 𝕜 nth nx} → Facs ch → List (Shown 𝕜)
  | _, _, .last F => [shownFactor F]
  | _, _, .cons F Ft => shownFactor F :: shownFacs Ft

/-- All knots of the dense solver. -/
def shownDFacs : {nx : ℕ} → {ch : Chain 𝕜 nth nx} → Dense.DFacs ch → List (Shown 𝕜)
  | _, _, .last F => [shownDense F]
  | _, _, .cons F Ft => shownDense F :: shownDFacs Ft

/-- All knots of the parallel solver: `datas` covers the legs one after the other. -/
def shownLegs : {nx : ℕ} → {L : Legs 𝕜 nth nx} → LegFacs L → List (Shown 𝕜)
  | _, _, .last F => shownFacs F
  | _, _, .cons F FL => shownFacs F ++ shownLegs FL

/-- Overwrite `datas[0].fb.blockRow(0)`. -/
def setK0 : {nx : ℕ} → {ch : Chain 𝕜 nth nx} → Facs ch → Mat 𝕜 ch.nu0 nx → Facs ch
  | _, _, .last F, K => .last { F with K := K }
  | _, _, .cons F Ft, K => .cons { F with K := K } Ft

/-- `collapseFeedback` of the parallel solver as a change of `datas` (gar/parallel-solver.hpp:41-51): only
the control rows of the first knot are written. The case of a single leg does not occur (the constructor
asks for two threads, gar/parallel-solver.hxx:41-45). The other linear solvers do nothing
(gar/riccati-base.hpp:32). -/
def collapse : {nx : ℕ} → {L : Legs 𝕜 nth nx} → LegFacs L → LegFacs L
  | _, _, .last F => .last F
  | _, _, .cons F FL => .cons (setK0 F (collapseFeedback F (storedSubdiagonal1 F))) FL

/-- `ff = linear_solver_->getFeedforward(i); fb = linear_solver_->getFeedback(i);`
(solver-proxddp.hxx:621-626): assignment to views of fixed size. `checks`: Eigen's assertions are on, a
size mismatch aborts. Without them the loop runs over the sizes of the left-hand side, reading out of
bounds when the right-hand side is smaller (`none`). -/
def storeStage (checks : Bool) (g : Gain 𝕜) (s : Shown 𝕜) : Option (Gain 𝕜) :=
  if h : g.rows ≤ s.rows ∧ g.ndx ≤ s.ndx then
    if checks = true ∧ ¬ (g.rows = s.rows ∧ g.ndx = s.ndx) then none
    else some ⟨g.rows, g.ndx, fun i => Fin.cons (s.ff (Fin.castLE h.1 i))
      (fun j => s.fb (Fin.castLE h.1 i) (Fin.castLE h.2 j))⟩
  else none

/-- The terminal knot (solver-proxddp.hxx:627-632): the same with `tail` and `bottomRows`, after an
`assert` on the number of rows. -/
def storeLast (checks : Bool) (g : Gain 𝕜) (s : Shown 𝕜) : Option (Gain 𝕜) :=
  if h : g.rows ≤ s.rows ∧ g.ndx ≤ s.ndx then
    if checks = true ∧ ¬ (g.rows = s.rows ∧ g.ndx = s.ndx) then none
    else
      let row (i : Fin g.rows) : Fin s.rows := ⟨s.rows - g.rows + i, by omega⟩
      some ⟨g.rows, g.ndx, fun i => Fin.cons (s.ff (row i)) (fun j => s.fb (row i) (Fin.castLE h.2 j))⟩
  else none

/-- The whole block (solver-proxddp.hxx:614-633) on the list `gains_`. -/
def store (checks : Bool) : List (Gain 𝕜) → List (Shown 𝕜) → Option (List (Gain 𝕜))
  | [], _ => none
  | _ :: _, [] => none
  | g :: gs, s :: ss =>
    if ss.isEmpty then (storeLast checks g s).map (fun g' => g' :: gs)
    else
      match storeStage checks g s, store checks gs ss with
      | some g', some gs' => some (g' :: gs')
      | _, _ => none

/-- Sizes of `gains_` as set by the constructor of the results (solvers/proxddp/results.hxx:23-38).
Simplification: the dimensions are read off the knots of the LQ problem instead of the stage models. -/
def sizes : {nx : ℕ} → Chain 𝕜 nth nx → List (ℕ × ℕ)
  | nx, .last (nc := nc) _ => [(nc, nx)]
  | nx, .cons (nu := nu) (nc := nc) (nx2 := nx2) _ tl => (nu + nc + nx2, nx) :: sizes tl

/-- `gains_` after construction: zero matrices (solvers/proxddp/results.hxx:23-38). -/
def initGains {nx : ℕ} (ch : Chain 𝕜 nth nx) : List (Gain 𝕜) :=
  (sizes ch).map fun d => ⟨d.1, d.2, 0⟩

/-- `us[i].rows()` for the stages. -/
def nus : {nx : ℕ} → Chain 𝕜 nth nx → List ℕ
  | _, .last _ => []
  | _, .cons (nu := nu) _ tl => nu :: nus tl

/-- `getCtrlFeedforwards()` (results-base.hpp:72-81); `none`: a block is out of range. -/
def ctrlFeedforwards : List ℕ → List (Gain 𝕜) → Option (List (Σ r, Vec 𝕜 r))
  | [], _ => some []
  | _ :: _, [] => none
  | nu :: us, g :: gs =>
    if h : nu ≤ g.rows then
      (ctrlFeedforwards us gs).map fun l => ⟨nu, fun i => g.ff (Fin.castLE h i)⟩ :: l
    else none

/-- `getCtrlFeedbacks()` (results-base.hpp:61-70). -/
def ctrlFeedbacks : List ℕ → List (Gain 𝕜) → Option (List (Σ r c, Mat 𝕜 r c))
  | [], _ => some []
  | _ :: _, [] => none
  | nu :: us, g :: gs =>
    if h : nu ≤ g.rows then
      (ctrlFeedbacks us gs).map fun l => ⟨nu, g.ndx, fun i j => g.fb (Fin.castLE h i) j⟩ :: l
    else none

/-- `gains_` under the calls of an inner loop: the block above runs once for every LQ subproblem that is
solved (solver-proxddp.hxx:597-633), the list of `solved` gives the gains of the linear solver in order.
When the loop leaves before the first one, nothing is written. -/
def storeAll (checks : Bool) (gs : List (Gain 𝕜)) : List (List (Shown 𝕜)) → Option (List (Gain 𝕜))
  | [] => some gs
  | ss :: rest =>
    match store checks gs ss with
    | none => none
    | some gs' => storeAll checks gs' rest

end Aligator.Gains
