import Verif.Model.BlockTridiag
import Verif.Model.GetWork

/-!
# Model of the parallel-condensing LQ solver

Models `include/aligator/gar/parallel-solver.hpp/.hxx`.

A *leg* is a contiguous range of knots handled by one thread. The OpenMP region runs the same kernel on
every leg; legs touch disjoint data, so the model runs them one after the other (see C10 for the
independence of the schedule).  An exception inside the parallel region terminates the process: it is the
outcome `leg e` here.
-/

namespace Aligator.Gar

open Matrix

variable {𝕜 : Type*} [Field 𝕜] [DecidableEq 𝕜] {nth : ℕ}

/-- A non-empty range of knots that is followed by further knots: first state dimension `nx`, dimension
`m` of the state following the range. -/
inductive Seg (𝕜 : Type*) (nth : ℕ) : ℕ → ℕ → Type _
  | one {nx nu nc m : ℕ} (k : Knot 𝕜 nth nx nu nc m) : Seg 𝕜 nth nx m
  | cons {nx nu nc nx2 m : ℕ} (k : Knot 𝕜 nth nx nu nc nx2) (tl : Seg 𝕜 nth nx2 m) : Seg 𝕜 nth nx m

/-- The knots of all legs; the last leg contains the terminal knot. -/
inductive Legs (𝕜 : Type*) (nth : ℕ) : ℕ → Type _
  | last {nx : ℕ} (ch : Chain 𝕜 nth nx) : Legs 𝕜 nth nx
  | cons {nx m : ℕ} (s : Seg 𝕜 nth nx m) (L : Legs 𝕜 nth m) : Legs 𝕜 nth nx

/-- Put a range of knots in front of a chain. -/
def Seg.append : {nx m : ℕ} → Seg 𝕜 nth nx m → Chain 𝕜 nth m → Chain 𝕜 nth nx
  | _, _, .one k, ch => .cons k ch
  | _, _, .cons k s, ch => .cons k (s.append ch)

/-- All knots in order. -/
def Legs.join : {nx : ℕ} → Legs 𝕜 nth nx → Chain 𝕜 nth nx
  | _, .last ch => ch
  | _, .cons s L => s.append L.join

/-- The first `n + 1` knots of a chain and the rest, when the rest is not empty. -/
def Chain.takeSeg : (n : ℕ) → {nx : ℕ} → Chain 𝕜 nth nx → Option (Σ m, Seg 𝕜 nth nx m × Chain 𝕜 nth m)
  | _, _, .last _ => none
  | 0, _, .cons (nx2 := m) k tl => some ⟨m, .one k, tl⟩
  | n + 1, _, .cons k tl =>
    match tl.takeSeg n with
    | none => none
    | some ⟨m, s, r⟩ => some ⟨m, .cons k s, r⟩

/-- Split a chain into legs of the given lengths followed by the last leg. `none` if a leg is empty. -/
def Chain.splitLegs : List ℕ → {nx : ℕ} → Chain 𝕜 nth nx → Option (Legs 𝕜 nth nx)
  | [], _, ch => some (.last ch)
  | 0 :: _, _, _ => none
  | (n + 1) :: ls, _, ch =>
    match ch.takeSeg n with
    | none => none
    | some ⟨_, s, r⟩ =>
      match r.splitLegs ls with
      | none => none
      | some L => some (.cons s L)

/-- Lengths of all legs but the last one, from `get_work` (parallel-solver.hxx:62-66). -/
def legLengths (horz nthr : ℕ) : List ℕ :=
  (List.range (nthr - 1)).map fun i => (getWork horz i nthr).stop - (getWork horz i nthr).beg

/-- The configured last knot of a leg: `addParameterization(nx2)` (parallel-solver.hxx:56-57) then
`configure_knot` (parallel-solver.hxx:135-140). -/
def Knot.configure {nx nu nc m : ℕ} (k : Knot 𝕜 nth nx nu nc m) : Knot 𝕜 m nx nu nc m :=
  { k.addParameterization m with Gx := k.Aᵀ, Gu := k.Bᵀ, Gth := 0, gamma := k.f }

/-- The knots of a leg that is not the last one, as `backwardImpl` sees them
(parallel-solver.hxx:51-60, 135-145, 158-162): all parametrised by the costate at the end of the leg, the
last one acting as terminal knot. -/
def Seg.leg : {nx m : ℕ} → Seg 𝕜 nth nx m → Chain 𝕜 m nx
  | _, _, .one k => .last k.configure
  | _, m, .cons k s => .cons (k.addParameterization m) s.leg

/-- Stage factors of all legs (`datas`). -/
inductive LegFacs {𝕜 : Type*} [Field 𝕜] {nth : ℕ} : {nx : ℕ} → Legs 𝕜 nth nx → Type _
  | last {nx : ℕ} {ch : Chain 𝕜 nth nx} (F : Facs ch) : LegFacs (.last ch)
  | cons {nx m : ℕ} {s : Seg 𝕜 nth nx m} {L : Legs 𝕜 nth m} (F : Facs s.leg) (tl : LegFacs L) :
      LegFacs (.cons s L)

/-- The parallel region of `backward` (parallel-solver.hxx:149-164). -/
def backwardLegs (ldl : LDL 𝕜) (mueq : 𝕜) : {nx : ℕ} → (L : Legs 𝕜 nth nx) → Except Err (LegFacs L)
  | _, .last ch =>
    match backwardImpl ldl mueq ch with
    | .error e => .error e
    | .ok F => .ok (.last F)
  | _, .cons s L =>
    match backwardImpl ldl mueq s.leg with
    | .error e => .error e
    | .ok F =>
      match backwardLegs ldl mueq L with
      | .error e => .error e
      | .ok FL => .ok (.cons F FL)

/-- Block dimensions of the condensed system after the first state block. -/
def Legs.shape : {nx : ℕ} → Legs 𝕜 nth nx → List ℕ
  | _, .last _ => []
  | _, .cons (m := m) _ L => m :: m :: L.shape

/-- Blocks `1, 2, ...` of the condensed system (parallel-solver.hxx:94-117, subdiagonal 113-115). -/
def LegFacs.condT : {nx : ℕ} → {L : Legs 𝕜 nth nx} → LegFacs L → BT 𝕜 nx L.shape
  | _, _, .last F => .last F.vm.Vxx
  | _, _, .cons (m := m) F FL =>
    .cons F.vm.Vxx F.vm.Vxt F.vm.Vxtᵀ
      (.cons F.vm.Vtt (-(1 : Mat 𝕜 m m)) (-(1 : Mat 𝕜 m m))ᵀ FL.condT)

/-- Right-hand side blocks `1, 2, ...` (parallel-solver.hxx:119-128). -/
def LegFacs.condR : {nx : ℕ} → {L : Legs 𝕜 nth nx} → LegFacs L → BV 𝕜 nx L.shape
  | _, _, .last F => .last (-F.vm.vx)
  | _, _, .cons F FL => .cons (-F.vm.vx) (.cons (-F.vm.vt) FL.condR)

/-- `assembleCondensedSystem(mudyn)` (parallel-solver.hxx:86-129), the matrix; `mudyn = 0` in `backward`
(line 168). -/
def condensedT {nc0 nx : ℕ} (G0 : Mat 𝕜 nc0 nx) (mudyn : 𝕜) {L : Legs 𝕜 nth nx} (FL : LegFacs L) :
    BT 𝕜 nc0 (nx :: L.shape) :=
  .cons (-mudyn • (1 : Mat 𝕜 nc0 nc0)) G0 G0ᵀ FL.condT

/-- `assembleCondensedSystem`, the right-hand side. -/
def condensedR {nc0 nx : ℕ} (g0 : Vec 𝕜 nc0) {L : Legs 𝕜 nth nx} (FL : LegFacs L) :
    BV 𝕜 nc0 (nx :: L.shape) :=
  .cons (-g0) FL.condR

/-- The iterative refinement loop (parallel-solver.hxx:185-205): `steps` iterations remain, `sol` is
`condensedKktSolution`, `err` is `condensedErr`. `small` is the test
`infty_norm(condensedErr) <= condensedThreshold`. Returns both buffers. -/
def refineLoop {n : ℕ} {ns : List ℕ} (T : BT 𝕜 n ns) (F : BFac 𝕜 n ns) (rhs : BV 𝕜 n ns)
    (small : BV 𝕜 n ns → Bool) : ℕ → BV 𝕜 n ns → BV 𝕜 n ns → BV 𝕜 n ns × BV 𝕜 n ns
  | 0, sol, err => (sol, err)
  | steps + 1, sol, err =>
    let err1 := (T.matMul sol err (-1)).smul (-1)
    if small err1 then (sol, err1)
    else refineLoop T F rhs small steps (sol.add (F.refine err1)) rhs

/-- `math::infty_norm(v) <= thr` (math.hpp; parallel-solver.hxx:193-195); rounding and NaN not
modelled. -/
def BV.normLe {𝕜 : Type*} [Field 𝕜] [LinearOrder 𝕜] (thr : 𝕜) :
    {n : ℕ} → {ns : List ℕ} → BV 𝕜 n ns → Bool
  | _, _, .last v => decide (∀ i, |v i| ≤ thr)
  | _, _, .cons v tl => decide (∀ i, |v i| ≤ thr) && tl.normLe thr

/-- Failures of the parallel solver.
* `fewThreads`: constructor exception for fewer than two threads (parallel-solver.hxx:41-45);
* `emptyLeg`: more threads than knots; `stages[end - 1]` is then a knot of another leg or out of bounds;
* `badDims`: `rhsDims_` (parallel-solver.hxx:69-74) takes the dimensions of the linking costate and state
  from the `nx` of the first and last knots of the leg instead of the `nx2` of the last one; when they
  differ the block assignments are dimension errors;
* `leg e`: a leg's backward pass failed;
* `condensed`: `symmetricBlockTridiagSolve` returned `false`, which `backward` ignores
  (parallel-solver.hxx:175-178). -/
inductive PErr
  | fewThreads
  | emptyLeg
  | badDims
  | leg (e : Err)
  | condensed
  deriving DecidableEq

/-- State dimension of the last knot of a leg. -/
def Seg.lastNx : {nx m : ℕ} → Seg 𝕜 nth nx m → ℕ
  | nx, _, .one _ => nx
  | _, _, .cons _ s => s.lastNx

/-- `rhsDims_` agrees with the dimensions of the data put into the blocks. -/
def Legs.dimsOK : {nx : ℕ} → Legs 𝕜 nth nx → Bool
  | _, .last _ => true
  | nx, .cons (m := m) s L => (nx = m) && (s.lastNx = m) && L.dimsOK

/-- State of the parallel solver after `backward`. -/
structure PSolver {nc0 nx : ℕ} (L : Legs 𝕜 nth nx) where
  facs : LegFacs L
  sol : BV 𝕜 nc0 (nx :: L.shape)
  err : BV 𝕜 nc0 (nx :: L.shape)

/-- `ParallelRiccatiSolver::backward` (parallel-solver.hxx:131-208) on given legs; `err0` is the content
of `condensedErr` (zero after construction, else left over from the previous call). -/
def parallelBackwardLegs (ldl : LDL 𝕜) {nc0 nx : ℕ} (G0 : Mat 𝕜 nc0 nx) (g0 : Vec 𝕜 nc0)
    (L : Legs 𝕜 nth nx) (mueq : 𝕜) (maxRefinementSteps : ℕ)
    (small : BV 𝕜 nc0 (nx :: L.shape) → Bool) (err0 : BV 𝕜 nc0 (nx :: L.shape)) :
    Except PErr (PSolver (nc0 := nc0) L) :=
  if L.dimsOK = false then .error .badDims
  else match backwardLegs ldl mueq L with
  | .error e => .error (.leg e)
  | .ok FL =>
    let T := condensedT G0 0 FL
    let rhs := condensedR g0 FL
    match T.solve ldl rhs with
    | none => .error .condensed
    | some (F, sol) =>
      let r := refineLoop T F rhs small maxRefinementSteps sol err0
      .ok { facs := FL, sol := r.1, err := r.2 }

/-- Concatenation of the trajectory of a leg, the costate at its end and the trajectory of the rest: the
legs write into disjoint ranges of the same `xs, us, vs, lbdas` (parallel-solver.hxx:228-240). -/
def glue : {nx m : ℕ} → (s : Seg 𝕜 nth nx m) → Traj s.leg → Vec 𝕜 m → {ch : Chain 𝕜 nth m} →
    Traj ch → Traj (s.append ch)
  | _, _, .one k, t', lam, _, t =>
    match (t' : Traj (.last k.configure)) with
    | .last n => .cons n lam t
  | _, m, .cons k s, t', lam, _, t =>
    match (t' : Traj (.cons (k.addParameterization m) s.leg)) with
    | .cons n l t'' => .cons n l (glue s t'' lam t)

/-- The parallel region of `forward` (parallel-solver.hxx:212-243), from the blocks `x, λ, x, λ, ...` of
the condensed solution. -/
def forwardLegs : {nx : ℕ} → {L : Legs 𝕜 nth nx} → LegFacs L → BV 𝕜 nx L.shape → Traj L.join
  | nx, _, .last F, z => match (z : BV 𝕜 nx []) with
    | .last x => forwardImpl 0 F x
  | nx, _, .cons (m := m) (s := s) (L := L) F FL, z =>
    match (z : BV 𝕜 nx (m :: m :: L.shape)) with
    | .cons x (.cons lam rest) => glue s (forwardImpl lam F x) lam (forwardLegs FL rest)

/-- `ParallelRiccatiSolver::forward` (parallel-solver.hxx:211-246): `lbdas[0]` and the trajectory. -/
def parallelForward {nc0 nx : ℕ} {L : Legs 𝕜 nth nx} (s : PSolver (nc0 := nc0) L) :
    Vec 𝕜 nc0 × Traj L.join :=
  match s.sol with
  | .cons lam0 rest => (lam0, forwardLegs s.facs rest)

/-- The legs of a problem for a number of threads (constructor, parallel-solver.hxx:32-84). -/
def legsOf {nx : ℕ} (ch : Chain 𝕜 nth nx) (nthr : ℕ) : Except PErr (Legs 𝕜 nth nx) :=
  if nthr < 2 then .error .fewThreads
  else match ch.splitLegs (legLengths ch.horizon nthr) with
    | none => .error .emptyLeg
    | some L => .ok L

/-- Control dimension of the first knot. -/
def Chain.nu0 : {nx : ℕ} → Chain 𝕜 nth nx → ℕ
  | _, .last (nu := nu) _ => nu
  | _, .cons (nu := nu) _ _ => nu

/-- `datas[0].ff[0]`. -/
def Facs.kff0 : {nx : ℕ} → {ch : Chain 𝕜 nth nx} → Facs ch → Vec 𝕜 ch.nu0
  | _, _, .last F => F.kff
  | _, _, .cons F _ => F.kff

/-- `datas[0].fb.blockRow(0)`. -/
def Facs.K0 : {nx : ℕ} → {ch : Chain 𝕜 nth nx} → Facs ch → Mat 𝕜 ch.nu0 nx
  | _, _, .last F => F.K
  | _, _, .cons F _ => F.K

/-- `datas[0].fth.blockRow(0)`. -/
def Facs.Kth0 : {nx : ℕ} → {ch : Chain 𝕜 nth nx} → Facs ch → Mat 𝕜 ch.nu0 nth
  | _, _, .last F => F.Kth
  | _, _, .cons F _ => F.Kth

/-- `collapseFeedback` (parallel-solver.hpp:41-51) with the content of
`condensedKktSystem.subdiagonal[1]`. -/
def collapseFeedback {nx : ℕ} {ch : Chain 𝕜 nth nx} (F : Facs ch) (Up1t : Mat 𝕜 nth nx) :
    Mat 𝕜 ch.nu0 nx :=
  F.K0 - F.Kth0 * Up1t

/-- Content of `condensedKktSystem.subdiagonal[1]` when `backward` returns: the solve overwrites
`subdiagonal` by the transposed `U` factors, but `upFacs`, a copy of the original subdiagonal made before
the solve (parallel-solver.hxx:171), is then swapped with it (line 180). So it is the original block
`superdiagonal[1]ᵀ = Vxtᵀ`. -/
def storedSubdiagonal1 {nx m : ℕ} {s : Seg 𝕜 nth nx m} (F : Facs s.leg) : Mat 𝕜 m nx := F.vm.Vxtᵀ

/-- `condensedKktSystem.upFacs[1]` when `backward` returns: the transposed `U` factor. -/
def BFac.up1 {n nx m : ℕ} {ms : List ℕ} : BFac 𝕜 n (nx :: m :: ms) → Mat 𝕜 m nx
  | .cons _ _ _ _ (.cons _ _ _ Ut _) => Ut

end Aligator.Gar
