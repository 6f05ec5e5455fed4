import Verif.Model.Parallel
import Verif.Model.RiccatiMem

/-!
# Model: the memory of the parallel LQ solver

`include/aligator/gar/parallel-solver.hpp/.hxx` again, with what earlier calls leave: the parametric blocks that the constructor
and the passes write into the knots of the client's problem, the stage factors (as in `Model/RiccatiMem`), and the buffers of
the condensed system.
-/

namespace Aligator.ParMem

open Matrix Gar GarMem

variable {𝕜 : Type*} [Field 𝕜] [DecidableEq 𝕜] {nth : ℕ}

/-- `nx2` of the last knot of a leg: the parameter dimension of the leg (gar/parallel-solver.hxx:53). -/
def exit : {nx : ℕ} → Dims nx → ℕ
  | _, .last _ _ nx2 => nx2
  | _, .cons _ _ tl => exit tl

/-- Dimensions of the legs, one for each thread. -/
inductive LDims : ℕ → Type
  | last {nx : ℕ} (D : Dims nx) : LDims nx
  | cons {nx : ℕ} (D : Dims nx) (tl : LDims (exit D)) : LDims nx

/-- What the client writes into the knots of the problem. -/
def LKnots (𝕜 : Type*) (nth : ℕ) : {nx : ℕ} → LDims nx → Type _
  | _, .last D => Knots 𝕜 nth D
  | _, .cons D tl => Knots 𝕜 nth D × LKnots 𝕜 nth tl

/-- A leg that is not the last, as a range of knots. -/
def seg : {nx : ℕ} → (D : Dims nx) → Knots 𝕜 nth D → Seg 𝕜 nth nx (exit D)
  | _, .last _ _ _, k => .one (show Knot _ _ _ _ _ _ from k)
  | _, .cons _ _ tl, k => .cons k.1 (seg tl k.2)

/-- The legs of `Model/Parallel`. -/
def legs : {nx : ℕ} → (E : LDims nx) → LKnots 𝕜 nth E → Legs 𝕜 nth nx
  | _, .last _, k => .last (Knots.chain (show Knots _ _ _ from k))
  | _, .cons D tl, k => .cons (seg D k.1) (legs tl k.2)

/-- The client writes new cost, dynamics and constraint terms into a knot; the parametric blocks stay. -/
def setKnot {p nx nu nc nx2 : ℕ} (m : Knot 𝕜 p nx nu nc nx2) (k : Knot 𝕜 nth nx nu nc nx2) : Knot 𝕜 p nx nu nc nx2 :=
  { m with Q := k.Q, S := k.S, R := k.R, q := k.q, r := k.r, A := k.A, B := k.B, f := k.f, C := k.C, D := k.D, d := k.d }

/-- The same for all knots of a leg. -/
def setKnots {p : ℕ} : {nx : ℕ} → (D : Dims nx) → Knots 𝕜 p D → Knots 𝕜 nth D → Knots 𝕜 p D
  | _, .last _ _ _, m, k => setKnot (show Knot _ _ _ _ _ _ from m) (show Knot _ _ _ _ _ _ from k)
  | _, .cons _ _ tl, m, k => (setKnot m.1 k.1, setKnots tl m.2 k.2)

/-- `addParameterization(nth)` of the constructor (gar/parallel-solver.hxx:51-60) for all knots of a leg. -/
def addParam (p : ℕ) : {nx : ℕ} → (D : Dims nx) → Knots 𝕜 nth D → Knots 𝕜 p D
  | _, .last _ _ _, k => Knot.addParameterization (show Knot _ _ _ _ _ _ from k) p
  | _, .cons _ _ tl, k => (k.1.addParameterization p, addParam p tl k.2)

/-- `configure_knot` (gar/parallel-solver.hxx:135-140): `Gv` is not written. -/
def configureKnot {m nx nu nc : ℕ} (k : Knot 𝕜 m nx nu nc m) : Knot 𝕜 m nx nu nc m :=
  { k with Gx := k.Aᵀ, Gu := k.Bᵀ, Gth := 0, gamma := k.f }

/-- `configure_knot(stages[end - 1])` (gar/parallel-solver.hxx:143-146) on the last knot of a leg. -/
def configureLast : {nx : ℕ} → (D : Dims nx) → Knots 𝕜 (exit D) D → Knots 𝕜 (exit D) D
  | _, .last _ _ _, k => configureKnot (show Knot _ _ _ _ _ _ from k)
  | _, .cons _ _ tl, k => (k.1, configureLast tl k.2)

/-- The knots of the problem as they are in memory: those of all legs but the last are parametrised. -/
def PKnots (𝕜 : Type*) (nth : ℕ) : {nx : ℕ} → LDims nx → Type _
  | _, .last D => Knots 𝕜 nth D
  | _, .cons D tl => Knots 𝕜 (exit D) D × PKnots 𝕜 nth tl

/-- The constructor on a problem with knots `k` (gar/parallel-solver.hxx:62-66). -/
def PKnots.new : {nx : ℕ} → (E : LDims nx) → LKnots 𝕜 nth E → PKnots 𝕜 nth E
  | _, .last _, k => k
  | _, .cons D tl, k => (addParam (exit D) D k.1, PKnots.new tl k.2)

/-- The client writes new terms into the problem. -/
def PKnots.set : {nx : ℕ} → (E : LDims nx) → PKnots 𝕜 nth E → LKnots 𝕜 nth E → PKnots 𝕜 nth E
  | _, .last _, _, k => k
  | _, .cons D tl, m, k => (setKnots D m.1 k.1, PKnots.set tl m.2 k.2)

/-- The loop over `configure_knot` (gar/parallel-solver.hxx:142-146). -/
def PKnots.configure : {nx : ℕ} → (E : LDims nx) → PKnots 𝕜 nth E → PKnots 𝕜 nth E
  | _, .last _, m => m
  | _, .cons D tl, m => (configureLast D m.1, PKnots.configure tl m.2)

/-- `datas` (gar/parallel-solver.hxx:58): the factors of a leg have its parameter dimension. -/
def LBufs (𝕜 : Type*) (nth : ℕ) : {nx : ℕ} → LDims nx → Type _
  | _, .last D => Bufs 𝕜 nth D
  | _, .cons D tl => Bufs 𝕜 (exit D) D × LBufs 𝕜 nth tl

/-- New factors (gar/parallel-solver.hxx:58) on memory `u`. -/
def LBufs.new : {nx : ℕ} → (E : LDims nx) → LBufs 𝕜 nth E → LBufs 𝕜 nth E
  | _, .last _, u => Bufs.new (show Bufs _ _ _ from u)
  | _, .cons _ tl, u => (u.1.new, LBufs.new tl u.2)

/-- The parallel region of `backward` (gar/parallel-solver.hxx:149-164); the legs share nothing, so their order does not matter.
Flags: an exception in some leg (it leaves an OpenMP region: the program ends), an unchecked failure in some leg. -/
def backwardLegsM (L : LDLMem 𝕜) (mueq : 𝕜) : {nx : ℕ} → (E : LDims nx) → PKnots 𝕜 nth E → LBufs 𝕜 nth E →
    LBufs 𝕜 nth E × Flags
  | _, .last _, m, b => backwardImplM L mueq (show Knots _ _ _ from m) b
  | _, .cons _ tl, m, b =>
    let r := backwardImplM L mueq m.1 b.1
    let rs := backwardLegsM L mueq tl m.2 b.2
    ((r.1, rs.1), ⟨r.2.threw || rs.2.threw, r.2.bad || rs.2.bad⟩)

/-- The dimensions `rhsDims_` after the first (gar/parallel-solver.hxx:68-73) when they are right (`Legs.dimsOK`). -/
def shape : {nx : ℕ} → LDims nx → List ℕ
  | _, .last _ => []
  | _, .cons D tl => exit D :: exit D :: shape tl

/-- Blocks `1, 2, ...` of the condensed matrix (gar/parallel-solver.hxx:94-117): every block is assigned as a whole. -/
def condTM : {nx : ℕ} → (E : LDims nx) → LBufs 𝕜 nth E → BT 𝕜 nx (shape E)
  | _, .last _, b => .last (Bufs.vm (show Bufs _ _ _ from b)).Vxx
  | _, .cons D tl, b =>
    let v := Bufs.vm b.1
    .cons v.Vxx v.Vxt v.Vxtᵀ (.cons v.Vtt (-(1 : Mat 𝕜 (exit D) (exit D))) (-(1 : Mat 𝕜 (exit D) (exit D)))ᵀ (condTM tl b.2))

/-- Blocks `1, 2, ...` of the right-hand side (gar/parallel-solver.hxx:119-128). -/
def condRM : {nx : ℕ} → (E : LDims nx) → LBufs 𝕜 nth E → BV 𝕜 nx (shape E)
  | _, .last _, b => .last (-(Bufs.vm (show Bufs _ _ _ from b)).vx)
  | _, .cons _ tl, b => .cons (-(Bufs.vm b.1).vx) (.cons (-(Bufs.vm b.1).vt) (condRM tl b.2))

/-- The members of `ParallelRiccatiSolver` (gar/parallel-solver.hpp) that are read before they are written in some call, and the
problem it works on: `G0`, `g0`, the knots, the factors, `condensedKktSolution` and `condensedErr`.  The blocks of the condensed
system and its right-hand side are assigned in every pass before they are read. -/
structure PSt (𝕜 : Type*) (nth nc0 : ℕ) {nx : ℕ} (E : LDims nx) where
  G0 : Mat 𝕜 nc0 nx
  g0 : Vec 𝕜 nc0
  knots : PKnots 𝕜 nth E
  datas : LBufs 𝕜 nth E
  sol : BV 𝕜 nc0 (nx :: shape E)
  err : BV 𝕜 nc0 (nx :: shape E)

/-- `setZero` of a block vector (gar/parallel-solver.hxx:76-78). -/
def zeroBV (n : ℕ) : (ns : List ℕ) → BV 𝕜 n ns
  | [] => .last 0
  | m :: ms => .cons 0 (zeroBV m ms)

/-- The constructor, and `cycleAppend` (gar/parallel-solver.hxx:32-84, :247-260: everything is made again, with no parameters in the
last leg), on memory `u`. -/
def PSt.new {nc0 nx : ℕ} {E : LDims nx} (G0 : Mat 𝕜 nc0 nx) (g0 : Vec 𝕜 nc0) (k : LKnots 𝕜 nth E) (u : LBufs 𝕜 nth E) :
    PSt 𝕜 nth nc0 E :=
  ⟨G0, g0, PKnots.new E k, LBufs.new E u, zeroBV _ _, zeroBV _ _⟩

/-- The client writes a new problem. -/
def PSt.set {nc0 nx : ℕ} {E : LDims nx} (s : PSt 𝕜 nth nc0 E) (G0 : Mat 𝕜 nc0 nx) (g0 : Vec 𝕜 nc0) (k : LKnots 𝕜 nth E) :
    PSt 𝕜 nth nc0 E :=
  { s with G0 := G0, g0 := g0, knots := PKnots.set E s.knots k }

/-- `backward` (gar/parallel-solver.hxx:131-208).  If the condensed solve fails the code goes on, with factors of earlier passes;
what is then in the two vectors is `J` (anything). -/
def backwardP (L : LDLMem 𝕜) {nc0 nx : ℕ} {E : LDims nx} (mueq : 𝕜) (steps : ℕ) (small : BV 𝕜 nc0 (nx :: shape E) → Bool)
    (J : BV 𝕜 nc0 (nx :: shape E) × BV 𝕜 nc0 (nx :: shape E)) (s : PSt 𝕜 nth nc0 E) : PSt 𝕜 nth nc0 E × Flags :=
  let s := { s with knots := PKnots.configure E s.knots }
  let r := backwardLegsM L mueq E s.knots s.datas
  let s := { s with datas := r.1 }
  let T : BT 𝕜 nc0 (nx :: shape E) := .cons (-(0 : 𝕜) • (1 : Mat 𝕜 nc0 nc0)) s.G0 s.G0ᵀ (condTM E s.datas)
  let rhs : BV 𝕜 nc0 (nx :: shape E) := .cons (-s.g0) (condRM E s.datas)
  match T.solve L.toLDL rhs with
  | none => ({ s with sol := J.1, err := J.2 }, ⟨r.2.threw, true⟩)
  | some (F, sol) =>
    let q := refineLoop T F rhs small steps sol s.err
    ({ s with sol := q.1, err := q.2 }, r.2)

/-- States of a parallel solver after any calls that return: construction or shift, new problem contents, backward passes with
any penalty and refinement settings, also with unchecked failures. -/
inductive PReach (L : LDLMem 𝕜) (nc0 : ℕ) {nx : ℕ} (E : LDims nx) : PSt 𝕜 nth nc0 E → Prop
  | new (G0 : Mat 𝕜 nc0 nx) (g0 : Vec 𝕜 nc0) (k : LKnots 𝕜 nth E) (u : LBufs 𝕜 nth E) : PReach L nc0 E (PSt.new G0 g0 k u)
  | set (s : PSt 𝕜 nth nc0 E) (G0 : Mat 𝕜 nc0 nx) (g0 : Vec 𝕜 nc0) (k : LKnots 𝕜 nth E) :
      PReach L nc0 E s → PReach L nc0 E (s.set G0 g0 k)
  | backward (s : PSt 𝕜 nth nc0 E) (mueq : 𝕜) (steps : ℕ) (small : BV 𝕜 nc0 (nx :: shape E) → Bool)
      (J : BV 𝕜 nc0 (nx :: shape E) × BV 𝕜 nc0 (nx :: shape E)) :
      PReach L nc0 E s → (backwardP L mueq steps small J s).2.threw = false →
      PReach L nc0 E (backwardP L mueq steps small J s).1

/-- The vectors of the caller, leg by leg. -/
def LTraj : {nx : ℕ} → (E : LDims nx) → PKnots 𝕜 nth E → Type _
  | _, .last _, m => Traj (Knots.chain (show Knots _ _ _ from m))
  | _, .cons _ tl, m => Traj (Knots.chain m.1) × LTraj tl m.2

/-- The parallel region of `forward` (gar/parallel-solver.hxx:212-243), on the blocks `x, λ, x, ...` of the condensed solution:
the costate at the end of a leg is its parameter.  The caller's vectors held `t`. -/
def forwardLegsM : {nx : ℕ} → (E : LDims nx) → (m : PKnots 𝕜 nth E) → LBufs 𝕜 nth E → BV 𝕜 nx (shape E) → LTraj E m → LTraj E m
  | nx, .last _, m, b, z, t =>
    match (z : BV 𝕜 nx []) with
    | .last x => forwardImplM none (show Knots _ _ _ from m) b x t
  | nx, .cons D tl, m, b, z, t =>
    match (z : BV 𝕜 nx (exit D :: exit D :: shape tl)) with
    | .cons x (.cons lam rest) =>
      (forwardImplM (some lam) m.1 b.1 x t.1, forwardLegsM tl m.2 b.2 rest t.2)

/-- The knots of a leg with terms `k`, as a pass finds them if the parametric blocks are in order. -/
def legKnots : {nx : ℕ} → (D : Dims nx) → Knots 𝕜 nth D → Knots 𝕜 (exit D) D
  | _, .last _ _ _, k => Knot.configure (show Knot _ _ _ _ _ _ from k)
  | _, .cons _ _ tl, k => (k.1.addParameterization (exit tl), legKnots tl k.2)

/-- The same for all legs. -/
def legK : {nx : ℕ} → (E : LDims nx) → LKnots 𝕜 nth E → PKnots 𝕜 nth E
  | _, .last _, k => k
  | _, .cons D tl, k => (legKnots D k.1, legK tl k.2)

/-- They are the legs of `Model/Parallel`. -/
theorem chain_eq : {nx : ℕ} → (D : Dims nx) → (k : Knots 𝕜 nth D) → (legKnots D k).chain = (seg D k).leg
  | _, .last _ _ _, _ => rfl
  | _, .cons _ _ tl, k => congrArg (Chain.cons _) (chain_eq tl k.2)

/-- `xs`, `us`, `vs`, `lbdas` of the caller after `forward`: the trajectories of the legs one after the other, with the costates
of the condensed solution between them (gar/parallel-solver.hxx:217-221). -/
def joinT : {nx : ℕ} → (E : LDims nx) → (k : LKnots 𝕜 nth E) → LTraj E (legK E k) → BV 𝕜 nx (shape E) → Traj (legs E k).join
  | _, .last _, _, t, _ => t
  | nx, .cons D tl, k, t, z =>
    match (z : BV 𝕜 nx (exit D :: exit D :: shape tl)) with
    | .cons _ (.cons lam rest) => glue (seg D k.1) (chain_eq D k.1 ▸ t.1) lam (joinT tl k.2 t.2 rest)

/-- `forward` (gar/parallel-solver.hxx:211-246) on a problem with terms `k`; the caller's vectors held `t`. -/
def forwardP {nc0 nx : ℕ} {E : LDims nx} (k : LKnots 𝕜 nth E) (s : PSt 𝕜 nth nc0 E) (t : LTraj E (legK E k)) :
    Vec 𝕜 nc0 × Traj (legs E k).join :=
  match s.sol with
  | .cons lam0 z => (lam0, joinT E k (forwardLegsM E (legK E k) s.datas z t) z)

end Aligator.ParMem
