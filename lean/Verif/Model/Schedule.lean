import Mathlib.Data.List.Basic
import Mathlib.Logic.Function.Basic
import Verif.Model.GetWork

/-!
# Model of the parallel regions (OpenMP) and of the parallel accesses of the LQ solver

A parallel region is executed by threads; a thread executes a list of elementary steps.  An elementary
step reads some memory cells and overwrites one cell.  The execution of the region is an interleaving of
the lists of the threads.  Weak-memory effects are not modelled: they are invisible for programs without
data races, and the absence of races is part of what is proved.
-/

namespace Aligator.Sched

/-- One elementary step: reads the cells in `reads`, overwrites `tgt` with `val`. -/
structure Op (A V : Type*) where
  reads : A → Prop
  tgt : A
  val : (A → V) → V
  dep : ∀ m m' : A → V, (∀ a, reads a → m a = m' a) → val m = val m'

variable {A V : Type*} [DecidableEq A]

/-- Execution of one step on the memory. -/
def Op.exec (o : Op A V) (m : A → V) : A → V := Function.update m o.tgt (o.val m)

/-- Execution of a list of steps by one thread. -/
def run (l : List (Op A V)) (m : A → V) : A → V := l.foldl (fun m o => o.exec m) m

/-- `Interleave ts out`: `out` is an interleaving of the lists `ts`. -/
inductive Interleave {α : Type*} : List (List α) → List α → Prop
  | done (ts : List (List α)) : (∀ l ∈ ts, l = []) → Interleave ts []
  | step (pre : List (List α)) (a : α) (l : List α) (post : List (List α)) (out : List α) :
      Interleave (pre ++ l :: post) out → Interleave (pre ++ (a :: l) :: post) (a :: out)

/-- `#pragma omp parallel for num_threads(k) schedule(auto)` over `0 ≤ i < n`
(core/traj-opt-problem.hxx:68, :104): the iterations are distributed in any way among any number of
threads, each thread executes its iterations in any order, and the threads interleave in any way. -/
def ParallelFor (prog : ℕ → List (Op A V)) (n : ℕ) (m m' : A → V) : Prop :=
  ∃ (threads : List (List ℕ)) (out : List (Op A V)), threads.flatten.Perm (List.range n) ∧
    Interleave (threads.map fun is => is.flatMap prog) out ∧ m' = run out m

/-- The same loop without the pragma. -/
def seqFor (prog : ℕ → List (Op A V)) (n : ℕ) (m : A → V) : A → V :=
  run ((List.range n).flatMap prog) m

/-- `#pragma omp parallel num_threads(k)` where thread `i` runs `prog i` (gar/parallel-solver.hxx:150,
:224). -/
def ParallelRegion (prog : ℕ → List (Op A V)) (k : ℕ) (m m' : A → V) : Prop :=
  ∃ out, Interleave ((List.range k).map prog) out ∧ m' = run out m

/-! ### Accesses of the parallel Riccati solver -/

/-- The memory cells written by the parallel regions of the LQ solver: the factor of a stage
(`datas[t]`), and the entries `xs[t]`, `us[t]`, `vs[t]`, `lbdas[t]` of the output. -/
inductive Cell
  | data (t : ℕ) | x (t : ℕ) | u (t : ℕ) | v (t : ℕ) | l (t : ℕ)
  deriving DecidableEq

/-- A step that overwrites `tgt` with a function of the values of the listed cells. -/
def Op.ofList (tgt : A) (cells : List A) (f : List V → V) : Op A V where
  reads a := a ∈ cells
  tgt := tgt
  val m := f (cells.map m)
  dep m m' h := by rw [List.map_congr_left fun a ha => h a ha]

/-- `Kernel::backwardImpl` on the leg `[beg, end)` (gar/parallel-solver.hxx:158-163,
gar/riccati-kernel.hxx:105-129): last knot first; the step at `t` rewrites `datas[t]` from itself and
from `datas[t + 1]`; an empty leg returns at once.  The arithmetic (`fT`, `fS`) is left open; the knots are
read-only in the region. -/
def backwardLeg (fT : ℕ → List V → V) (fS : ℕ → List V → V) (beg stop : ℕ) : List (Op Cell V) :=
  if stop ≤ beg then [] else
  .ofList (.data (stop - 1)) [.data (stop - 1)] (fT (stop - 1)) ::
    ((List.range' beg (stop - 1 - beg)).reverse.map fun t =>
      .ofList (.data t) [.data t, .data (t + 1)] (fS t))

/-- One iteration of `Kernel::forwardImpl` (gar/riccati-kernel.hxx:324-375) inside the leg ending at
`stop`; `th` is the cell of the parameter, `lbdas[end]` for all legs but the last
(gar/parallel-solver.hxx:235-236).  `fU`, `fV`, `fX`, `fL` stand for the arithmetic. -/
def forwardStage (fU fV fX fL : ℕ → List V → V) (th : List Cell) (stop t : ℕ) : List (Op Cell V) :=
  [.ofList (.u t) (.data t :: .u t :: .x t :: th) (fU t),
   .ofList (.v t) (.data t :: .v t :: .x t :: th) (fV t)] ++
  if t + 1 < stop then
    [.ofList (.x (t + 1)) (.data t :: .x t :: th) (fX t),
     .ofList (.l (t + 1)) (.data (t + 1) :: .x (t + 1) :: th) (fL t)]
  else []

/-- `Kernel::forwardImpl` on the leg `[beg, end)` of thread `i` (gar/parallel-solver.hxx:226-240).  On an empty
leg the code wraps around (`N = (uint)(0 - 1)`); the model then does nothing and the theorem excludes it. -/
def forwardLeg (fU fV fX fL : ℕ → List V → V) (last : Bool) (beg stop : ℕ) : List (Op Cell V) :=
  (List.range' beg (stop - beg)).flatMap
    (forwardStage fU fV fX fL (if last then [] else [.l stop]) stop)

/-- The program of thread `i` in `ParallelRiccatiSolver::backward` (gar/parallel-solver.hxx:150-164). -/
def backwardThread (fT fS : ℕ → List V → V) (N nthr i : ℕ) : List (Op Cell V) :=
  backwardLeg fT fS (Gar.getWork N i nthr).beg (Gar.getWork N i nthr).stop

/-- The program of thread `i` in `ParallelRiccatiSolver::forward` (gar/parallel-solver.hxx:224-241). -/
def forwardThread (fU fV fX fL : ℕ → List V → V) (N nthr i : ℕ) : List (Op Cell V) :=
  forwardLeg fU fV fX fL (!(decide (i < nthr - 1))) (Gar.getWork N i nthr).beg (Gar.getWork N i nthr).stop

end Aligator.Sched
