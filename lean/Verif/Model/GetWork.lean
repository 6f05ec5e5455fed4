import Mathlib.Data.Nat.Basic

/-!
# Model of the work splitting of the parallel LQ solver
-/

namespace Aligator.Gar

/-- `workrange_t` (gar/parallel-solver.hxx:16-19). -/
structure WorkRange where
  beg : ℕ
  stop : ℕ
  deriving DecidableEq, Repr

/-- `get_work` (gar/parallel-solver.hxx:23-28) on mathematical integers. -/
def getWork (horz tid nthr : ℕ) : WorkRange where
  beg := tid * (horz + 1) / nthr
  stop := (tid + 1) * (horz + 1) / nthr

/-- `get_work` (gar/parallel-solver.hxx:23-28) as compiled: `uint` is a 32-bit unsigned integer and every
operation wraps around. -/
def getWork32 (horz tid nthr : UInt32) : UInt32 × UInt32 :=
  (tid * (horz + 1) / nthr, (tid + 1) * (horz + 1) / nthr)

end Aligator.Gar
