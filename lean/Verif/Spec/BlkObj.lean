import Mathlib.Data.List.Basic
import Verif.Model.BlkObj

/-!
# Specification: block matrices as values

A block matrix is a partition of rows and columns and a matrix; its block `(i, j)` is the submatrix at the partial sums.  No
storage, strides or index arrays.  Objects that were moved from have no value until they are assigned again.
-/

namespace Aligator.BlkObj.Spec

variable {K : Type}

/-- A value: sizes of the row and column blocks, entries (`none`: nothing stored yet). -/
structure Val (K : Type) where
  rd : List ℕ
  cd : List ℕ
  at' : ℕ → ℕ → Option K

/-- State of an object. -/
inductive Slot (K : Type)
  | val (v : Val K)
  | moved

/-- The entries of a matrix given by columns. -/
def entries (M : Blocks.Plain (Option K)) (r c : ℕ) : Option K := (M.buf[r + c * M.rows]?).join

/-- `[lo, lo + len)` contains `k`. -/
def inside (lo len k : ℕ) : Prop := lo ≤ k ∧ k < lo + len

instance (lo len k : ℕ) : Decidable (inside lo len k) := by unfold inside; infer_instance

/-- The value with block `(i, j)` replaced. -/
def Val.set (v : Val K) (i j m n : ℕ) (X : ℕ → ℕ → K) : Val K :=
  { v with at' := fun r c =>
      if inside (v.rd.take i).sum m r ∧ inside (v.cd.take j).sum n c then
        some (X (r - (v.rd.take i).sum) (c - (v.cd.take j).sum))
      else v.at' r c }

/-- What each statement means on values; `none`: a misuse (this includes exchanging matrices with different partitions, data of
another shape than the partition, and using an object that was moved from other than by assigning it or destroying it). -/
def step [Zero K] (T : Tpl) (s : ℕ → Option (Slot K)) : Op K → Option ((ℕ → Option (Slot K)) × Out K)
  | .create n => match s n with
    | none => some (Function.update s n (some (.val ⟨dims0 T.N, dims0 T.M, fun _ _ => none⟩)), .unit)
    | some _ => none
  | .dims n rd cd => match s n with
    | none => some (Function.update s n (some (.val ⟨rd, cd, fun _ _ => none⟩)), .unit)
    | some _ => none
  | .data n M rd cd => match s n with
    | none => if rd.sum = M.rows ∧ cd.sum = M.cols then
        some (Function.update s n (some (.val ⟨rd, cd, entries M⟩)), .unit) else none
    | some _ => none
  | .copy n m => match s n, s m with
    | none, some (.val v) => some (Function.update s n (some (.val v)), .unit)
    | _, _ => none
  | .move n m => match s n, s m with
    | none, some (.val v) => some (Function.update (Function.update s n (some (.val v))) m (some .moved), .unit)
    | _, _ => none
  | .assign n m => match s n, s m with
    | some _, some (.val v) => some (Function.update s n (some (.val v)), .unit)
    | _, _ => none
  | .moveAssign n m => if n = m then none else match s n, s m with
    | some _, some (.val v) => some (Function.update (Function.update s n (some (.val v))) m (some .moved), .unit)
    | _, _ => none
  | .destroy n => match s n with
    | some _ => some (Function.update s n none, .unit)
    | none => none
  | .setZero n => match s n with
    | some (.val v) => some (Function.update s n (some (.val { v with at' := fun _ _ => some 0 })), .unit)
    | _ => none
  | .zero n rd cd => match s n with
    | none => some (Function.update s n (some (.val ⟨rd, cd, fun _ _ => some 0⟩)), .unit)
    | some _ => none
  | .setMat n M => match s n with
    | some (.val v) => if M.rows = v.rd.sum ∧ M.cols = v.cd.sum then
        some (Function.update s n (some (.val { v with at' := entries M })), .unit) else none
    | _ => none
  | .swap n m => match s n, s m with
    | some (.val v), some (.val u) => if v.rd = u.rd ∧ v.cd = u.cd then
        some (Function.update (Function.update s n (some (.val u))) m (some (.val v)), .unit) else none
    | _, _ => none
  | .read n i j a b => match s n with
    | some (.val v) => match v.rd[i]?, v.cd[j]? with
      | some m, some k => if a < m ∧ b < k then
          some (s, .entry (v.at' ((v.rd.take i).sum + a) ((v.cd.take j).sum + b))) else none
      | _, _ => none
    | _ => none
  | .write n i j X => match s n with
    | some (.val v) => match v.rd[i]?, v.cd[j]? with
      | some m, some k => some (Function.update s n (some (.val (v.set i j m k X))), .unit)
      | _, _ => none
    | _ => none
  | .sizes n => match s n with
    | some (.val v) => some (s, .sizes v.rd.sum v.cd.sum)
    | _ => none
  | .dimsOf n => match s n with
    | some (.val v) => some (s, .dims v.rd v.cd)
    | _ => none

/-- A program on values. -/
def run [Zero K] (T : Tpl) : (ℕ → Option (Slot K)) → List (Op K) → Option ((ℕ → Option (Slot K)) × List (Out K))
  | s, [] => some (s, [])
  | s, o :: os => match step T s o with
    | some (s, x) => (run T s os).map fun r => (r.1, x :: r.2)
    | none => none

/-- Matrices that a client can pass: as many entries as the shape says. -/
def Op.wellFormed : Op K → Prop
  | .data _ M _ _ => M.buf.length = M.rows * M.cols
  | .setMat _ M => M.buf.length = M.rows * M.cols
  | _ => True

end Aligator.BlkObj.Spec
