import Mathlib.Algebra.Order.Field.Basic
import Mathlib.Algebra.BigOperators.Intervals

/-!
# Model of the Bunch–Kaufman factorisation (unblocked algorithm and solve)

Models `include/aligator/core/bunchkaufman.hpp` for real scalars (`conj`, `real` are the identity).
Matrices are index-level arrays `ℕ → ℕ → 𝕜` with an explicit number of rows `n`; loops are folds over
index ranges in the order of the code, every assignment is one update of the array.
The blocked variant used for `n > 32` is in `Verif/Model/BunchKaufmanBlocked.lean`.
-/

namespace Aligator.BK

variable {𝕜 : Type*} [Field 𝕜] [LinearOrder 𝕜]

/-- Storage of a matrix; only entries with indices `< n` are meaningful. -/
abbrev Arr (𝕜 : Type*) := ℕ → ℕ → 𝕜

/-- `a(i, j) = v`. -/
def setE (a : Arr 𝕜) (i j : ℕ) (v : 𝕜) : Arr 𝕜 :=
  fun i' j' => if i' = i ∧ j' = j then v else a i' j'

/-- `swap(a(i, j), a(i', j'))`. -/
def swapE (a : Arr 𝕜) (i j i' j' : ℕ) : Arr 𝕜 :=
  setE (setE a i j (a i' j')) i' j' (a i j)

/-- `for (Index j = lo; j < lo + len; ++j) body(j)`. -/
def forLen {S : Type*} (body : ℕ → S → S) (lo : ℕ) : ℕ → S → S
  | 0, s => s
  | len + 1, s => body (lo + len) (forLen body lo len s)

/-- `for (Index j = lo; j < hi; ++j) body(j)`. -/
def forRange {S : Type*} (lo hi : ℕ) (body : ℕ → S → S) (s : S) : S := forLen body lo (hi - lo) s

/-- Eigen's `segment(lo, len + 1).maxCoeff(&i)`: the maximum and the (absolute) index of its first
occurrence. -/
def maxCoeff (f : ℕ → 𝕜) (lo : ℕ) : ℕ → 𝕜 × ℕ
  | 0 => (f lo, lo)
  | len + 1 =>
    let m := maxCoeff f lo len
    if m.1 < f (lo + len + 1) then (f (lo + len + 1), lo + len + 1) else m

/-- Pivot selection (bunchkaufman.hpp:46-84): `none` is the `NumericalIssue` return, otherwise
(`k_step == 2`, `kp`). `alpha` is the constant of line 28. -/
def choosePivot (alpha : 𝕜) (n k : ℕ) (a : Arr 𝕜) : Option (Bool × ℕ) :=
  let abs_akk := |a k k|
  -- bunchkaufman.hpp:51-54
  let cm : 𝕜 × ℕ := if k + 1 < n then maxCoeff (fun i => |a i k|) (k + 1) (n - k - 2) else (0, k + 1)
  let colmax := cm.1
  let imax := cm.2
  if max abs_akk colmax = 0 then none
  else if colmax * alpha ≤ abs_akk then some (false, k)
  else
    -- bunchkaufman.hpp:63-72
    let rowmax0 : 𝕜 := if 0 < imax - k then (maxCoeff (fun j => |a imax j|) k (imax - k - 1)).1 else 0
    let rowmax : 𝕜 :=
      if 0 < n - imax - 1 then
        max rowmax0 (maxCoeff (fun i => |a i imax|) (imax + 1) (n - imax - 2)).1
      else rowmax0
    if (alpha * colmax) * (colmax / rowmax) ≤ abs_akk then some (false, k)
    else if alpha * rowmax ≤ |a imax imax| then some (false, imax)
    else some (true, imax)

/-- Symmetric interchange of rows/columns `kk` and `kp` of the trailing lower triangle
(bunchkaufman.hpp:86-105). -/
def interchange (n k : ℕ) (two : Bool) (kp : ℕ) (a : Arr 𝕜) : Arr 𝕜 :=
  let kk := if two then k + 1 else k
  if kp ≠ kk then
    let a := forRange (kp + 1) n (fun i a => swapE a i kk i kp) a
    let a := forRange (kk + 1) kp (fun j a => swapE a j kk kp j) a
    let a := swapE a kk kk kp kp
    if two then swapE a (k + 1) k kp k else a
  else a

/-- 1x1 elimination step (bunchkaufman.hpp:107-125). -/
def eliminate1 (n k : ℕ) (a : Arr 𝕜) : Arr 𝕜 :=
  let d11 := 1 / a k k
  let a := setE a k k d11
  let a := forRange (k + 1) n (fun j a =>
    let d11xj := a j k * d11
    forRange j n (fun i a => setE a i j (a i j - d11xj * a i k)) a) a
  forRange (k + 1) n (fun i a => setE a i k (a i k * d11)) a

/-- 2x2 elimination step (bunchkaufman.hpp:126-154). -/
def eliminate2 (n k : ℕ) (a : Arr 𝕜) : Arr 𝕜 :=
  let d21_abs := |a (k + 1) k|
  let d21_inv := 1 / d21_abs
  let d11 := d21_inv * a (k + 1) (k + 1)
  let d22 := d21_inv * a k k
  let t := 1 / (d11 * d22 - 1)
  let d := t * d21_inv
  let d21 := a (k + 1) k * d21_inv
  let a := setE a k k (d11 * d)
  let a := setE a (k + 1) k (-d21 * d)
  let a := setE a (k + 1) (k + 1) (d22 * d)
  forRange (k + 2) n (fun j a =>
    let wk := (a j k * d11 - a j (k + 1) * d21) * d
    let wkp1 := (a j (k + 1) * d22 - a j k * d21) * d
    let a := forRange j n (fun i a => setE a i j (a i j - (a i k * wk + a i (k + 1) * wkp1))) a
    let a := setE a j k wk
    setE a j (k + 1) wkp1) a

/-- The array and the pivot vector (`pivots[k] = kp`, or `-1 - kp` twice for a 2x2 block). -/
structure St (𝕜 : Type*) where
  a : Arr 𝕜
  piv : ℕ → ℤ

/-- Recording of the pivot (bunchkaufman.hpp:161-166). -/
def setPivots (k : ℕ) (two : Bool) (kp : ℕ) (piv : ℕ → ℤ) : ℕ → ℤ :=
  if two then Function.update (Function.update piv k (-1 - kp)) (k + 1) (-1 - kp)
  else Function.update piv k kp

/-- One iteration of the main loop (bunchkaufman.hpp:45-169): new state and `k_step == 2`. -/
def bkStep (alpha : 𝕜) (n k : ℕ) (s : St 𝕜) : Option (St 𝕜 × Bool) :=
  match choosePivot alpha n k s.a with
  | none => none
  | some (two, kp) =>
    let a := interchange n k two kp s.a
    let a := if two then eliminate2 n k a else eliminate1 n k a
    some (⟨a, setPivots k two kp s.piv⟩, two)

/-- The main loop of `bunch_kaufman_in_place_unblocked` (bunchkaufman.hpp:44-169) from index `k`. -/
def bkLoop (alpha : 𝕜) (n k : ℕ) (s : St 𝕜) : Option (St 𝕜) :=
  if k < n then
    match bkStep alpha n k s with
    | none => none
    | some (s', two) => bkLoop alpha n (if two then k + 2 else k + 1) s'
  else some s
termination_by n - k
decreasing_by split <;> omega

/-- `bunch_kaufman_in_place_unblocked` (bunchkaufman.hpp:22-169); `none` is `NumericalIssue`. -/
def unblocked (alpha : 𝕜) (n : ℕ) (s : St 𝕜) : Option (St 𝕜) :=
  if n = 0 then some s
  else if n = 1 then
    if |s.a 0 0| = 0 then none else some ⟨setE s.a 0 0 (1 / s.a 0 0), s.piv⟩
  else bkLoop alpha n 0 s

/-- Extraction of the sub-diagonal (bunchkaufman.hpp:389-401), from index `k`. -/
def extractSubdiag (n : ℕ) (piv : ℕ → ℤ) (k : ℕ) (s : Arr 𝕜 × (ℕ → 𝕜)) : Arr 𝕜 × (ℕ → 𝕜) :=
  if k < n then
    if piv k < 0 then
      extractSubdiag n piv (k + 2)
        (setE s.1 (k + 1) k 0, Function.update (Function.update s.2 k (s.1 (k + 1) k)) (k + 1) 0)
    else extractSubdiag n piv (k + 1) (s.1, Function.update s.2 k 0)
  else s
termination_by n - k

/-- `a.row(r).segment(0, k).swap(a.row(p).segment(0, k))`. -/
def swapRows (k r p : ℕ) (a : Arr 𝕜) : Arr 𝕜 :=
  fun i j => if j < k then (if i = r then a p j else if i = p then a r j else a i j) else a i j

/-- Index encoded by a pivot entry: `p < 0 ? -1 - p : p`. -/
def pivIdx (p : ℤ) : ℕ := if p < 0 then (-1 - p).toNat else p.toNat

/-- Final row interchanges (bunchkaufman.hpp:403-415), from index `k`. -/
def finalSwaps (n : ℕ) (piv : ℕ → ℤ) (k : ℕ) (a : Arr 𝕜) : Arr 𝕜 :=
  if k < n then
    if piv k < 0 then finalSwaps n piv (k + 2) (swapRows k (k + 1) (pivIdx (piv k)) a)
    else finalSwaps n piv (k + 1) (swapRows k k (pivIdx (piv k)) a)
  else a
termination_by n - k

/-- Content of a `BunchKaufman` object after a successful `compute`. -/
structure Factored (𝕜 : Type*) where
  L : Arr 𝕜
  subdiag : ℕ → 𝕜
  piv : ℕ → ℤ

/-- Tail of `bunch_kaufman_in_place` after the factorisation loop (bunchkaufman.hpp:386-418). -/
def finish (n : ℕ) (s : St 𝕜) : Factored 𝕜 :=
  let e := extractSubdiag n s.piv 0 (s.a, fun _ => 0)
  { L := finalSwaps n s.piv 0 e.1, subdiag := e.2, piv := s.piv }

/-- `compute` copies only the triangle `UpLo = Lower` of the argument into a zeroed matrix
(bunchkaufman.hpp:655-670). -/
def initial (m : Arr 𝕜) : St 𝕜 := ⟨fun i j => if j ≤ i then m i j else 0, fun _ => 0⟩

/-- Exchange of two entries of a column vector (`x.row(r).swap(x.row(p))` on one right-hand side). -/
def swapV (r p : ℕ) (x : ℕ → 𝕜) : ℕ → 𝕜 :=
  fun i => if i = r then x p else if i = p then x r else x i

/-- Forward permutation (bunchkaufman.hpp:454-466), from index `k`. -/
def permute (n : ℕ) (piv : ℕ → ℤ) (k : ℕ) (x : ℕ → 𝕜) : ℕ → 𝕜 :=
  if k < n then
    if piv k < 0 then permute n piv (k + 2) (swapV (k + 1) (pivIdx (piv k)) x)
    else permute n piv (k + 1) (swapV k (pivIdx (piv k)) x)
  else x
termination_by n - k

/-- Elimination of one column of a unit lower triangular system. -/
def elimCol (n : ℕ) (a : Arr 𝕜) (c : ℕ) (x : ℕ → 𝕜) : ℕ → 𝕜 :=
  fun i => if c < i ∧ i < n then x i - a i c * x c else x i

/-- Eigen's `triangularView<UnitLower>().solveInPlace(x)` (column-oriented forward substitution),
columns `0, ..., c - 1`. -/
def lsolve (n : ℕ) (a : Arr 𝕜) : ℕ → (ℕ → 𝕜) → (ℕ → 𝕜)
  | 0, x => x
  | c + 1, x => elimCol n a c (lsolve n a c x)

/-- Back-substitution for one row of the transposed unit lower triangular system. -/
def ucol (n : ℕ) (a : Arr 𝕜) (c : ℕ) (x : ℕ → 𝕜) : ℕ → 𝕜 :=
  fun i => if i = c then x c - ∑ j ∈ Finset.Ico (c + 1) n, a j c * x j else x i

/-- Eigen's `triangularView<UnitUpper>().solveInPlace(x)` on the adjoint: unknowns `c - 1, ..., 0`. -/
def usolve (n : ℕ) (a : Arr 𝕜) : ℕ → (ℕ → 𝕜) → (ℕ → 𝕜)
  | 0, x => x
  | c + 1, x => usolve n a c (ucol n a c x)

/-- Product with the stored inverse of the block diagonal (bunchkaufman.hpp:472-501), from `k`. -/
def dsolve (n : ℕ) (f : Factored 𝕜) (k : ℕ) (x : ℕ → 𝕜) : ℕ → 𝕜 :=
  if k < n then
    if f.piv k < 0 then
      dsolve n f (k + 2)
        (fun i => if i = k then x k * f.L k k + x (k + 1) * f.subdiag k
          else if i = k + 1 then x (k + 1) * f.L (k + 1) (k + 1) + x k * f.subdiag k
          else x i)
    else dsolve n f (k + 1) (fun i => if i = k then x k * f.L k k else x i)
  else x
termination_by n - k

/-- Backward permutation (bunchkaufman.hpp:505-517), with loop variable `k`. -/
def unpermute (piv : ℕ → ℤ) : ℕ → (ℕ → 𝕜) → (ℕ → 𝕜)
  | 0, x => x
  | k + 1, x =>
    if piv k < 0 then unpermute piv (k - 1) (swapV k (pivIdx (piv k)) x)
    else unpermute piv k (swapV k (pivIdx (piv k)) x)
termination_by k => k

/-- `bunch_kaufman_solve_in_place` (bunchkaufman.hpp:449-518) on one right-hand side. -/
def solve (n : ℕ) (f : Factored 𝕜) (x : ℕ → 𝕜) : ℕ → 𝕜 :=
  let x := permute n f.piv 0 x
  let x := lsolve n f.L n x
  let x := dsolve n f 0 x
  let x := usolve n f.L n x
  unpermute f.piv n x

end Aligator.BK
