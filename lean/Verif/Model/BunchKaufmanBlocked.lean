import Verif.Model.BunchKaufman

/-!
# Model of the blocked Bunch–Kaufman factorisation and of `compute`

Models `include/aligator/core/bunchkaufman.hpp`, `bunch_kaufman_in_place_one_block` (lines 171-344),
`bunch_kaufman_in_place` (346-418) and `BunchKaufman::compute` (650-674), for real scalars.
Eigen block assignments are written as one functional update of the rectangle they touch.
-/

namespace Aligator.BK

variable {𝕜 : Type*} [Field 𝕜] [LinearOrder 𝕜]

/-- State of `bunch_kaufman_in_place_one_block`: matrix, workspace `w` (`n x nb`), pivots. -/
structure BSt (𝕜 : Type*) where
  a : Arr 𝕜
  w : Arr 𝕜
  piv : ℕ → ℤ

/-- Dot product of `a.row(i).segment(0, k)` and `w.row(j).segment(0, k)`. -/
def dotRows (k : ℕ) (a w : Arr 𝕜) (i j : ℕ) : 𝕜 := ∑ b ∈ Finset.range k, a i b * w j b

/-- Updated column `k` into the workspace (bunchkaufman.hpp:190-196). -/
def loadCol (n k : ℕ) (a w : Arr 𝕜) : Arr 𝕜 :=
  fun i j => if j = k ∧ k ≤ i ∧ i < n then a i k - dotRows k a w i k else w i j

/-- Updated row/column `imax` into column `k + 1` of the workspace (bunchkaufman.hpp:216-226). -/
def loadRow (n k imax : ℕ) (a w : Arr 𝕜) : Arr 𝕜 :=
  fun i j => if j = k + 1 ∧ k ≤ i ∧ i < n then
    (if i < imax then a imax i else a i imax) - dotRows k a w i imax else w i j

/-- Pivot selection of the blocked algorithm (bunchkaufman.hpp:198-252), on the loaded workspace:
`none` is `NumericalIssue`, otherwise (`k_step == 2`, `kp`, workspace). -/
def blockPivot (alpha : 𝕜) (n k : ℕ) (a w : Arr 𝕜) : Option (Bool × ℕ × Arr 𝕜) :=
  let abs_akk := |w k k|
  let cm : 𝕜 × ℕ := if k + 1 < n then maxCoeff (fun i => |w i k|) (k + 1) (n - k - 2) else (0, k + 1)
  let colmax := cm.1
  let imax := cm.2
  if max abs_akk colmax = 0 then none
  else if colmax * alpha ≤ abs_akk then some (false, k, w)
  else
    let w := loadRow n k imax a w
    let rowmax0 : 𝕜 :=
      if 0 < imax - k then (maxCoeff (fun i => |w i (k + 1)|) k (imax - k - 1)).1 else 0
    let rowmax : 𝕜 :=
      if 0 < n - imax - 1 then
        max rowmax0 (maxCoeff (fun i => |w i (k + 1)|) (imax + 1) (n - imax - 2)).1
      else rowmax0
    if (alpha * colmax) * (colmax / rowmax) ≤ abs_akk then some (false, k, w)
    else if alpha * rowmax ≤ |w imax (k + 1)| then
      some (false, imax, fun i j => if j = k ∧ k ≤ i ∧ i < n then w i (k + 1) else w i j)
    else some (true, imax, w)

/-- Interchange in the matrix (bunchkaufman.hpp:255-267). -/
def blockInterchange (n k : ℕ) (two : Bool) (kp : ℕ) (a : Arr 𝕜) : Arr 𝕜 :=
  let kk := if two then k + 1 else k
  if kp ≠ kk then
    let a := setE a kp kp (a kk kk)
    let a := forRange (kk + 1) kp (fun j a => setE a kp j (a j kk)) a
    let a : Arr 𝕜 := fun i j => if j = kp ∧ kp < i ∧ i < n then a i kk else a i j
    swapRows k kk kp a
  else a

/-- Interchange in the workspace (bunchkaufman.hpp:268). -/
def blockInterchangeW (k : ℕ) (two : Bool) (kp : ℕ) (w : Arr 𝕜) : Arr 𝕜 :=
  let kk := if two then k + 1 else k
  if kp ≠ kk then swapRows (kk + 1) kk kp w else w

/-- Columns of `L` for a 1x1 pivot (bunchkaufman.hpp:271-279). -/
def blockStore1 (n k : ℕ) (a w : Arr 𝕜) : Arr 𝕜 :=
  let a : Arr 𝕜 := fun i j => if j = k ∧ k ≤ i ∧ i < n then w i k else a i j
  let d11 := 1 / w k k
  let a := setE a k k d11
  fun i j => if j = k ∧ k < i ∧ i < n then a i k * d11 else a i j

/-- Columns of `L` for a 2x2 pivot (bunchkaufman.hpp:280-307). -/
def blockStore2 (n k : ℕ) (a w : Arr 𝕜) : Arr 𝕜 :=
  let d21_abs := |w (k + 1) k|
  let d21_inv := 1 / d21_abs
  let d11 := d21_inv * w (k + 1) (k + 1)
  let d22 := d21_inv * w k k
  let t := 1 / (d11 * d22 - 1)
  let d21 := w (k + 1) k * d21_inv
  let d := t * d21_inv
  let a := setE a k k (d11 * d)
  let a := setE a (k + 1) k (-d21 * d)
  let a := setE a (k + 1) (k + 1) (d22 * d)
  forRange (k + 2) n (fun j a =>
    let wk := (w j k * d11 - w j (k + 1) * d21) * d
    let wkp1 := (w j (k + 1) * d22 - w j k * d21) * d
    setE (setE a j k wk) j (k + 1) wkp1) a

/-- One iteration of the loop of `one_block` (bunchkaufman.hpp:189-321). -/
def blockStep (alpha : 𝕜) (n k : ℕ) (s : BSt 𝕜) : Option (BSt 𝕜 × Bool) :=
  match blockPivot alpha n k s.a (loadCol n k s.a s.w) with
  | none => none
  | some (two, kp, w) =>
    let a := blockInterchange n k two kp s.a
    let w := blockInterchangeW k two kp w
    let a := if two then blockStore2 n k a w else blockStore1 n k a w
    some (⟨a, w, setPivots k two kp s.piv⟩, two)

/-- The loop of `one_block` (bunchkaufman.hpp:188-321): state and number of processed columns. -/
def blockLoop (alpha : 𝕜) (n nb k : ℕ) (s : BSt 𝕜) : Option (BSt 𝕜 × ℕ) :=
  if k < n ∧ k + 1 < nb then
    match blockStep alpha n k s with
    | none => none
    | some (s', two) => blockLoop alpha n nb (if two then k + 2 else k + 1) s'
  else some (s, k)
termination_by n - k
decreasing_by split <;> omega

/-- Undo the interchanges in the processed columns (bunchkaufman.hpp:331-343), from loop variable `j`.
The code's index is signed; it never becomes negative because a 2x2 block occupies two columns. -/
def undoSwaps (piv : ℕ → ℤ) (j : ℕ) (a : Arr 𝕜) : Arr 𝕜 :=
  let j1 := if piv j < 0 then j - 1 else j
  let jp := pivIdx (piv j)
  if h : j1 = 0 then a
  else
    let a' := if jp ≠ j then swapRows j1 jp j a else a
    if j1 - 1 = 0 then a' else undoSwaps piv (j1 - 1) a'
termination_by j
decreasing_by
  have h1 : j1 ≤ j := by simp only [j1]; split <;> omega
  omega

/-- `bunch_kaufman_in_place_one_block` (bunchkaufman.hpp:171-344) on an `n x n` view, with workspace
width `nb`: `none` is `NumericalIssue`; otherwise matrix, pivots and `processed_cols`.
The workspace content left over from previous blocks is `w`. -/
def oneBlock (alpha : 𝕜) (n nb : ℕ) (w : Arr 𝕜) (s : St 𝕜) : Option (BSt 𝕜 × ℕ) :=
  match blockLoop alpha n nb 0 ⟨s.a, w, s.piv⟩ with
  | none => none
  | some (b, k) =>
    let a : Arr 𝕜 := fun i j =>
      if k ≤ j ∧ j ≤ i ∧ i < n then b.a i j - dotRows k b.a b.w i j else b.a i j
    some (⟨undoSwaps b.piv (k - 1) a, b.w, b.piv⟩, k)

/-- `a.block(o, o, n - o, n - o)`. -/
def view (o : ℕ) (a : Arr 𝕜) : Arr 𝕜 := fun i j => a (i + o) (j + o)

/-- Content of the array after its sub-block at `o` has been overwritten by `b`. -/
def unview (o : ℕ) (a b : Arr 𝕜) : Arr 𝕜 :=
  fun i j => if o ≤ i ∧ o ≤ j then b (i - o) (j - o) else a i j

/-- Pivots of the segment `[o, o + kb)` made absolute (bunchkaufman.hpp:370-383), the others kept. -/
def absPivots (o kb : ℕ) (piv rel : ℕ → ℤ) : ℕ → ℤ :=
  fun j => if o ≤ j ∧ j < o + kb then (if 0 ≤ rel (j - o) then rel (j - o) + o else rel (j - o) - o)
    else piv j

/-- Main loop of `bunch_kaufman_in_place` (bunchkaufman.hpp:354-387) from block offset `k`.
`blocksize = w.cols()`.  Simplification: pivots of the view beyond the processed columns are not
written back (they are overwritten by the next block before being read). -/
def driver (alpha : 𝕜) (n blocksize k : ℕ) (w : Arr 𝕜) (s : St 𝕜) : Option (St 𝕜) :=
  if _h : k < n then
    if blocksize ≠ 0 ∧ blocksize < n - k then
      match oneBlock alpha (n - k) blocksize w ⟨view k s.a, fun i => s.piv (i + k)⟩ with
      | none => none
      | some (b, kb) =>
        -- the code relies on at least one column being processed (`blocksize` is 32)
        if _hkb : kb = 0 then none
        else driver alpha n blocksize (k + kb) b.w ⟨unview k s.a b.a, absPivots k kb s.piv b.piv⟩
    else
      match unblocked alpha (n - k) ⟨view k s.a, fun i => s.piv (i + k)⟩ with
      | none => none
      | some b => some ⟨unview k s.a b.a, absPivots k (n - k) s.piv b.piv⟩
  else some s
termination_by n - k

/-- `BunchKaufman::compute` (bunchkaufman.hpp:650-674): `none` when `info()` is `NumericalIssue`. -/
def compute (alpha : 𝕜) (n : ℕ) (m : Arr 𝕜) : Option (Factored 𝕜) :=
  (driver alpha n (if n ≤ 32 then 0 else 32) 0 (fun _ _ => 0) (initial m)).map (finish n)

end Aligator.BK
