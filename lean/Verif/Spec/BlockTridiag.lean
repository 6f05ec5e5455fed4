import Verif.Model.BlockTridiag

/-!
# Specification of the block-tridiagonal solver: the dense matrix and dense vectors
-/

namespace Aligator.Gar

open Matrix

variable {𝕜 : Type*} [Field 𝕜]

/-- Row index of a block vector: a row of the first block or a row of the rest. -/
def Idx : ℕ → List ℕ → Type
  | n, [] => Fin n
  | n, m :: ms => Fin n ⊕ Idx m ms

/-- All rows as one dense vector. -/
def BV.flat : {n : ℕ} → {ns : List ℕ} → BV 𝕜 n ns → Idx n ns → 𝕜
  | _, _, .last v => v
  | _, _, .cons v tl => Sum.elim v tl.flat

/-- The row block `[B, 0, ..., 0]`. -/
def padRight {n m : ℕ} : {ms : List ℕ} → Mat 𝕜 n m → Matrix (Fin n) (Idx m ms) 𝕜
  | [], B => B
  | _ :: _, B => fromCols B 0

/-- The column block `[C; 0; ...; 0]`. -/
def padDown {n m : ℕ} : {ms : List ℕ} → Mat 𝕜 m n → Matrix (Idx m ms) (Fin n) 𝕜
  | [], C => C
  | _ :: _, C => fromRows C 0

/-- The dense matrix (`blockTridiagToDenseMatrix`, block-tridiagonal.hpp:13-46, up to the numbering of
the rows). -/
def BT.dense : {n : ℕ} → {ns : List ℕ} → BT 𝕜 n ns → Matrix (Idx n ns) (Idx n ns) 𝕜
  | _, _, .last D => D
  | _, _, .cons D B C tl => fromBlocks D (padRight B) (padDown C) tl.dense

instance Idx.fintype : (n : ℕ) → (ns : List ℕ) → Fintype (Idx n ns)
  | n, [] => inferInstanceAs (Fintype (Fin n))
  | n, m :: ms => @instFintypeSum (Fin n) (Idx m ms) _ (Idx.fintype m ms)

instance Idx.decEq : (n : ℕ) → (ns : List ℕ) → DecidableEq (Idx n ns)
  | n, [] => inferInstanceAs (DecidableEq (Fin n))
  | n, m :: ms => @instDecidableEqSum (Fin n) (Idx m ms) _ (Idx.decEq m ms)

/-- Symmetric block-tridiagonal data: symmetric diagonal blocks, subdiagonal = superdiagonal transposed. -/
def BT.Symm : {n : ℕ} → {ns : List ℕ} → BT 𝕜 n ns → Prop
  | _, _, .last D => D.IsSymm
  | _, _, .cons D B C tl => D.IsSymm ∧ C = Bᵀ ∧ tl.Symm

/-- Every trailing block matrix (rows and columns from block `i` on, for every `i`) is invertible. -/
def BT.TrailingInvertible : {n : ℕ} → {ns : List ℕ} → BT 𝕜 n ns → Prop
  | _, _, .last D => IsUnit (BT.last D).dense.det
  | _, _, .cons D B C tl => IsUnit (BT.cons D B C tl).dense.det ∧ tl.TrailingInvertible

end Aligator.Gar
