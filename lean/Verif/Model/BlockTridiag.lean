import Verif.Model.Riccati

/-!
# Model of the block-tridiagonal solver

Models `include/aligator/gar/block-tridiagonal.hpp`.

The three vectors `subdiagonal`, `diagonal`, `superdiagonal` are one object `BT n ns`, where `n` is the
dimension of the first diagonal block and `ns` the dimensions of the following ones; the agreement of
the three lengths and of the block dimensions is built into the type. The run-time length check of the
code is modelled by `pack?` below, which also decides whether untyped data has consistent dimensions.
-/

namespace Aligator.Gar

open Matrix

variable {𝕜 : Type*} [Field 𝕜] [DecidableEq 𝕜]

/-- `diagonal`, `superdiagonal`, `subdiagonal` (block-tridiagonal.hpp:81-83).
`cons D B C tl`: `D = diagonal[0]`, `B = superdiagonal[0]`, `C = subdiagonal[0]`. -/
inductive BT (𝕜 : Type*) : ℕ → List ℕ → Type _
  | last {n : ℕ} (D : Mat 𝕜 n n) : BT 𝕜 n []
  | cons {n m : ℕ} {ms : List ℕ} (D : Mat 𝕜 n n) (B : Mat 𝕜 n m) (C : Mat 𝕜 m n)
      (tl : BT 𝕜 m ms) : BT 𝕜 n (m :: ms)

/-- A `BlkMatrix<_, -1, 1>` column vector with row dimensions `n :: ns`. -/
inductive BV (𝕜 : Type*) : ℕ → List ℕ → Type _
  | last {n : ℕ} (v : Vec 𝕜 n) : BV 𝕜 n []
  | cons {n m : ℕ} {ms : List ℕ} (v : Vec 𝕜 n) (tl : BV 𝕜 m ms) : BV 𝕜 n (m :: ms)

/-- First block `v[0]`. -/
def BV.head : {n : ℕ} → {ns : List ℕ} → BV 𝕜 n ns → Vec 𝕜 n
  | _, _, .last v => v
  | _, _, .cons v _ => v

/-- `v[0] -= w`. -/
def BV.subHead : {n : ℕ} → {ns : List ℕ} → BV 𝕜 n ns → Vec 𝕜 n → BV 𝕜 n ns
  | _, _, .last v, w => .last (v - w)
  | _, _, .cons v tl, w => .cons (v - w) tl

/-- `c += w` on all blocks. -/
def BV.add : {n : ℕ} → {ns : List ℕ} → BV 𝕜 n ns → BV 𝕜 n ns → BV 𝕜 n ns
  | _, _, .last v, .last w => .last (v + w)
  | _, _, .cons v tl, .cons w tl' => .cons (v + w) (tl.add tl')

/-- `c *= a` on all blocks. -/
def BV.smul (a : 𝕜) : {n : ℕ} → {ns : List ℕ} → BV 𝕜 n ns → BV 𝕜 n ns
  | _, _, .last v => .last (a • v)
  | _, _, .cons v tl => .cons (a • v) (tl.smul a)

/-- The result of the in-place factorisation: the diagonal blocks overwritten by the Schur complements
(`diagonal`), the operators applied by `facs[i].solveInPlace`, and the factors `U^T` left in
`subdiagonal`; the superdiagonal is unchanged. -/
inductive BFac (𝕜 : Type*) : ℕ → List ℕ → Type _
  | last {n : ℕ} (D X : Mat 𝕜 n n) : BFac 𝕜 n []
  | cons {n m : ℕ} {ms : List ℕ} (D X : Mat 𝕜 n n) (B : Mat 𝕜 n m) (Ut : Mat 𝕜 m n)
      (tl : BFac 𝕜 m ms) : BFac 𝕜 n (m :: ms)

/-- `facs[0]`. -/
def BFac.X : {n : ℕ} → {ns : List ℕ} → BFac 𝕜 n ns → Mat 𝕜 n n
  | _, _, .last _ X => X
  | _, _, .cons _ X _ _ _ => X

/-- `symmetricBlockTridiagSolve`, the loop from the last block up and the treatment of block 0
(block-tridiagonal.hpp:98-129). Each block is factored after the blocks below it have been eliminated;
`none` is `return false` because a factorisation failed. The right-hand side of the block is solved in
place by the same iteration. -/
def BT.eliminate (ldl : LDL 𝕜) : {n : ℕ} → {ns : List ℕ} → BT 𝕜 n ns → BV 𝕜 n ns →
    Option (BFac 𝕜 n ns × BV 𝕜 n ns)
  | n, _, .last D, .last r =>
    match ldl.inv? n D with
    | none => none
    | some X => some (.last D X, .last (X *ᵥ r))
  | n, _, .cons D B C tl, .cons r rt =>
    match tl.eliminate ldl rt with
    | none => none
    | some (Ft, rt') =>
      let r' := r - B *ᵥ rt'.head          -- rhs[i] -= Bip1 * rhs[i+1]
      let Ut := Ft.X * C                   -- ldl.solveInPlace(Cip1)
      let D' := D - B * Ut                 -- diagonal[i] -= Bip1 * Cip1
      match ldl.inv? n D' with
      | none => none
      | some X => some (.cons D' X B Ut Ft, .cons (X *ᵥ r') rt')

/-- The final downward sweep `rhs[i+1] -= Uip1t * rhs[i]` (block-tridiagonal.hpp:131-134). -/
def BFac.sweep : {n : ℕ} → {ns : List ℕ} → BFac 𝕜 n ns → BV 𝕜 n ns → BV 𝕜 n ns
  | _, _, .last _ _, .last r => .last r
  | _, _, .cons _ _ _ Ut Ft, .cons r rt => .cons r (Ft.sweep (rt.subHead (Ut *ᵥ r)))

/-- `symmetricBlockTridiagSolve` (block-tridiagonal.hpp:77-137), with at least two blocks. -/
def BT.solve (ldl : LDL 𝕜) {n : ℕ} {ns : List ℕ} (T : BT 𝕜 n ns) (rhs : BV 𝕜 n ns) :
    Option (BFac 𝕜 n ns × BV 𝕜 n ns) :=
  match T.eliminate ldl rhs with
  | none => none
  | some (F, r) => some (F, F.sweep r)

/-- `blockTridiagRefinementStep`, the upward loop (block-tridiagonal.hpp:154-173). -/
def BFac.back : {n : ℕ} → {ns : List ℕ} → BFac 𝕜 n ns → BV 𝕜 n ns → BV 𝕜 n ns
  | _, _, .last _ X, .last r => .last (X *ᵥ r)
  | _, _, .cons _ X B _ Ft, .cons r rt =>
    let rt' := Ft.back rt
    .cons (X *ᵥ (r - B *ᵥ rt'.head)) rt'

/-- `blockTridiagRefinementStep` (block-tridiagonal.hpp:144-181). -/
def BFac.refine {n : ℕ} {ns : List ℕ} (F : BFac 𝕜 n ns) (r : BV 𝕜 n ns) : BV 𝕜 n ns :=
  F.sweep (F.back r)

/-- Product part of `blockTridiagMatMul` (block-tridiagonal.hpp:60-73): block rows of `A b`, where `p` is
the contribution of the subdiagonal block to the left of the current row (`0` for row 0). The code's
first and last rows read `Asuper[0]`, `Asub[N-1]`: at least two blocks are required. -/
def BT.mulFrom : {n : ℕ} → {ns : List ℕ} → BT 𝕜 n ns → Vec 𝕜 n → BV 𝕜 n ns → BV 𝕜 n ns
  | _, _, .last D, p, .last b => .last (p + D *ᵥ b)
  | _, _, .cons D B C tl, p, .cons b bt =>
    .cons (p + D *ᵥ b + B *ᵥ bt.head) (tl.mulFrom (C *ᵥ b) bt)

/-- `blockTridiagMatMul` (block-tridiagonal.hpp:50-75): `c <- beta * c + A * b`. -/
def BT.matMul {n : ℕ} {ns : List ℕ} (T : BT 𝕜 n ns) (b c : BV 𝕜 n ns) (beta : 𝕜) : BV 𝕜 n ns :=
  (c.smul beta).add (T.mulFrom 0 b)

/-- `symmetricBlockTridiagSolveDownLooking` (block-tridiagonal.hpp:187-245): elimination from the first
block. `Δ`, `δ` are what the elimination of the previous block subtracts from this diagonal block and
right-hand side. The backward sweep `rhs[i] -= Lim1t * rhs[i+1]` is done when returning. -/
def BT.solveDown (ldl : LDL 𝕜) : {n : ℕ} → {ns : List ℕ} → BT 𝕜 n ns → Mat 𝕜 n n → Vec 𝕜 n →
    BV 𝕜 n ns → Option (BV 𝕜 n ns)
  | n, _, .last D, Δ, δ, .last r =>
    match ldl.inv? n (D - Δ) with
    | none => none
    | some X => some (.last (X *ᵥ (r - δ)))
  | n, _, .cons D B C tl, Δ, δ, .cons r rt =>
    match ldl.inv? n (D - Δ) with
    | none => none
    | some X =>
      let r' := X *ᵥ (r - δ)
      let Lt := X * B
      match tl.solveDown ldl (C * Lt) (C *ᵥ r') rt with
      | none => none
      | some rt' => some (.cons (r' - Lt *ᵥ rt'.head) rt')

/-! ### Untyped data and the length check -/

/-- A matrix with its run-time dimensions. -/
abbrev AnyMat (𝕜 : Type*) := Σ d : ℕ × ℕ, Mat 𝕜 d.1 d.2

/-- Outcome of a call on untyped data. -/
inductive TridiagOutcome (𝕜 : Type*)
  /-- `return false` at the length check, nothing has been written. -/
  | lengthMismatch
  /-- an Eigen dimension assertion, or the unsigned underflow `N - 1` for `N = 0` (line 99) -/
  | undefined
  /-- `return false` after a failed factorisation -/
  | failed
  /-- `return true`; the right-hand side blocks -/
  | solved (x : List (Σ n, Vec 𝕜 n))

/-- The same matrix at (propositionally) equal dimensions. -/
def castMat {a b c d : ℕ} (h1 : a = c) (h2 : b = d) (M : Mat 𝕜 a b) : Mat 𝕜 c d :=
  M.submatrix (Fin.cast h1.symm) (Fin.cast h2.symm)

/-- Typed view of untyped blocks, when all dimensions match (`diagonal[i]` is `nᵢ × nᵢ`,
`superdiagonal[i]` is `nᵢ × nᵢ₊₁`, `subdiagonal[i]` is `nᵢ₊₁ × nᵢ`, `rhs[i]` has `nᵢ` rows). -/
def pack? : (sub diag sup : List (AnyMat 𝕜)) → (rhs : List (Σ n, Vec 𝕜 n)) →
    Option (Σ n : ℕ, Σ ns : List ℕ, BT 𝕜 n ns × BV 𝕜 n ns)
  | [], [⟨(a, b), D⟩], [], [⟨n, r⟩] =>
    if h : a = n ∧ b = n then some ⟨n, [], .last (castMat h.1 h.2 D), .last r⟩ else none
  | ⟨(c, d), C⟩ :: sub, ⟨(a, b), D⟩ :: diag, ⟨(e, f), B⟩ :: sup, ⟨n, r⟩ :: rhs =>
    match pack? sub diag sup rhs with
    | none => none
    | some ⟨m, ms, T, rt⟩ =>
      if h : (a = n ∧ b = n) ∧ (e = n ∧ f = m) ∧ (c = m ∧ d = n) then
        some ⟨n, m :: ms, .cons (castMat h.1.1 h.1.2 D) (castMat h.2.1.1 h.2.1.2 B)
          (castMat h.2.2.1 h.2.2.2 C) T, .cons r rt⟩
      else none
  | _, _, _, _ => none

/-- The blocks of a vector with their dimensions. -/
def BV.toList : {n : ℕ} → {ns : List ℕ} → BV 𝕜 n ns → List (Σ n, Vec 𝕜 n)
  | n, _, .last v => [⟨n, v⟩]
  | n, _, .cons v tl => ⟨n, v⟩ :: tl.toList

/-- `symmetricBlockTridiagSolve` on vectors of matrices (block-tridiagonal.hpp:77-137). -/
def symmetricBlockTridiagSolve (ldl : LDL 𝕜) (sub diag sup : List (AnyMat 𝕜))
    (rhs : List (Σ n, Vec 𝕜 n)) : TridiagOutcome 𝕜 :=
  if sub.length ≠ sup.length ∨ diag.length ≠ sup.length + 1 ∨ rhs.length ≠ diag.length then
    .lengthMismatch
  else if sup.length = 0 then .undefined
  else match pack? sub diag sup rhs with
    | none => .undefined
    | some ⟨_, _, T, r⟩ =>
      match T.solve ldl r with
      | none => .failed
      | some (_, x) => .solved x.toList

end Aligator.Gar
