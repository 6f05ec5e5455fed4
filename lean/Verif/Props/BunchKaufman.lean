import Verif.Lemmas.BunchKaufmanDriver
import Verif.Props.Riccati
import Mathlib.Analysis.Real.Sqrt

/-!
# Properties of the symmetric indefinite solver (C14) and of the Riccati solver instantiated with it

Specification: for a square matrix `M` of any size, `symLower M` is the symmetric matrix with the lower
triangle of `M`; a solve is correct when `symLower M *ᵥ x = b`.
-/

set_option linter.unusedSectionVars false

namespace Aligator.BK

open Matrix Finset Aligator.Gar

variable {𝕜 : Type*} [Field 𝕜] [LinearOrder 𝕜] [IsStrictOrderedRing 𝕜]

/-- Storage of a matrix (entries outside are irrelevant; `0` here). -/
def toArr {n : ℕ} (M : Matrix (Fin n) (Fin n) 𝕜) : Arr 𝕜 :=
  fun i j => if h : i < n ∧ j < n then M ⟨i, h.1⟩ ⟨j, h.2⟩ else 0

/-- Storage of a vector. -/
def toV {n : ℕ} (b : Fin n → 𝕜) : ℕ → 𝕜 := fun i => if h : i < n then b ⟨i, h⟩ else 0

/-- `BunchKaufman<MatrixXs>(M).solve(b)` on one column, `f` being the factorisation of `M`. -/
def solveCol {n : ℕ} (f : Factored 𝕜) (b : Fin n → 𝕜) : Fin n → 𝕜 := fun i => solve n f (toV b) i

theorem sym_initial {n : ℕ} (M : Matrix (Fin n) (Fin n) 𝕜) (i j : Fin n) :
    sym (initial (toArr M)).a i j = symLower M i j := by
  unfold sym initial toArr symLower
  dsimp only
  rw [if_pos (by omega)]
  rcases le_total (j : ℕ) i with h | h
  · simp only [max_eq_left h, min_eq_right h]
    rw [dif_pos ⟨i.2, j.2⟩, if_pos (by exact h)]
  · simp only [max_eq_right h, min_eq_left h]
    rw [dif_pos ⟨j.2, i.2⟩]
    split
    · rename_i h'
      have : i = j := le_antisymm h h'
      subst this; rfl
    · rfl

theorem rowSum_fin {n : ℕ} (M : Matrix (Fin n) (Fin n) 𝕜) (z : ℕ → 𝕜) (i : Fin n) :
    rowSum 0 n (sym (initial (toArr M)).a) z i = (symLower M *ᵥ (fun j => z j)) i := by
  unfold rowSum mulVec dotProduct
  rw [← Finset.range_eq_Ico, Finset.sum_range]
  exact Finset.sum_congr rfl fun j _ => by rw [sym_initial]

/-- **C14** Whenever `compute` reports `Success`, `solve` returns the exact solution of the linear system
with the symmetric matrix given by the lower triangle of the argument: every size (unblocked and blocked
path), every matrix, every right-hand side. -/
theorem C14_solve_exact {alpha : 𝕜} (h0 : 0 < alpha) (h1 : alpha < 1) {n : ℕ}
    (M : Matrix (Fin n) (Fin n) 𝕜) (f : Factored 𝕜) (h : compute alpha n (toArr M) = some f)
    (b : Fin n → 𝕜) : symLower M *ᵥ solveCol f b = b := by
  funext i
  have := compute_some h0 h1 h (toV b) i i.2
  rw [rowSum_fin] at this
  rw [show (solveCol f b) = fun j : Fin n => solve n f (toV b) j from rfl, this, toV, dif_pos i.2]

/-- **C14** `compute` reports `Success` exactly for the invertible matrices; it never fails on a
non-singular matrix (however indefinite) and never accepts a singular one. -/
theorem C14_success_iff_invertible {alpha : 𝕜} (h0 : 0 < alpha) (h1 : alpha < 1) {n : ℕ}
    (M : Matrix (Fin n) (Fin n) 𝕜) :
    (compute alpha n (toArr M)).isSome ↔ IsUnit (symLower M).det := by
  constructor
  · intro h
    obtain ⟨f, hf⟩ := Option.isSome_iff_exists.1 h
    rw [isUnit_iff_ne_zero]
    intro hdet
    obtain ⟨v, hv, hv0⟩ := Matrix.exists_mulVec_eq_zero_iff.2 hdet
    -- the transpose is the matrix itself, so `v ⬝ b = 0` for every `b`
    have hsym : (symLower M)ᵀ = symLower M := by
      ext i j
      simp only [symLower, transpose_apply]
      rcases lt_trichotomy i j with h | h | h
      · rw [if_pos h.le, if_neg (not_le.2 h)]
      · rw [h]
      · rw [if_neg (not_le.2 h), if_pos h.le]
    apply hv
    have hz : ∀ b, v ⬝ᵥ b = 0 := by
      intro b
      rw [← C14_solve_exact h0 h1 M f hf b, dotProduct_mulVec, ← mulVec_transpose, hsym, hv0,
        zero_dotProduct]
    funext i
    have := hz (Pi.single i 1)
    rwa [dotProduct_single, mul_one] at this
  · intro h
    by_contra hn
    rw [Option.not_isSome_iff_eq_none] at hn
    obtain ⟨y, ⟨i, -, hi, hy⟩, hz⟩ := (compute_none h0 h1 hn).null
    have : symLower M *ᵥ (fun j : Fin n => y j) = 0 := by
      funext i
      rw [← rowSum_fin]
      exact hz i (Nat.zero_le _) i.2
    have hv := Matrix.eq_zero_of_mulVec_eq_zero (isUnit_iff_ne_zero.1 h) this
    exact hy (congrFun hv ⟨i, hi⟩)

/-- **C14** Only the lower triangle of the argument is read. -/
theorem C14_reads_lower_triangle_only (alpha : 𝕜) {n : ℕ} (M M' : Matrix (Fin n) (Fin n) 𝕜)
    (h : ∀ i j : Fin n, j ≤ i → M i j = M' i j) :
    compute alpha n (toArr M) = compute alpha n (toArr M') := by
  have : initial (toArr M) = initial (toArr M') := by
    unfold initial
    congr 1
    funext i j
    split
    · rename_i hij
      unfold toArr
      split
      · exact h _ _ hij
      · rfl
    · rfl
  unfold compute
  rw [this]

/-- **C14** The solve is a linear operator applied to the right-hand side (solving for several columns
at once, or for a sum, is the same as solving separately). -/
theorem C14_solve_linear {alpha : 𝕜} (h0 : 0 < alpha) (h1 : alpha < 1) {n : ℕ}
    (M : Matrix (Fin n) (Fin n) 𝕜) (f : Factored 𝕜) (h : compute alpha n (toArr M) = some f)
    (b c : Fin n → 𝕜) (r : 𝕜) : solveCol f (r • b + c) = r • solveCol f b + solveCol f c := by
  have hu := (C14_success_iff_invertible h0 h1 M).1 (by rw [h]; rfl)
  have := Matrix.mulVec_injective_of_isUnit ((Matrix.isUnit_iff_isUnit_det _).2 hu)
  apply this
  rw [C14_solve_exact h0 h1 M f h, mulVec_add, mulVec_smul, C14_solve_exact h0 h1 M f h,
    C14_solve_exact h0 h1 M f h]

/-- The constant of bunchkaufman.hpp:28 and 180. -/
noncomputable def alphaBK : ℝ := (1 + Real.sqrt 17) / 8

theorem alphaBK_pos : 0 < alphaBK := by
  unfold alphaBK; positivity

theorem alphaBK_lt_one : alphaBK < 1 := by
  have : Real.sqrt 17 < 7 := by
    rw [Real.sqrt_lt' (by norm_num)]; norm_num
  unfold alphaBK
  linarith

/-- The symmetric solver used by the Riccati recursion, as modelled. -/
def ldl (alpha : 𝕜) : LDL 𝕜 where
  inv? n M := (compute alpha n (toArr M)).map fun f =>
    Matrix.of fun i j => solveCol f (Pi.single j 1) i

/-- The hypothesis `Exact` of the Riccati theorems holds for the modelled solver. -/
theorem C14_ldl_exact {alpha : 𝕜} (h0 : 0 < alpha) (h1 : alpha < 1) : (ldl alpha).Exact := by
  intro n M X h
  simp only [ldl, Option.map_eq_some_iff] at h
  obtain ⟨f, hf, rfl⟩ := h
  ext i j
  have := congrFun (C14_solve_exact h0 h1 M f hf (Pi.single j 1)) i
  rw [Matrix.mul_apply]
  simp only [mulVec, dotProduct] at this
  simp only [Matrix.of_apply]
  rw [this, Matrix.one_apply, Pi.single_apply]

/-- The hypothesis `Complete` of the Riccati theorems holds for the modelled solver. -/
theorem C14_ldl_complete {alpha : 𝕜} (h0 : 0 < alpha) (h1 : alpha < 1) : (ldl alpha).Complete := by
  intro n M h
  have := (C14_success_iff_invertible h0 h1 M).2 h
  simp only [ldl, Option.isSome_map]
  exact this

/-- The matrix handed to the Riccati recursion is the operator that `solveInPlace` applies. -/
theorem C14_ldl_is_solve {alpha : 𝕜} (h0 : 0 < alpha) (h1 : alpha < 1) {n : ℕ}
    (M X : Matrix (Fin n) (Fin n) 𝕜) (h : (ldl alpha).inv? n M = some X) :
    ∃ f, compute alpha n (toArr M) = some f ∧ ∀ b, X *ᵥ b = solveCol f b := by
  have hX := C14_ldl_exact h0 h1 n M X h
  simp only [ldl, Option.map_eq_some_iff] at h
  obtain ⟨f, hf, -⟩ := h
  refine ⟨f, hf, fun b => ?_⟩
  have hu := (C14_success_iff_invertible h0 h1 M).1 (by rw [hf]; rfl)
  apply Matrix.mulVec_injective_of_isUnit ((Matrix.isUnit_iff_isUnit_det _).2 hu)
  rw [C14_solve_exact h0 h1 M f hf, mulVec_mulVec, hX, one_mulVec]

/-- Non-vacuity: an indefinite matrix with zero diagonal (a 2x2 pivot is required) is factored. -/
example : ∃ f, compute (1/2 : ℚ) 2 (toArr !![0, 7; 1, 0]) = some f ∧
    solveCol f ![3, 4] = ![4, 3] := by
  have hs : (compute (1/2 : ℚ) 2 (toArr !![0, 7; 1, 0])).isSome := by
    rw [C14_success_iff_invertible (by norm_num) (by norm_num), isUnit_iff_ne_zero, Matrix.det_fin_two]
    simp [symLower]
  obtain ⟨f, hf⟩ := Option.isSome_iff_exists.1 hs
  refine ⟨f, hf, ?_⟩
  have h := C14_solve_exact (by norm_num) (by norm_num) _ f hf ![3, 4]
  have e0 := congrFun h 0
  have e1 := congrFun h 1
  simp [symLower, mulVec, dotProduct, Fin.sum_univ_two] at e0 e1
  funext i
  fin_cases i
  · simpa using e1
  · simpa using e0

end Aligator.BK

namespace Aligator.Gar

open Matrix Aligator.BK

/-- **C01/C02 with the library's own symmetric solver** over the reals: whenever `backward` returns, the
forward pass is the one and only KKT point. -/
theorem C01_C02_with_BunchKaufman {nth nc0 nx : ℕ} (P : Problem ℝ nth nc0 nx) (mueq : ℝ)
    (hs : P.stages.Symm) (s : Solver P) (hb : backward (ldl alphaBK) P mueq = .ok s) (θ : Vec ℝ nth)
    (hG : P.stages.GvZero θ) :
    KKT P mueq θ (forward s θ).1 (forward s θ).2 ∧
    ∀ lam0 t, KKT P mueq θ lam0 t → lam0 = (forward s θ).1 ∧ t = (forward s θ).2 :=
  ⟨C01_forward_solves_KKT (C14_ldl_exact alphaBK_pos alphaBK_lt_one) P mueq hs s hb θ hG,
    fun lam0 t h => C02_KKT_solution_unique (C14_ldl_exact alphaBK_pos alphaBK_lt_one) P mueq hs s hb θ
      hG lam0 t h⟩

/-- **C03 with the library's own symmetric solver**: on a convex problem with `mueq > 0`, positive
definite control Hessians and well-posed initial stage, `backward` returns and `forward` is the global
minimiser. -/
theorem C03_with_BunchKaufman {nth nc0 nx : ℕ} (P : Problem ℝ nth nc0 nx) (mueq : ℝ) (hmu : 0 < mueq)
    (hs : P.stages.Symm) (hc : P.stages.Convex) (hR : P.stages.RPos)
    (h0 : ∀ x, P.G0 *ᵥ x = 0 → x ≠ 0 → P.stages.HeadPos x)
    (h0' : ∀ z, P.G0ᵀ *ᵥ z = 0 → z = 0) :
    ∃ s, backward (ldl alphaBK) P mueq = .ok s ∧ ∀ θ, P.stages.GvZero θ →
      Feasible P (forward s θ).2 ∧
      ∀ t', Feasible P t' → cost mueq θ P.stages (forward s θ).2 ≤ cost mueq θ P.stages t' := by
  obtain ⟨s, hb⟩ := C03_backward_succeeds_on_convex (C14_ldl_exact alphaBK_pos alphaBK_lt_one)
    (C14_ldl_complete alphaBK_pos alphaBK_lt_one) P mueq hmu hs hc hR h0 h0'
  exact ⟨s, hb, fun θ hG =>
    C03_convex_global_minimum (C14_ldl_exact alphaBK_pos alphaBK_lt_one) P mueq hmu hs hc s hb θ hG⟩

end Aligator.Gar
