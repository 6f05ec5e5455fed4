import Verif.Lemmas.BlockTridiag
import Verif.Props.BunchKaufman

/-!
# Properties of the block-tridiagonal solver (C11)

Specification: `BT.dense` is the dense matrix of the block data, `BV.flat` the dense vector.
All theorems hold for every number and every dimension of blocks.
-/

set_option linter.unusedSectionVars false

namespace Aligator.Gar

open Matrix

variable {𝕜 : Type*} [Field 𝕜] [DecidableEq 𝕜]

/-- **C11** When `symmetricBlockTridiagSolve` returns `true`, the right-hand side buffer holds the one
and only solution of the dense system. -/
theorem C11_solve_exact {ldl : LDL 𝕜} (hl : ldl.Exact) {n : ℕ} {ns : List ℕ} (T : BT 𝕜 n ns)
    (hs : T.Symm) (r x : BV 𝕜 n ns) (F : BFac 𝕜 n ns) (h : T.solve ldl r = some (F, x)) :
    T.dense *ᵥ x.flat = r.flat ∧ ∀ y, T.dense *ᵥ y = r.flat → y = x.flat := by
  unfold BT.solve at h
  split at h
  · cases h
  · rename_i F' r' hE
    simp only [Option.some.injEq, Prod.mk.injEq] at h
    obtain ⟨rfl, rfl⟩ := h
    obtain ⟨h1, -, rfl⟩ := eliminate_spec hl T hs r _ _ hE
    have e : T.dense *ᵥ (F'.sweep (F'.back r)).flat = r.flat := by
      rw [← mulFrom_zero_flat]
      exact congrArg _ (refine_solves T F' h1 r)
    refine ⟨e, fun y hy => ?_⟩
    exact Matrix.mulVec_injective_of_isUnit ((Matrix.isUnit_iff_isUnit_det _).2 h1.isUnit)
      (hy.trans e.symm)

/-- **C11** `symmetricBlockTridiagSolve` returns `true` exactly when every trailing block matrix of the
system (including the whole) is invertible. -/
theorem C11_solve_succeeds_iff {ldl : LDL 𝕜} (hl : ldl.Exact) (hc : ldl.Complete) {n : ℕ}
    {ns : List ℕ} (T : BT 𝕜 n ns) (hs : T.Symm) (r : BV 𝕜 n ns) :
    (T.solve ldl r).isSome ↔ T.TrailingInvertible := by
  constructor
  · intro h
    unfold BT.solve at h
    split at h
    · cases h
    · rename_i F' r' hE
      exact (eliminate_spec hl T hs r _ _ hE).1.trailing
  · intro h
    obtain ⟨⟨F, r'⟩, hE⟩ := Option.isSome_iff_exists.1 (eliminate_complete hl hc T hs r h)
    unfold BT.solve
    rw [hE]
    rfl

/-- **C11** Invertibility of the whole matrix is not enough: on the invertible matrix
`[0 1; 1 0]` (two blocks of size one) the routine returns `false`. -/
theorem C11_invertible_not_sufficient {ldl : LDL ℚ} (hl : ldl.Exact) (hc : ldl.Complete) :
    ∃ T : BT ℚ 1 [1], T.Symm ∧ IsUnit T.dense.det ∧ ∀ r, T.solve ldl r = none := by
  refine ⟨.cons 0 1 1 (.last 0), ?_, ?_, fun r => ?_⟩
  · refine ⟨?_, ?_, ?_⟩ <;> simp [BT.Symm, Matrix.IsSymm]
  · rw [← Matrix.isUnit_iff_isUnit_det, ← Matrix.mulVec_surjective_iff_isUnit]
    intro b
    obtain ⟨r, rfl⟩ := flat_surjective b
    cases r with
    | cons r rt =>
      cases rt with
      | last r2 =>
        refine ⟨(BV.cons r2 (.last r)).flat, ?_⟩
        rw [← mulFrom_zero_flat]
        simp [BT.mulFrom, BV.head]
  · by_contra h
    have h' := Option.ne_none_iff_isSome.1 h
    rw [C11_solve_succeeds_iff hl hc _ (by
      refine ⟨?_, ?_, ?_⟩ <;> simp [BT.Symm, Matrix.IsSymm])] at h'
    have h2 : IsUnit (BT.last (0 : Mat ℚ 1 1)).dense.det := h'.2
    rw [← Matrix.isUnit_iff_isUnit_det, ← Matrix.mulVec_surjective_iff_isUnit] at h2
    obtain ⟨y, hy⟩ := h2 (BV.last (1 : Vec ℚ 1)).flat
    obtain ⟨z, rfl⟩ := flat_surjective y
    rw [← mulFrom_zero_flat] at hy
    have := flat_injective hy
    cases z with
    | last z =>
      simp only [BT.mulFrom, zero_mulVec, add_zero, BV.last.injEq] at this
      have := congrFun this 0
      simp at this

/-- **C11** The variant that eliminates from the first block also returns the solution. -/
theorem C11_solve_down_exact {ldl : LDL 𝕜} (hl : ldl.Exact) {n : ℕ} {ns : List ℕ} (T : BT 𝕜 n ns)
    (hs : T.Symm) (r x : BV 𝕜 n ns) (h : T.solveDown ldl 0 0 r = some x) :
    T.dense *ᵥ x.flat = r.flat := by
  have := solveDown_spec hl T hs 0 (by rw [Matrix.IsSymm, transpose_zero]) 0 r x h
  rw [zero_mulVec, sub_zero] at this
  rw [← mulFrom_zero_flat, this]

/-- **C11** The stored factors solve the same system for any further right-hand side
(`blockTridiagRefinementStep`). -/
theorem C11_refinement_step_exact {ldl : LDL 𝕜} (hl : ldl.Exact) {n : ℕ} {ns : List ℕ}
    (T : BT 𝕜 n ns) (hs : T.Symm) (r x : BV 𝕜 n ns) (F : BFac 𝕜 n ns)
    (h : T.solve ldl r = some (F, x)) (r' : BV 𝕜 n ns) :
    T.dense *ᵥ (F.refine r').flat = r'.flat := by
  unfold BT.solve at h
  split at h
  · cases h
  · rename_i F' r'' hE
    simp only [Option.some.injEq, Prod.mk.injEq] at h
    obtain ⟨rfl, rfl⟩ := h
    rw [← mulFrom_zero_flat, refine_solves T F' (eliminate_spec hl T hs r _ _ hE).1 r']

/-- **C11** `blockTridiagMatMul` computes `c <- beta c + A b`. -/
theorem C11_matmul {n : ℕ} {ns : List ℕ} (T : BT 𝕜 n ns) (b c : BV 𝕜 n ns) (beta : 𝕜) :
    (T.matMul b c beta).flat = beta • c.flat + T.dense *ᵥ b.flat := by
  unfold BT.matMul
  rw [add_flat, smul_flat, mulFrom_zero_flat]

/-- Blocks of a typed system as the three vectors of matrices given by the caller. -/
def BT.subs : {n : ℕ} → {ns : List ℕ} → BT 𝕜 n ns → List (AnyMat 𝕜)
  | _, _, .last _ => []
  | n, m :: _, .cons _ _ C tl => ⟨(m, n), C⟩ :: tl.subs

/-- see `BT.subs` -/
def BT.diags : {n : ℕ} → {ns : List ℕ} → BT 𝕜 n ns → List (AnyMat 𝕜)
  | n, _, .last D => [⟨(n, n), D⟩]
  | n, _ :: _, .cons D _ _ tl => ⟨(n, n), D⟩ :: tl.diags

/-- see `BT.subs` -/
def BT.sups : {n : ℕ} → {ns : List ℕ} → BT 𝕜 n ns → List (AnyMat 𝕜)
  | _, _, .last _ => []
  | n, m :: _, .cons _ B _ tl => ⟨(n, m), B⟩ :: tl.sups

theorem pack?_typed {n : ℕ} {ns : List ℕ} (T : BT 𝕜 n ns) (r : BV 𝕜 n ns) :
    pack? T.subs T.diags T.sups r.toList = some ⟨n, ns, T, r⟩ := by
  induction T with
  | last D => cases r with | last r => simp [BT.subs, BT.diags, BT.sups, BV.toList, pack?, castMat]
  | cons D B C tl ih =>
    cases r with
    | cons r rt =>
      simp [BT.subs, BT.diags, BT.sups, BV.toList, pack?, castMat, ih rt]

theorem typed_lengths {n : ℕ} {ns : List ℕ} (T : BT 𝕜 n ns) (r : BV 𝕜 n ns) :
    T.subs.length = ns.length ∧ T.sups.length = ns.length ∧ T.diags.length = ns.length + 1 ∧
    r.toList.length = ns.length + 1 := by
  induction T with
  | last D => cases r with | last r => simp [BT.subs, BT.diags, BT.sups, BV.toList]
  | cons D B C tl ih =>
    cases r with
    | cons r rt =>
      obtain ⟨h1, h2, h3, h4⟩ := ih rt
      simp [BT.subs, BT.diags, BT.sups, BV.toList, h1, h2, h3, h4]

/-- **C11** The routine returns `false` before touching anything exactly when the numbers of blocks do
not fit together. -/
theorem C11_length_check (ldl : LDL 𝕜) (sub diag sup : List (AnyMat 𝕜)) (rhs : List (Σ n, Vec 𝕜 n)) :
    symmetricBlockTridiagSolve ldl sub diag sup rhs = .lengthMismatch ↔
      ¬ (sub.length = sup.length ∧ diag.length = sup.length + 1 ∧ rhs.length = diag.length) := by
  unfold symmetricBlockTridiagSolve
  split
  · simp only [true_iff]; tauto
  · split
    · simp only [reduceCtorEq, false_iff]; tauto
    · rcases pack? sub diag sup rhs with _ | ⟨n, ns, T, r⟩
      · simp only [reduceCtorEq, false_iff]; tauto
      · dsimp only
        rcases T.solve ldl r with _ | ⟨F, x⟩ <;>
        · simp only [reduceCtorEq, false_iff]; tauto

/-- **C11** On consistent data with at least two blocks the call on the raw vectors is the typed solve
above: `true` with the solution, or `false` because a factorisation failed. -/
theorem C11_untyped_call (ldl : LDL 𝕜) {n m : ℕ} {ms : List ℕ} (T : BT 𝕜 n (m :: ms))
    (r : BV 𝕜 n (m :: ms)) :
    symmetricBlockTridiagSolve ldl T.subs T.diags T.sups r.toList =
      match T.solve ldl r with
      | none => .failed
      | some (_, x) => .solved x.toList := by
  obtain ⟨h1, h2, h3, h4⟩ := typed_lengths T r
  unfold symmetricBlockTridiagSolve
  rw [if_neg (by rw [h1, h2, h3, h4]; simp), if_neg (by rw [h2]; simp), pack?_typed]
  dsimp only
  rcases T.solve ldl r with _ | ⟨F, x⟩ <;> rfl

/-- **C11 with the library's factorisation** -/
theorem C11_with_BunchKaufman {n : ℕ} {ns : List ℕ} (T : BT ℝ n ns) (hs : T.Symm)
    (h : T.TrailingInvertible) (r : BV ℝ n ns) :
    ∃ F x, T.solve (BK.ldl BK.alphaBK) r = some (F, x) ∧ T.dense *ᵥ x.flat = r.flat := by
  have h' := (C11_solve_succeeds_iff (BK.C14_ldl_exact BK.alphaBK_pos BK.alphaBK_lt_one)
    (BK.C14_ldl_complete BK.alphaBK_pos BK.alphaBK_lt_one) T hs r).2 h
  obtain ⟨⟨F, x⟩, e⟩ := Option.isSome_iff_exists.1 h'
  exact ⟨F, x, e, (C11_solve_exact (BK.C14_ldl_exact BK.alphaBK_pos BK.alphaBK_lt_one) T hs r x F e).1⟩

/-- Non-vacuity: three blocks of dimensions 1, 2, 1; the routine succeeds. -/
example (ldl : LDL ℚ) (hl : ldl.Exact) (hc : ldl.Complete) (r : BV ℚ 1 [2, 1]) :
    ∃ T : BT ℚ 1 [2, 1], T.Symm ∧ (T.solve ldl r).isSome := by
  refine ⟨.cons !![2] !![1, 0] !![1; 0] (.cons !![3, 1; 1, 2] !![0; 1] !![0, 1] (.last !![-1])), ?_, ?_⟩
  · refine ⟨?_, ?_, ⟨?_, ?_, ?_⟩⟩ <;> (ext i j; fin_cases i <;> fin_cases j <;> rfl)
  · -- a factorisation exists, hence all trailing matrices are invertible
    rw [C11_solve_succeeds_iff hl hc]
    · refine FacOK.trailing (F := .cons !![13/8] !![8/13] !![1, 0] !![3/8; -1/8]
        (.cons !![3, 1; 1, 3] !![3/8, -1/8; -1/8, 3/8] !![0; 1] !![0, -1] (.last !![-1] !![-1]))) ?_
      refine ⟨rfl, ?_, ?_, ?_, rfl, ?_, ?_, ?_, rfl, ?_⟩ <;>
        (ext i j; fin_cases i <;> fin_cases j <;>
          simp [BFac.X, Matrix.mul_apply, Fin.sum_univ_succ] <;> norm_num)
    · refine ⟨?_, ?_, ⟨?_, ?_, ?_⟩⟩ <;> (ext i j; fin_cases i <;> fin_cases j <;> rfl)

end Aligator.Gar
