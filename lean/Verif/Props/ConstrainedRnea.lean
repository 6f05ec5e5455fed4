import Verif.Spec.ConstrainedRnea
import Mathlib.Algebra.BigOperators.Fin
import Mathlib.LinearAlgebra.Matrix.Notation
import Mathlib.Analysis.InnerProductSpace.PiL2
import Mathlib.Analysis.InnerProductSpace.Projection.Minimal
import Mathlib.Tactic.Linarith
import Mathlib.Tactic.FinCases
import Mathlib.Tactic.NormNum
import Mathlib.Tactic.Ring

/-!
# C66: inverse dynamics of an underactuated system under constraints
-/

namespace Aligator.InvDyn

open Matrix Aligator.InvDyn.Spec

variable {nv nu d : ℕ}

/-- **C66.** The number of constraint forces is the sum of the sizes of the constraints. -/
theorem C66_size (sizes : List ℕ) : totalSize sizes = sizes.sum := by
  have key : ∀ (l : List ℕ) (m : ℕ), m ≤ l.length →
      (List.range m).foldl (fun s k => s + l.getD k 0) 0 = (l.take m).sum := by
    intro l m
    induction m with
    | zero => intro _; simp
    | succ m ih =>
      intro h
      rw [List.range_succ, List.foldl_append, ih (by omega)]
      have hm : m < l.length := by omega
      rw [List.take_add_one, List.sum_append, List.foldl_cons, List.foldl_nil, List.getD_eq_getElem?_getD,
        List.getElem?_eq_getElem hm]
      simp
  have := key sizes sizes.length le_rfl
  rw [List.take_length] at this
  exact this

/-- The matrix handed to the solver. -/
def system (heap : Mat nv (nu + d)) (B : Mat nv nu) (sup : Fin d → Fin nv → Bool) (J : Mat d nv) : Mat nv (nu + d) :=
  negRightCols (setJacobian (setLeftCols heap B) sup J)

theorem system_mulVec (heap : Mat nv (nu + d)) (B : Mat nv nu) (sup : Fin d → Fin nv → Bool) (J : Mat d nv)
    (hs : Supports sup J) (h0 : ∀ k i, sup k i = false → heap i (Fin.natAdd nu k) = 0) (y : Vec (nu + d)) :
    system heap B sup J *ᵥ y = B *ᵥ torques y - Jᵀ *ᵥ forces y := by
  funext i
  simp only [mulVec, dotProduct, Fin.sum_univ_add, Pi.sub_apply, torques, forces, transpose_apply]
  rw [sub_eq_add_neg, ← Finset.sum_neg_distrib]
  refine congrArg₂ (· + ·) (Finset.sum_congr rfl fun k _ => ?_) (Finset.sum_congr rfl fun k _ => ?_)
  · simp only [system, negRightCols, setJacobian, setLeftCols, Fin.append_left]
  · have : system heap B sup J i (Fin.natAdd nu k) = -J k i := by
      simp only [system, negRightCols, setJacobian, setLeftCols, Fin.append_right]
      by_cases h : sup k i
      · simp [h]
      · simp only [Bool.not_eq_true] at h
        simp [h, hs k i h, h0 k i h]
    rw [this]; ring

/-- **C66.** If the memory of the work matrix is zero where Pinocchio does not write, and torques and constraint forces can
balance the nonlinear effects at all, the returned ones do; the returned forces have the opposite sign of those acting on the
system. -/
theorem C66_balance_partial (solve : Mat nv (nu + d) → Vec nv → Vec (nu + d)) (hq : LeastSquares solve) (heap : Mat nv (nu + d))
    (B : Mat nv nu) (sup : Fin d → Fin nv → Bool) (J : Mat d nv) (nle : Vec nv) (hs : Supports sup J)
    (h0 : ∀ k i, sup k i = false → heap i (Fin.natAdd nu k) = 0) (hc : CanHold nle B J) :
    nle = B *ᵥ torques (inverseDynamics solve heap B sup J nle) +
      Jᵀ *ᵥ (-forces (inverseDynamics solve heap B sup J nle)) := by
  obtain ⟨τ, f, hf⟩ := hc
  have h := hq (system heap B sup J) nle (Fin.append τ (-f))
  have hy : system heap B sup J *ᵥ Fin.append τ (-f) = nle := by
    rw [system_mulVec heap B sup J hs h0, hf]
    have h1 : torques (Fin.append τ (-f)) = τ := funext fun i => Fin.append_left _ _ _
    have h2 : forces (Fin.append τ (-f)) = -f := funext fun i => Fin.append_right _ _ _
    rw [h1, h2, mulVec_neg, sub_neg_eq_add]
  rw [hy] at h
  simp only [sub_self, ne_eq, OfNat.ofNat_ne_zero, not_false_eq_true, zero_pow, Finset.sum_const_zero] at h
  have hz := (Finset.sum_eq_zero_iff_of_nonneg fun i _ => sq_nonneg _).mp
    (le_antisymm h (Finset.sum_nonneg fun i _ => sq_nonneg _))
  have he : system heap B sup J *ᵥ solve (system heap B sup J) nle = nle := by
    funext i
    have := hz i (Finset.mem_univ i)
    have := pow_eq_zero_iff (two_ne_zero) |>.mp this
    linarith
  rw [system_mulVec heap B sup J hs h0] at he
  rw [mulVec_neg, ← sub_eq_add_neg]
  exact he.symm

/-- **C66.** Under the returned torques a system whose constraints do not accelerate by themselves (for instance at rest) stays
where it is: zero acceleration is the only motion. -/
theorem C66_static_partial (solve : Mat nv (nu + d) → Vec nv → Vec (nu + d)) (hq : LeastSquares solve) (heap : Mat nv (nu + d))
    (B : Mat nv nu) (sup : Fin d → Fin nv → Bool) (J : Mat d nv) (nle : Vec nv) (hs : Supports sup J)
    (h0 : ∀ k i, sup k i = false → heap i (Fin.natAdd nu k) = 0) (hc : CanHold nle B J) (M : Mat nv nv)
    (hM : ∀ y, y ≠ 0 → 0 < y ⬝ᵥ (M *ᵥ y)) :
    (∃ f, Motion M nle B J 0 (torques (inverseDynamics solve heap B sup J nle)) 0 f) ∧
    ∀ acc f, Motion M nle B J 0 (torques (inverseDynamics solve heap B sup J nle)) acc f → acc = 0 := by
  have hb := C66_balance_partial solve hq heap B sup J nle hs h0 hc
  refine ⟨⟨_, by rw [mulVec_zero, zero_add]; exact hb, by simp⟩, fun acc f hm => ?_⟩
  set τ := torques (inverseDynamics solve heap B sup J nle)
  set g := -forces (inverseDynamics solve heap B sup J nle)
  have h1 : M *ᵥ acc = Jᵀ *ᵥ (f - g) := by
    have h2 := hm.dynamics
    rw [mulVec_sub]
    funext i
    have h3 := congrFun h2 i
    have h4 := congrFun hb i
    simp only [Pi.add_apply, Pi.sub_apply] at h3 h4 ⊢
    linarith
  have h5 : J *ᵥ acc = 0 := by simpa using hm.constraints
  by_contra hne
  have := hM acc hne
  rw [h1, mulVec_transpose, dotProduct_comm, ← dotProduct_mulVec, h5, dotProduct_zero] at this
  exact lt_irrefl _ this

/-- **C66.** Without the two conditions no torque can do that: if nothing balances the nonlinear effects, or the constraints
accelerate by themselves, every motion under every torque has an acceleration; the function returns a result all the same. -/
theorem C66_cannot_hold (B : Mat nv nu) (J : Mat d nv) (nle : Vec nv) (drift : Vec d) (M : Mat nv nv)
    (h : ¬ CanHold nle B J ∨ drift ≠ 0) (τ : Vec nu) (acc : Vec nv) (f : Vec d) (hm : Motion M nle B J drift τ acc f) :
    acc ≠ 0 := by
  rintro rfl
  rcases h with h | h
  · exact h ⟨τ, f, by simpa using hm.dynamics⟩
  · exact h (by simpa using hm.constraints)

/-! ### Memory -/

/-- Two joints, the first moves the constraint, the second is actuated. -/
def sup1 : Fin 1 → Fin 2 → Bool := fun _ i => i = 0

/-- Its Jacobian. -/
def J1 : Mat 1 2 := !![1, 0]

/-- The actuation. -/
def B1 : Mat 2 1 := !![0; 1]

/-- **C66.** What is missing: the work matrix is not initialised, and the torque depends on what its memory held: with `g` in
the entry of a joint that does not move the constraint, it is `1 - g` instead of `1`. -/
theorem C66_uninitialised (solve : Mat 2 (1 + 1) → Vec 2 → Vec (1 + 1)) (hq : LeastSquares solve) (g : ℝ) :
    Supports sup1 J1 ∧ CanHold ![1, 1] B1 J1 ∧
    torques (inverseDynamics solve (fun _ _ => g) B1 sup1 J1 ![1, 1]) 0 = 1 - g := by
  refine ⟨?_, ⟨![1], ![1], ?_⟩, ?_⟩
  · intro k i h
    fin_cases i
    · simp [sup1] at h
    · fin_cases k; simp [J1]
  · funext i
    fin_cases i <;> simp [B1, J1, mulVec, dotProduct]
  · have h := hq (system (fun _ _ => g) B1 sup1 J1) ![1, 1] ![1 - g, -1]
    have e : ∀ y : Vec (1 + 1), system (fun _ _ => g) B1 sup1 J1 *ᵥ y = ![-y 1, y 0 - g * y 1] := by
      intro y
      funext i
      fin_cases i
      · simp [mulVec, dotProduct, Fin.sum_univ_two, system, negRightCols, setJacobian, setLeftCols, Fin.append, Fin.addCases,
          B1, J1, sup1]
      · simp [mulVec, dotProduct, Fin.sum_univ_two, system, negRightCols, setJacobian, setLeftCols, Fin.append, Fin.addCases,
          B1, sup1]
        ring
    rw [e, e] at h
    set y := solve (system (fun _ _ => g) B1 sup1 J1) ![1, 1] with hy
    simp [Fin.sum_univ_two] at h
    have ht : torques (inverseDynamics solve (fun _ _ => g) B1 sup1 J1 ![1, 1]) 0 = y 0 := rfl
    rw [ht]
    have h1 : (-y 1 - 1) ^ 2 = 0 := le_antisymm (by nlinarith [sq_nonneg (y 0 - g * y 1 - 1), sq_nonneg (-y 1 - 1)]) (sq_nonneg _)
    have h2 : (y 0 - g * y 1 - 1) ^ 2 = 0 :=
      le_antisymm (by nlinarith [sq_nonneg (y 0 - g * y 1 - 1), sq_nonneg (-y 1 - 1)]) (sq_nonneg _)
    have h3 := pow_eq_zero_iff two_ne_zero |>.mp h1
    have h4 := pow_eq_zero_iff two_ne_zero |>.mp h2
    have h5 : y 1 = -1 := by linarith
    rw [h5] at h4
    linarith

/-- Least-squares solvers exist. -/
theorem leastSquares_exists : ∃ solve : Mat nv (nu + d) → Vec nv → Vec (nu + d), LeastSquares solve := by
  have key : ∀ (A : Mat nv (nu + d)) (b : Vec nv), ∃ x, ∀ y, ∑ i, ((A *ᵥ x) i - b i) ^ 2 ≤ ∑ i, ((A *ᵥ y) i - b i) ^ 2 := by
    intro A b
    let f : Vec (nu + d) →ₗ[ℝ] EuclideanSpace ℝ (Fin nv) := (WithLp.linearEquiv 2 ℝ (Fin nv → ℝ)).symm.toLinearMap ∘ₗ A.mulVecLin
    have hf : ∀ y, f y = WithLp.toLp 2 (A *ᵥ y) := fun y => rfl
    obtain ⟨v, ⟨x, hx⟩, hv⟩ := (LinearMap.range f).exists_norm_eq_iInf_of_complete_subspace
      (Submodule.complete_of_finiteDimensional _) (WithLp.toLp 2 b)
    refine ⟨x, fun y => ?_⟩
    have hle : ‖WithLp.toLp 2 b - v‖ ≤ ‖WithLp.toLp 2 b - f y‖ := by
      rw [hv]
      exact ciInf_le ⟨0, by rintro _ ⟨w, rfl⟩; exact norm_nonneg _⟩ (⟨f y, y, rfl⟩ : LinearMap.range f)
    have h2 := pow_le_pow_left₀ (norm_nonneg _) hle 2
    rw [← hx, EuclideanSpace.norm_sq_eq, EuclideanSpace.norm_sq_eq] at h2
    simp only [hf, PiLp.sub_apply, Real.norm_eq_abs, sq_abs] at h2
    calc _ = ∑ i, (b i - (A *ᵥ x) i) ^ 2 := Finset.sum_congr rfl fun i _ => by ring
      _ ≤ _ := h2
      _ = _ := Finset.sum_congr rfl fun i _ => by ring
  choose s hs using key
  exact ⟨s, hs⟩

/-- The hypotheses are met with the two joints above, unit masses and zeroed memory: the torque is `1` and the system stays. -/
example : ∃ solve : Mat 2 (1 + 1) → Vec 2 → Vec (1 + 1), LeastSquares solve ∧
    torques (inverseDynamics solve (fun _ _ => 0) B1 sup1 J1 ![1, 1]) 0 = 1 ∧
    ∀ acc f, Motion 1 ![1, 1] B1 J1 0 (torques (inverseDynamics solve (fun _ _ => 0) B1 sup1 J1 ![1, 1])) acc f → acc = 0 := by
  obtain ⟨s, hs⟩ := leastSquares_exists (nv := 2) (nu := 1) (d := 1)
  obtain ⟨h1, h2, h3⟩ := C66_uninitialised s hs 0
  refine ⟨s, hs, by simpa using h3, (C66_static_partial s hs _ B1 sup1 J1 _ h1 (fun _ _ _ => rfl) h2 1 fun y hy => ?_).2⟩
  rw [one_mulVec]
  refine lt_of_le_of_ne (Finset.sum_nonneg fun i _ => mul_self_nonneg (y i)) fun h => hy (funext fun i => ?_)
  exact mul_self_eq_zero.mp ((Finset.sum_eq_zero_iff_of_nonneg fun i _ => mul_self_nonneg (y i)).mp h.symm i (Finset.mem_univ i))

end Aligator.InvDyn
