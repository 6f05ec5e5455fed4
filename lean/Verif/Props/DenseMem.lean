import Verif.Lemmas.DenseMem

/-!
# C84 for the stagewise-dense solver

Here no history has to be excluded: every backward pass overwrites all it reads, so the states `s` of the theorems are all
contents of the memory of the object.
-/

set_option linter.unusedSectionVars false

namespace Aligator.DenseMem

open Matrix Gar Gar.Dense GarMem

variable {𝕜 : Type*} [Field 𝕜] [DecidableEq 𝕜] {nth : ℕ}

/-- **C84** The backward pass of a dense solver object with any memory is the memoryless pass of `C06`: all its factorisations
succeed exactly when those of `C06` do, and then it leaves that result. -/
theorem C84_dense_backward_refines {L : LDLMem 𝕜} (hl : L.toLDL.Exact) {nc0 nx : ℕ} {D : Dims nx} (G0 : Mat 𝕜 nc0 nx)
    (g0 : Vec 𝕜 nc0) (k : Knots 𝕜 nth D) (mueq : 𝕜) (hs : k.chain.Symm) (hN : k.chain.horizon ≠ 0) (s : DSt 𝕜 nth nc0 D)
    (S : DSolver (⟨G0, g0, k.chain⟩ : Problem 𝕜 nth nc0 nx)) :
    Dense.backward L.toLDL (⟨G0, g0, k.chain⟩ : Problem 𝕜 nth nc0 nx) mueq = .ok S ↔
      (backwardD L G0 g0 k mueq s).2 = false ∧ (backwardD L G0 g0 k mueq s).1.solver G0 g0 k = S := by
  have hr := backward_run hl G0 g0 k mueq hs hN s
  cases hb : Dense.backward L.toLDL (⟨G0, g0, k.chain⟩ : Problem 𝕜 nth nc0 nx) mueq with
  | ok S' =>
    rw [hb] at hr
    refine ⟨fun e => ?_, fun e => ?_⟩
    · injection e with e; subst e; exact hr
    · rw [← e.2, hr.2]
  | error e =>
    rw [hb] at hr
    refine ⟨fun e => (by cases e), fun e => ?_⟩
    rw [show (backwardD L G0 g0 k mueq s).2 = true from hr] at e
    simp at e

/-- **C84** Two dense solver objects with any two memories end the pass in the same way, and with the same gains, values,
initial stage and parameter derivatives if the factorisations succeeded. -/
theorem C84_dense_history_independent {L : LDLMem 𝕜} (hl : L.toLDL.Exact) {nc0 nx : ℕ} {D : Dims nx} (G0 : Mat 𝕜 nc0 nx)
    (g0 : Vec 𝕜 nc0) (k : Knots 𝕜 nth D) (mueq : 𝕜) (hs : k.chain.Symm) (hN : k.chain.horizon ≠ 0) (s s' : DSt 𝕜 nth nc0 D) :
    (backwardD L G0 g0 k mueq s).2 = (backwardD L G0 g0 k mueq s').2 ∧
      ((backwardD L G0 g0 k mueq s).2 = false →
        (backwardD L G0 g0 k mueq s).1.solver G0 g0 k = (backwardD L G0 g0 k mueq s').1.solver G0 g0 k) := by
  have h := fun s => C84_dense_backward_refines hl G0 g0 k mueq hs hN s
  have imp : ∀ s s', (backwardD L G0 g0 k mueq s).2 = false → (backwardD L G0 g0 k mueq s').2 = false ∧
      (backwardD L G0 g0 k mueq s').1.solver G0 g0 k = (backwardD L G0 g0 k mueq s).1.solver G0 g0 k :=
    fun s s' e => (h s' _).1 ((h s _).2 ⟨e, rfl⟩)
  refine ⟨?_, fun e => (imp s s' e).2.symm⟩
  cases e : (backwardD L G0 g0 k mueq s).2 with
  | false => exact (imp s s' e).1.symm
  | true =>
    cases e' : (backwardD L G0 g0 k mueq s').2 with
    | true => rfl
    | false => rw [(imp s' s e').1] at e; exact e.symm

/-- **C84** So a dense solver that was used before solves the current problem, and overwrites the vectors of the caller with the
only KKT point. -/
theorem C84_dense_reused_solver_solves {L : LDLMem 𝕜} (hl : L.toLDL.Exact) {nc0 nx : ℕ} {D : Dims nx} (G0 : Mat 𝕜 nc0 nx)
    (g0 : Vec 𝕜 nc0) (k : Knots 𝕜 nth D) (mueq : 𝕜) (hs : k.chain.Symm) (hN : k.chain.horizon ≠ 0) (s : DSt 𝕜 nth nc0 D)
    (hok : (backwardD L G0 g0 k mueq s).2 = false) (θ : Option (Vec 𝕜 nth)) (t : Traj k.chain) :
    let P : Problem 𝕜 nth nc0 nx := ⟨G0, g0, k.chain⟩
    let out := forwardD k (backwardD L G0 g0 k mueq s).1 θ t
    KKT P mueq (θ.getD 0) out.1 out.2 ∧
      ∀ lam0 t', KKT P mueq (θ.getD 0) lam0 t' → lam0 = out.1 ∧ t' = out.2 := by
  intro P out
  have hb := (C84_dense_backward_refines hl G0 g0 k mueq hs hN s _).2 ⟨hok, rfl⟩
  have e : out = Dense.forward ((backwardD L G0 g0 k mueq s).1.solver G0 g0 k) (θ.getD 0) := forward_run G0 g0 k _ θ t
  rw [e]
  exact ⟨C06_forward_solves_KKT hl P mueq hs _ hb _, fun lam0 t' hk => C06_KKT_solution_unique hl P mueq hs _ hb _ lam0 t' hk⟩

/-! ## Instance -/

/-- Two scalar knots and a terminal knot without controls. -/
abbrev exDD : Dims 1 := .cons 1 1 (.cons (nx := 1) 1 1 (.last (nx := 1) 0 0 0))

/-- The knots of `exDense2`. -/
def exDK : Knots ℚ 1 exDD := (exKnot 1, exKnot 2, exTerm)

/-- The symmetric solver of the instances of `C06`. -/
noncomputable def exDL : LDLMem ℚ := { toLDL := invLDL ℚ, junk := fun _ _ => 1 }

/-- From any memory, also after a pass on another problem and a shift, the pass on `exDense2` is good. -/
example (u : DSt ℚ 1 1 exDD) (m : Mat ℚ 4 4) (t : Traj exDK.chain) :
    let s := (backwardD exDL !![2] ![7] exDK 3 u.new).1.shift (nx := 1) (nu := 1) (nc := 1)
      (tl := .cons (nx := 1) 1 1 (.last (nx := 1) 0 0 0)) rfl m
    (backwardD exDL !![-1] ![5] exDK (1/10) s).2 = false ∧
      ∀ θ, let out := forwardD exDK (backwardD exDL !![-1] ![5] exDK (1/10) s).1 (some θ) t
        KKT exDense2 (1/10) θ out.1 out.2 := by
  intro s
  obtain ⟨s', hs'⟩ := (exDense_serial (invLDL_exact ℚ) (invLDL_complete ℚ)).2
  have hsym : exDense2.stages.Symm := ⟨exKnot_symm 1, exKnot_symm 2, exTerm_symm⟩
  have hN : exDense2.stages.horizon ≠ 0 := by simp [exDense2, Chain.horizon]
  obtain ⟨S, hS⟩ := (C06_succeeds_iff_serial_succeeds (invLDL_exact ℚ) (invLDL_complete ℚ) exDense2
    (1/10) hsym hN rfl).2 ⟨s', hs'⟩
  have hok := ((C84_dense_backward_refines (L := exDL) (invLDL_exact ℚ) !![-1] ![5] exDK (1/10) hsym hN s S).1 hS).1
  exact ⟨hok, fun θ => (C84_dense_reused_solver_solves (L := exDL) (invLDL_exact ℚ) !![-1] ![5] exDK (1/10) hsym hN s hok
    (some θ) t).1⟩

end Aligator.DenseMem
