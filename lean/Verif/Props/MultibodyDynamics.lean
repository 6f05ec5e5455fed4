import Verif.Lemmas.ContactDynamics
import Verif.Props.ContactForce

/-!
# C62: forward dynamics of multibody systems, without and with constraints
-/

namespace Aligator.MB

open Matrix Aligator.Deriv Aligator.Centroidal.Spec Spec

variable {nu r nq nv nc n : ℕ} {S : Type}

/-! ### Blocks -/

/-- Two matrices one above the other. -/
def stack {a b : ℕ} (A : Mat a n) (B : Mat b n) : Mat (a + b) n := Fin.append A B

theorem stack_top {a b : ℕ} (A : Mat a n) (B : Mat b n) (i : Fin a) : stack A B (Fin.castAdd b i) = A i := Fin.append_left A B i

theorem stack_bot {a b : ℕ} (A : Mat a n) (B : Mat b n) (i : Fin b) : stack A B (Fin.natAdd a i) = B i := Fin.append_right A B i

theorem stack_ext {a b : ℕ} (M : Mat (a + b) n) (A : Mat a n) (B : Mat b n) (h1 : ∀ i, M (Fin.castAdd b i) = A i)
    (h2 : ∀ i, M (Fin.natAdd a i) = B i) : M = stack A B := by
  funext i
  refine Fin.addCases (fun i => ?_) (fun i => ?_) i
  · rw [h1, stack_top]
  · rw [h2, stack_bot]

theorem isJac_stack {a b : ℕ} {F : Vec n → Vec nu → Vec a} {G : Vec n → Vec nu → Vec b} {A : Mat a n} {B : Mat a nu}
    {C : Mat b n} {D : Mat b nu} {x : Vec n} {u : Vec nu} (hF : IsJac F A B x u) (hG : IsJac G C D x u) :
    IsJac (fun z w => Fin.append (F z w) (G z w)) (stack A C) (stack B D) x u := by
  intro i
  refine Fin.addCases (fun i => ?_) (fun i => ?_) i
  · refine (hF i).congr_of ?_ ?_
    · funext y
      simp [stacked]
    · exact (congrArg₂ Fin.append (stack_top A C i) (stack_top B D i)).symm
  · refine (hG i).congr_of ?_ ?_
    · funext y
      simp [stacked]
    · exact (congrArg₂ Fin.append (stack_bot A C i) (stack_bot B D i)).symm

/-- Rows above a block are not touched. -/
theorem setBlock_above {a b : ℕ} (M : Mat r n) (r0 c0 : ℕ) (B : Mat a b) (i : Fin r) (h : i.val < r0) :
    setBlock M r0 c0 B i = M i := by
  funext j
  simp only [setBlock, Centroidal.setBlock]
  rw [dif_neg (by omega)]

/-- Rows below a block are not touched. -/
theorem setBlock_below {a b : ℕ} (M : Mat r n) (r0 c0 : ℕ) (B : Mat a b) (i : Fin r) (h : r0 + a ≤ i.val) :
    setBlock M r0 c0 B i = M i := by
  funext j
  simp only [setBlock, Centroidal.setBlock]
  rw [dif_neg (by omega)]

theorem setBlock_in {a b : ℕ} (M : Mat r n) (r0 c0 : ℕ) (B : Mat a b) (i : Fin r) (j : Fin n) (i' : Fin a) (j' : Fin b)
    (hi : i.val = r0 + i') (hj : j.val = c0 + j') : setBlock M r0 c0 B i j = B i' j' := by
  simp only [setBlock, Centroidal.setBlock]
  rw [dif_pos (by omega)]
  congr 1
  · exact Fin.ext (by simp; omega)
  · exact Fin.ext (by simp; omega)

theorem setBlock_aside {a b : ℕ} (M : Mat r n) (r0 c0 : ℕ) (B : Mat a b) (i : Fin r) (j : Fin n)
    (h : j.val < c0 ∨ c0 + b ≤ j.val) : setBlock M r0 c0 B i j = M i j := by
  simp only [setBlock, Centroidal.setBlock]
  rw [dif_neg (by omega)]

/-- Writing the lower half. -/
theorem setBlock_lower (M : Mat (nv + nv) (nv + nv)) (T : Mat nv (nv + nv)) (A B : Mat nv nv)
    (hM : ∀ i, M (Fin.castAdd nv i) = T i) : setBlock (setBlock M nv 0 A) nv nv B = stack T (beside A B) := by
  refine stack_ext _ _ _ (fun i => ?_) (fun i => ?_)
  · rw [setBlock_above _ _ _ _ _ (by simp), setBlock_above _ _ _ _ _ (by simp), hM]
  · funext j
    refine Fin.addCases (fun j => ?_) (fun j => ?_) j
    · rw [beside_left, setBlock_aside _ _ _ _ _ _ (by left; simp), setBlock_in _ _ _ _ _ _ i j rfl (by simp)]
    · rw [beside_right, setBlock_in _ _ _ _ _ _ i j rfl rfl]

theorem setBlock_lower' (M : Mat (nv + nv) nu) (T : Mat nv nu) (A : Mat nv nu) (hM : ∀ i, M (Fin.castAdd nv i) = T i) :
    setBlock M nv 0 A = stack T A := by
  refine stack_ext _ _ _ (fun i => ?_) (fun i => ?_)
  · rw [setBlock_above _ _ _ _ _ (by simp), hM]
  · funext j
    exact setBlock_in _ _ _ _ _ _ i j rfl (by simp)

/-- The top rows of the state Jacobian of a second-order system: the rate of the configuration is the velocity. -/
theorem top_new (i : Fin nv) : setBlock (0 : Mat (nv + nv) (nv + nv)) 0 nv (1 : Mat nv nv) (Fin.castAdd nv i) =
    beside (0 : Mat nv nv) (1 : Mat nv nv) i := by
  funext j
  refine Fin.addCases (fun j => ?_) (fun j => ?_) j
  · rw [beside_left, setBlock_aside _ _ _ _ _ _ (by left; simp)]
    rfl
  · rw [beside_right, setBlock_in _ _ _ _ _ _ i j (by simp) rfl]

theorem setSeg_both {a b : ℕ} (y : Vec (a + b)) (v : Vec a) (w : Vec b) :
    Centroidal.setSeg (Centroidal.setSeg y 0 v) a w = Fin.append v w := by
  funext i
  refine Fin.addCases (fun i => ?_) (fun i => ?_) i
  · rw [Fin.append_left]
    simp [Centroidal.setSeg]
  · rw [Fin.append_right]
    simp [Centroidal.setSeg]

section

variable {integ : Vec nq → Vec nv → Vec nq} {Q : Vec nq → Prop} {X : Vec (nq + nv) → Vec (nv + nv) → Vec (nq + nv)}

theorem isJac_velocity (hX : Moves integ X) (x : Vec (nq + nv)) :
    IsJac (fun z (_ : Vec nu) => snd (X x z)) (beside (0 : Mat nv nv) 1) 0 0 0 := by
  have hF : DerivQV integ (fun _ v => v) (0 : Mat nv nv) 1 (fst x) (snd x) := by
    refine ((IsJacobian.const (snd x) 0).add (isJacobian_snd (n := nv) (m := nv) 0)).congr_of' rfl ?_
    rw [zero_add, ← Matrix.one_mul (selSnd nv nv)]
    exact mul_selSnd (n := nv) (1 : Mat nv nv)
  have h := isJac_phase (nu := nu) hX.config hX.velocity hF
  have e := setBlock_both (0 : Mat nv (nv + nv)) (0 : Mat nv nv) (1 : Mat nv nv)
  exact e ▸ h

/-- C62: the forward dynamics without constraints: the rate of the state is the velocity and the acceleration under the torques
that the actuation matrix makes of the control; the Jacobians are those of this function, after any calls. -/
theorem C62_free (A : Free nq nv) (hA : FreeLaw A integ Q) (hX : Moves integ X) (act : Mat nv nu) :
    Right (freeFwd A act) X (fun _ x => Q (fst x)) (fun _ _ => True)
      (fun _ x u => Fin.append (snd x) (A.aba (fst x) (snd x) (act *ᵥ u))) := by
  refine right_of_inv _ _ _ _ _ (fun _ (d : FreeData nv nu) => d.dtau_du = act ∧
      (∀ i, d.Jx (Fin.castAdd nv i) = beside (0 : Mat nv nv) (1 : Mat nv nv) i) ∧ ∀ i, d.Ju (Fin.castAdd nv i) = 0)
    (fun _ => ⟨rfl, fun i => top_new i, fun _ => rfl⟩) (fun _ _ _ _ _ _ h => h) ?_ ?_
  · intro p' p x u d _ h
    refine ⟨h.1, fun i => ?_, fun i => ?_⟩
    · refine (setBlock_above _ _ _ _ _ (by simp)).trans ?_
      exact (setBlock_above _ _ _ _ _ (by simp)).trans (h.2.1 i)
    · exact (setBlock_above _ _ _ _ _ (by simp)).trans (h.2.2 i)
  · intro p x u d hx h
    have ev : ((freeFwd A act).base ((freeFwd A act).evaluate p x u d)).value =
        Fin.append (snd x) (A.aba (fst x) (snd x) (act *ᵥ u)) := setSeg_both _ _ _
    refine ⟨ev, rfl, rfl, ev, ?_⟩
    have hJ := isJac_stack (isJac_velocity (nu := nu) hX x) (isJac_torque hX act (hA.aba (fst x) (snd x) (act *ᵥ u) hx))
    have eX := setBlock_lower (FreeData.toFData d).Jx _ (A.abaDq (fst x) (snd x) (act *ᵥ u)) (A.abaDv (fst x) (snd x) (act *ᵥ u)) h.2.1
    have eU := setBlock_lower' (FreeData.toFData d).Ju 0 (A.Minv (fst x) * act) h.2.2
    rw [← eX, ← eU] at hJ
    have ha : FreeData.dtau_du d = act := h.1
    have e : ((freeFwd A act).base ((freeFwd A act).computeJacobians p x u ((freeFwd A act).evaluate p x u d))).Ju =
        setBlock (FreeData.toFData d).Ju nv 0 (A.Minv (fst x) * act) :=
      congrArg (fun B => setBlock (FreeData.toFData d).Ju nv 0 (A.Minv (fst x) * B)) ha
    rw [← e] at hJ
    exact hJ

/-- C62: the forward dynamics under constraints, with the proximal settings given: the rate of the state is the velocity and
the acceleration under the torques and the constraints; the Jacobians are those of this function, after any calls. -/
theorem C62_constraint (D : Dyn nq nv nc S) (s : S) (hD : DynLaw D integ Q s) (hX : Moves integ X) (act : Mat nv nu)
    (sol0 : Sol nq nv nc) :
    Right (constraintFwd D act s sol0) X (fun _ x => Q (fst x)) (fun _ _ => True)
      (fun _ x u => Fin.append (snd x) (D.ddq s (fst x) (snd x) (act *ᵥ u))) := by
  refine right_of_inv _ _ _ _ _ (fun _ (d : ConsData nq nv nc nu) => d.dtau_du = act ∧
      (∀ i, d.Jx (Fin.castAdd nv i) = beside (0 : Mat nv nv) (1 : Mat nv nv) i) ∧ ∀ i, d.Ju (Fin.castAdd nv i) = 0)
    (fun _ => ⟨rfl, fun i => top_new i, fun _ => rfl⟩) (fun _ _ _ _ _ _ h => h) ?_ ?_
  · intro p' p x u d _ h
    refine ⟨h.1, fun i => ?_, fun i => ?_⟩
    · refine (setBlock_above _ _ _ _ _ (by simp)).trans ?_
      exact (setBlock_above _ _ _ _ _ (by simp)).trans (h.2.1 i)
    · exact (setBlock_above _ _ _ _ _ (by simp)).trans (h.2.2 i)
  · intro p x u d hx h
    have ev : ((constraintFwd D act s sol0).base ((constraintFwd D act s sol0).evaluate p x u d)).value =
        Fin.append (snd x) (D.ddq s (fst x) (snd x) (act *ᵥ u)) := setSeg_both _ _ _
    refine ⟨ev, rfl, rfl, ev, ?_⟩
    have hJ := isJac_stack (isJac_velocity (nu := nu) hX x) (isJac_torque hX act (hD.ddq (fst x) (snd x) (act *ᵥ u) hx))
    have eX := setBlock_lower (ConsData.toFData d).Jx _ (D.ddqDq s (fst x) (snd x) (act *ᵥ u)) (D.ddqDv s (fst x) (snd x) (act *ᵥ u)) h.2.1
    have eU := setBlock_lower' (ConsData.toFData d).Ju 0 (D.ddqDtau s (fst x) (snd x) (act *ᵥ u) * act) h.2.2
    have ha : ConsData.dtau_du d = act := h.1
    have e : ((constraintFwd D act s sol0).base
        ((constraintFwd D act s sol0).computeJacobians p x u ((constraintFwd D act s sol0).evaluate p x u d))).Ju =
        setBlock (ConsData.toFData d).Ju nv 0 (D.ddqDtau s (fst x) (snd x) (act *ᵥ u) * act) :=
      congrArg (fun B => setBlock (ConsData.toFData d).Ju nv 0 (D.ddqDtau s (fst x) (snd x) (act *ᵥ u) * B)) ha
    rw [← eX, ← eU, ← e] at hJ
    exact hJ

end

/-- C62: the constructors accept exactly the actuation matrices with as many rows as there are velocities. -/
theorem C62_actuation {rows : ℕ} (act : Mat rows nu) :
    (nv = rows → ∃ B, actuationCtor nv act = some B ∧ HEq B act) ∧ (nv ≠ rows → actuationCtor nv act = none) := by
  constructor
  · rintro rfl
    exact ⟨act, by simp [actuationCtor], HEq.rfl⟩
  · intro h
    simp [actuationCtor, h]

/-- C62: a system is underactuated exactly when some torque is not that of any control. -/
theorem C62_underactuated (act : Mat nv nu) : isUnderactuated act ↔ ∃ tau : Vec nv, ∀ u, act *ᵥ u ≠ tau := by
  unfold isUnderactuated Matrix.rank
  have hn : Module.finrank ℝ (Vec nv) = nv := by simp [Vec]
  have hle := Submodule.finrank_le (LinearMap.range act.mulVecLin)
  have key : Module.finrank ℝ (LinearMap.range act.mulVecLin) = nv ↔ LinearMap.range act.mulVecLin = ⊤ := by
    constructor
    · intro h
      exact Submodule.eq_top_of_finrank_eq (by rw [h]; exact hn.symm)
    · intro h
      rw [h, finrank_top]
      exact hn
  constructor
  · intro h
    by_contra hc
    push Not at hc
    have : LinearMap.range act.mulVecLin = ⊤ := by
      rw [LinearMap.range_eq_top]
      intro tau
      obtain ⟨u, hu⟩ := hc tau
      exact ⟨u, hu⟩
    have := key.2 this
    omega
  · rintro ⟨tau, h⟩
    by_contra hc
    have h1 : Module.finrank ℝ (LinearMap.range act.mulVecLin) = nv := by
      have : Module.finrank ℝ (LinearMap.range act.mulVecLin) ≤ nv := hle.trans hn.le
      omega
    have h2 := key.1 h1
    rw [LinearMap.range_eq_top] at h2
    obtain ⟨u, hu⟩ := h2 tau
    exact h u hu

/-! ### Robots -/

/-- A damped pendulum. -/
noncomputable def pendulum : Free 1 1 where
  aba q v tau := fun _ => tau 0 - Real.sin (q 0) - 2 * v 0
  abaDq q _ _ := !![-Real.cos (q 0)]
  abaDv _ _ _ := !![-2]
  Minv _ := !![1]

theorem pendulum_law : FreeLaw pendulum (fun q z => q + z) (fun _ => True) where
  integ_zero q _ := add_zero q
  aba q v tau _ := by
    intro i
    have c := fun l : Fin (1 + 1 + 1) => IsGradient.coord l (0 : Vec (1 + 1 + 1))
    have h1 := (IsGradient.const (tau 0) 0).add (c 2)
    have h2 := (IsGradient.const (q 0) 0).add (c 0)
    have h3 := (IsGradient.const (v 0) 0).add (c 1)
    have h4 := IsGradient.comp (φ := Real.sin) (Real.hasDerivAt_sin _) h2
    refine ((h1.sub h4).sub (h3.smul 2)).congr_of ?_ ?_
    · funext y
      rfl
    · funext l
      fin_cases l <;> fin_cases i <;> simp [pendulum, beside, Fin.append, Fin.addCases]

/-- C62 applied to a damped pendulum: the rate of the state, and its Jacobians. -/
example (x : Vec 2) (u : Vec 1) :
    let R := freeFwd pendulum (1 : Mat 1 1)
    let d := R.computeJacobians () x u (R.evaluate () x u R.new)
    (R.base d).value 1 = u 0 - Real.sin (x 0) - 2 * x 1 ∧ (R.base d).Jx 0 1 = 1 ∧ (R.base d).Jx 1 0 = -Real.cos (x 0) ∧
    IsJac (fun z w => Fin.append (snd (n := 1) (m := 1) (x + z)) (pendulum.aba (fst (n := 1) (m := 1) (x + z)) (snd (n := 1) (m := 1) (x + z)) ((1 : Mat 1 1) *ᵥ (u + w))))
      (R.base d).Jx (R.base d).Ju 0 0 := by
  intro R d
  have h := C62_free pendulum pendulum_law moves_add (1 : Mat 1 1) [] () x u trivial (by simp)
  refine ⟨?_, rfl, rfl, h.2.2.2.2⟩
  refine (congrFun h.2.2.2.1 1).trans ?_
  show ((1 : Mat 1 1) *ᵥ u) 0 - Real.sin (x 0) - 2 * x 1 = _
  rw [Matrix.one_mulVec]

/-- C62 applied to a point mass held by a proximal method, with settings that are not the default ones. -/
example := C62_constraint heldPoint (1, 3) (linDyn_law _ _ _) moves_add (1 : Mat 3 3) ⟨0, 0, 0, 0⟩

/-- One motor for two joints. -/
example : isUnderactuated (!![1; 0] : Mat 2 1) :=
  (C62_underactuated _).2 ⟨![0, 1], fun u h => by have := congrFun h 1; simp [Matrix.mulVec, dotProduct] at this⟩

example : ¬ isUnderactuated (!![1, 1; 0, 1] : Mat 2 2) := by
  rw [C62_underactuated]
  push Not
  intro tau
  refine ⟨![tau 0 - tau 1, tau 1], ?_⟩
  funext i
  fin_cases i <;> simp [Matrix.mulVec, dotProduct]

end Aligator.MB
