import Verif.Props.MultibodyDynamics
import Verif.Props.MomentumRate

/-!
# C62: kinodynamics, forward dynamics of the floating base given forces and joint accelerations
-/

namespace Aligator.MB

open Matrix Aligator.Deriv Aligator.Centroidal.Spec Spec Centroidal

variable {nu r nq nv na nk n m : ℕ} {Frame : Type}

/-! ### Products with block matrices -/

theorem mul_stack_six (A : Mat 6 6) (B C : Mat 3 m) :
    A * (stack B C : Mat (3 + 3) m) = leftThree A * B + rightThree A * C := by
  funext i j
  rw [Matrix.add_apply, Matrix.mul_apply, Matrix.mul_apply, Matrix.mul_apply]
  show ∑ l : Fin (3 + 3), _ = _
  rw [Fin.sum_univ_add]
  exact congrArg₂ (· + ·)
    (Finset.sum_congr rfl fun l _ => congrArg (A i (Fin.castAdd 3 l) * ·) (congrFun (stack_top B C l) j))
    (Finset.sum_congr rfl fun l _ => congrArg (A i (Fin.natAdd 3 l) * ·) (congrFun (stack_bot B C l) j))

theorem mul_setBlock_left {b : ℕ} (A : Mat 6 6) (B : Mat 3 b) (c0 : ℕ) :
    A * Centroidal.setBlock (0 : Mat 6 m) 0 c0 B = Centroidal.setBlock (0 : Mat 6 m) 0 c0 (leftThree A * B) := by
  have e : Centroidal.setBlock (0 : Mat 6 m) 0 c0 B = stack (a := 3) (b := 3) (Centroidal.setBlock (0 : Mat 3 m) 0 c0 B) 0 := by
    refine stack_ext (a := 3) (b := 3) _ _ _ (fun i => ?_) (fun i => ?_)
    · funext j
      simp only [Centroidal.setBlock]
      congr 1
    · exact setBlock_below _ _ _ _ _ (by simp)
  refine (congrArg (fun M : Mat 6 m => A * M) e).trans ((mul_stack_six A _ _).trans ?_)
  rw [Matrix.mul_zero, add_zero, mul_setBlock]

theorem mul_setBlock_right {b : ℕ} (A : Mat 6 6) (B : Mat 3 b) (c0 : ℕ) :
    A * Centroidal.setBlock (0 : Mat 6 m) 3 c0 B = Centroidal.setBlock (0 : Mat 6 m) 0 c0 (rightThree A * B) := by
  have e : Centroidal.setBlock (0 : Mat 6 m) 3 c0 B = stack (a := 3) (b := 3) 0 (Centroidal.setBlock (0 : Mat 3 m) 0 c0 B) := by
    refine stack_ext (a := 3) (b := 3) _ _ _ (fun i => ?_) (fun i => ?_)
    · exact setBlock_above _ _ _ _ _ (by simp)
    · funext j
      by_cases h : c0 ≤ j.val ∧ j.val < c0 + b
      · exact (setBlock_in (0 : Mat 6 m) 3 c0 B (Fin.natAdd 3 i) j i ⟨j.val - c0, by omega⟩ rfl (by simp; omega)).trans
          (setBlock_in (0 : Mat 3 m) 0 c0 B i j i ⟨j.val - c0, by omega⟩ (by simp) (by simp; omega)).symm
      · exact (setBlock_aside (0 : Mat 6 m) 3 c0 B (Fin.natAdd 3 i) j (by omega)).trans
          (setBlock_aside (0 : Mat 3 m) 0 c0 B i j (by omega)).symm
  refine (congrArg (fun M : Mat 6 m => A * M) e).trans ((mul_stack_six A _ _).trans ?_)
  rw [Matrix.mul_zero, zero_add, mul_setBlock]

theorem setBlock_full {a b : ℕ} (M B : Mat a b) : Centroidal.setBlock M 0 0 B = B := by
  funext i j
  exact setBlock_in M 0 0 B i j i j (by simp) (by simp)

theorem setBlock_sum0 {ι : Type} {a b : ℕ} (r0 c0 : ℕ) (s : Finset ι) (Y : ι → Mat a b) :
    Centroidal.setBlock (0 : Mat r m) r0 c0 (∑ i ∈ s, Y i) = ∑ i ∈ s, Centroidal.setBlock 0 r0 c0 (Y i) := by
  classical
  induction s using Finset.induction_on with
  | empty => simp [setBlock_zero0]
  | insert i s hi ih => rw [Finset.sum_insert hi, Finset.sum_insert hi, setBlock_add0, ih]

/-- The state Jacobian, after the writes of `dForward`. -/
theorem kino_jx (M : Mat (nv + (6 + na)) (nv + nv)) (T : Mat nv (nv + nv)) (hT : ∀ i, M (Fin.castAdd _ i) = T i)
    (hB : ∀ k, M (Fin.natAdd nv (Fin.natAdd 6 k)) = 0) (Y P1 P2 P3 V : Mat 6 nv) :
    setBlock (setBlock M nv 0 (0 : Mat 6 nv) + setBlock 0 nv 0 Y - setBlock 0 nv 0 P1 - setBlock 0 nv 0 P2) nv nv V -
      setBlock 0 nv 0 P3 = stack T (stack (beside (Y - P1 - P2 - P3) V) (0 : Mat na (nv + nv))) := by
  refine stack_ext _ _ _ (fun i => ?_) (fun i => ?_)
  · funext j
    have e : ∀ (M : Mat (nv + (6 + na)) (nv + nv)) (c0 : ℕ) (B : Mat 6 nv), setBlock M nv c0 B (Fin.castAdd _ i) = M (Fin.castAdd _ i) :=
      fun M c0 B => setBlock_above _ _ _ _ _ (by simp)
    simp only [Matrix.sub_apply, Matrix.add_apply, e, hT, Matrix.zero_apply, add_zero, sub_zero]
  · refine Fin.addCases (fun i => ?_) (fun i => ?_) i
    · rw [stack_top]
      funext j
      refine Fin.addCases (fun j => ?_) (fun j => ?_) j
      · have e : ∀ (M : Mat (nv + (6 + na)) (nv + nv)) (B : Mat 6 nv),
            setBlock M nv 0 B (Fin.natAdd nv (Fin.castAdd na i)) (Fin.castAdd nv j) = B i j :=
          fun M B => setBlock_in _ _ _ _ _ _ i j rfl (by simp)
        have e' : ∀ (M : Mat (nv + (6 + na)) (nv + nv)) (B : Mat 6 nv),
            setBlock M nv nv B (Fin.natAdd nv (Fin.castAdd na i)) (Fin.castAdd nv j) =
              M (Fin.natAdd nv (Fin.castAdd na i)) (Fin.castAdd nv j) :=
          fun M B => setBlock_aside _ _ _ _ _ _ (by left; simp)
        rw [beside_left]
        simp only [Matrix.sub_apply, Matrix.add_apply, e, e', Matrix.zero_apply, zero_add]
      · have e : ∀ (M : Mat (nv + (6 + na)) (nv + nv)) (B : Mat 6 nv),
            setBlock M nv 0 B (Fin.natAdd nv (Fin.castAdd na i)) (Fin.natAdd nv j) =
              M (Fin.natAdd nv (Fin.castAdd na i)) (Fin.natAdd nv j) :=
          fun M B => setBlock_aside _ _ _ _ _ _ (by right; simp [-Fin.natAdd_eq_addNat])
        have e' : ∀ (M : Mat (nv + (6 + na)) (nv + nv)) (B : Mat 6 nv),
            setBlock M nv nv B (Fin.natAdd nv (Fin.castAdd na i)) (Fin.natAdd nv j) = B i j :=
          fun M B => setBlock_in _ _ _ _ _ _ i j rfl rfl
        rw [beside_right]
        simp only [Matrix.sub_apply, e, e', Matrix.zero_apply, sub_zero]
    · rw [stack_bot]
      funext j
      have e : ∀ (M : Mat (nv + (6 + na)) (nv + nv)) (c0 : ℕ) (B : Mat 6 nv),
          setBlock M nv c0 B (Fin.natAdd nv (Fin.natAdd 6 i)) = M (Fin.natAdd nv (Fin.natAdd 6 i)) :=
        fun M c0 B => setBlock_below _ _ _ _ _ (by simp [-Fin.natAdd_eq_addNat])
      simp only [Matrix.sub_apply, Matrix.add_apply, e, hB, Matrix.zero_apply, Pi.zero_apply, add_zero, sub_zero]

/-- The control Jacobian, after the writes of `dForward`. -/
theorem kino_ju (M : Mat (nv + (6 + na)) (n + na)) (T : Mat nv (n + na)) (B : Mat na (n + na))
    (hT : ∀ i, M (Fin.castAdd _ i) = T i) (hB : ∀ k, M (Fin.natAdd nv (Fin.natAdd 6 k)) = B k) (Z : Mat 6 (n + na))
    (hZ : ∀ i (j : Fin na), Z i (Fin.natAdd n j) = 0) (W : Mat 6 na) :
    setBlock (setBlock M nv 0 (0 : Mat 6 (n + na)) + setBlock 0 nv 0 Z) nv n W =
      stack T (stack (Z + setBlock 0 0 n W) B) := by
  refine stack_ext _ _ _ (fun i => ?_) (fun i => ?_)
  · funext j
    have e : ∀ {b : ℕ} (M : Mat (nv + (6 + na)) (n + na)) (c0 : ℕ) (B : Mat 6 b), setBlock M nv c0 B (Fin.castAdd _ i) = M (Fin.castAdd _ i) :=
      fun M c0 B => setBlock_above _ _ _ _ _ (by simp)
    simp only [Matrix.add_apply, e, hT, Matrix.zero_apply, add_zero]
  · refine Fin.addCases (fun i => ?_) (fun i => ?_) i
    · rw [stack_top]
      funext j
      have e : ∀ (M : Mat (nv + (6 + na)) (n + na)) (B : Mat 6 (n + na)),
          setBlock M nv 0 B (Fin.natAdd nv (Fin.castAdd na i)) j = B i j :=
        fun M B => setBlock_in _ _ _ _ _ _ i j rfl (by simp)
      revert e
      refine Fin.addCases (fun j => ?_) (fun j => ?_) j <;> intro e
      · have e' : ∀ {r : ℕ} (M : Mat r (n + na)) (r0 : ℕ) (i : Fin r), setBlock M r0 n W i (Fin.castAdd na j) = M i (Fin.castAdd na j) :=
          fun M r0 i => setBlock_aside _ _ _ _ _ _ (by left; simp)
        rw [e', Matrix.add_apply, Matrix.add_apply, e']
        simp only [e, Matrix.zero_apply, zero_add, add_zero]
      · rw [Matrix.add_apply, hZ, zero_add, setBlock_in _ _ _ _ _ _ i j rfl rfl, setBlock_in _ _ _ _ _ _ i j (by simp) rfl]
    · rw [stack_bot]
      funext j
      have e : ∀ {b : ℕ} (M : Mat (nv + (6 + na)) (n + na)) (c0 : ℕ) (B : Mat 6 b),
          setBlock M nv c0 B (Fin.natAdd nv (Fin.natAdd 6 i)) = M (Fin.natAdd nv (Fin.natAdd 6 i)) :=
        fun M c0 B => setBlock_below _ _ _ _ _ (by simp [-Fin.natAdd_eq_addNat])
      simp only [Matrix.add_apply, e, hB, Matrix.zero_apply, add_zero]

/-! ### The loops over the contacts -/

/-- The loop of `forward` is the one of the momentum rate. -/
theorem kinoForce_fold [DecidableEq Frame] (K : Pin nq nv Frame) (active : Fin nk → Bool) (frame : Fin nk → Frame)
    (L : Layout nk nu) (u : Vec nu) : ∀ (l : List (Fin nk)) (d : KinoData nq nv Frame nu),
      l.foldl (kinoForce K active frame L u) d =
        { d with
          pin := (l.foldl (rateValue K active frame L u) (⟨⟨d.cforces, 0, 0⟩, d.pin⟩ : MData nq nv Frame 0 nu)).pin
          cforces := (l.foldl (rateValue K active frame L u) (⟨⟨d.cforces, 0, 0⟩, d.pin⟩ : MData nq nv Frame 0 nu)).value } := by
  intro l
  induction l with
  | nil => intro d; rfl
  | cons i l ih =>
    intro d
    have h1 : kinoForce K active frame L u d i =
        { d with
          pin := (rateValue K active frame L u (⟨⟨d.cforces, 0, 0⟩, d.pin⟩ : MData nq nv Frame 0 nu) i).pin
          cforces := (rateValue K active frame L u (⟨⟨d.cforces, 0, 0⟩, d.pin⟩ : MData nq nv Frame 0 nu) i).value } := by
      unfold kinoForce rateValue
      split_ifs <;> rfl
    have h2 : rateValue K active frame L u (⟨⟨d.cforces, 0, 0⟩, d.pin⟩ : MData nq nv Frame 0 nu) i =
        ⟨⟨(rateValue K active frame L u (⟨⟨d.cforces, 0, 0⟩, d.pin⟩ : MData nq nv Frame 0 nu) i).value, 0, 0⟩,
          (rateValue K active frame L u (⟨⟨d.cforces, 0, 0⟩, d.pin⟩ : MData nq nv Frame 0 nu) i).pin⟩ := by
      unfold rateValue
      split_ifs <;> rfl
    rw [List.foldl_cons, h1, ih, List.foldl_cons]
    dsimp only
    rw [← h2]

/-- The loop of the state Jacobian. -/
theorem kinoJx_fold (K : Pin nq nv Frame)
    (hU : ∀ f q j, K.supports f j = false → ∀ i, K.jac f .LOCAL_WORLD_ALIGNED q i j = 0) (active : Fin nk → Bool)
    (frame : Fin nk → Frame) (L : Layout nk nu) (u : Vec nu) (q : Vec nq) :
    ∀ (l : List (Fin nk)) (d : KinoData nq nv Frame nu), d.pin.jq = q → d.pin.Jcom = K.Jcom q →
      l.foldl (kinoJx K active frame L u) d =
        { d with Jx := d.Jx + (l.map fun i => setBlock 0 nv 0 (d.Agu_inv * (contactX K active frame L q u i : Mat 6 nv))).sum } := by
  intro l
  induction l with
  | nil => intro d _ _; simp
  | cons i l ih =>
    intro d hj hc
    have hstep : kinoJx K active frame L u d i =
        { d with Jx := d.Jx + setBlock 0 nv 0 (d.Agu_inv * (contactX K active frame L q u i : Mat 6 nv)) } := by
      unfold kinoJx contactX getFrameJacobian
      by_cases ha : active i = true
      · rw [if_pos ha, if_pos ha, hj, hc]
        dsimp only
        have hf : fill (K.supports (frame i)) (K.jac (frame i) .LOCAL_WORLD_ALIGNED q) 0 =
            K.jac (frame i) .LOCAL_WORLD_ALIGNED q :=
          fill_eq _ _ _ (fun j hj => hU (frame i) q j hj) (fun _ _ _ => rfl)
        dsimp only [setBlock]
        rw [hf, mul_setBlock_right, setBlock_full, Matrix.mul_assoc]
      · dsimp only [setBlock]
        rw [if_neg ha, if_neg ha, Matrix.mul_zero, setBlock_zero0, add_zero]
    rw [List.foldl_cons, hstep]
    refine (ih { d with Jx := d.Jx + setBlock 0 nv 0 (d.Agu_inv * (contactX K active frame L q u i : Mat 6 nv)) } hj hc).trans ?_
    simp [add_assoc]

theorem contactU_col (K : Pin nq nv Frame) (active : Fin nk → Bool) (frame : Fin nk → Frame) (L : Layout nk nu) (q : Vec nq)
    (i : Fin nk) (a : Fin 6) (l : Fin nu) (hl : l.val < L.fs * i ∨ L.fs * i + L.fs ≤ l.val) :
    contactU K active frame L q i a l = 0 := by
  have h3 := L.h3
  unfold contactU
  split_ifs with ha h6
  · rw [Matrix.add_apply, Matrix.add_apply, setBlock_zero_col _ _ _ _ _ (by omega), setBlock_zero_col _ _ _ _ _ (by omega),
      setBlock_zero_col _ _ _ _ _ (by omega), add_zero, add_zero]
  · rw [add_zero, Matrix.add_apply, setBlock_zero_col _ _ _ _ _ (by omega), setBlock_zero_col _ _ _ _ _ (by omega), add_zero]
  · rfl

theorem mul_col_zero {a b c : ℕ} (A : Mat a b) (B : Mat b c) (j : Fin c) (h : ∀ i, B i j = 0) (i : Fin a) : (A * B) i j = 0 := by
  rw [Matrix.mul_apply]
  exact Finset.sum_eq_zero fun l _ => by rw [h, mul_zero]

/-- The loop of the control Jacobian. -/
theorem kinoJu_fold (K : Pin nq nv Frame) (active : Fin nk → Bool) (frame : Fin nk → Frame) (L : Layout nk nu) (q : Vec nq)
    (l : List (Fin nk)) : ∀ (d : KinoData nq nv Frame nu),
      (∀ i, active i = true → d.pin.oMf (frame i) = K.place (frame i) q) → d.pin.com = K.com q → l.Nodup →
      (∀ i ∈ l, ∀ (a : Fin (nv + nv)) (c : Fin nu), nv ≤ a.val → a.val < nv + 6 →
        (L.fs * i ≤ c.val ∧ c.val < L.fs * i + L.fs) → d.Ju a c = 0) →
      l.foldl (kinoJu active frame L) d =
        { d with Ju := d.Ju + (l.map fun i => setBlock 0 nv 0 (d.Agu_inv * contactU K active frame L q i)).sum } := by
  have h3 := L.h3
  induction l with
  | nil => intro d _ _ _ _; simp
  | cons i l ih =>
    intro d ho hc hn hz
    rw [List.nodup_cons] at hn
    have hzi := hz i (by simp)
    have hstep : kinoJu active frame L d i =
        { d with Ju := d.Ju + setBlock 0 nv 0 (d.Agu_inv * contactU K active frame L q i) } := by
      unfold kinoJu contactU
      by_cases ha : active i = true
      · rw [if_pos ha, if_pos ha]
        dsimp only [setBlock]
        rw [ho i ha, hc, setBlock_of_zero d.Ju nv (L.fs * i) _ fun a c h1 hl => hzi a c h1.1 h1.2 (by omega), Matrix.mul_add,
          Matrix.mul_add, mul_setBlock_left, mul_setBlock_right, Matrix.mul_one, setBlock_add0, setBlock_add0, setBlock_nested,
          setBlock_nested]
        by_cases h6 : L.fs = 6
        · rw [if_pos h6, if_pos h6, mul_setBlock_right, Matrix.mul_one, setBlock_nested, add_assoc, add_assoc]
        · rw [if_neg h6, if_neg h6, Matrix.mul_zero, setBlock_zero0, add_zero, add_assoc]
      · dsimp only [setBlock]
        rw [if_neg ha, if_neg ha, Matrix.mul_zero, setBlock_zero0, add_zero]
    rw [List.foldl_cons, hstep]
    refine (ih { d with Ju := d.Ju + setBlock 0 nv 0 (d.Agu_inv * contactU K active frame L q i) } ho hc hn.2 ?_).trans ?_
    · intro j hj a c h1 h2 hl
      have hij : i ≠ j := fun e => hn.1 (e ▸ hj)
      have hd := disjoint_cols L.fs (fun h => hij (Fin.ext h).symm) c.val (by rw [mul_comm]; exact hl)
      rw [mul_comm] at hd
      refine (congrArg₂ (· + ·) (hz j (by simp [hj]) a c h1 h2 hl) ?_).trans (add_zero _)
      by_cases hb : a.val < nv + 6
      · refine (setBlock_in _ _ _ _ _ _ ⟨a.val - nv, by omega⟩ c (by simp; omega) (by simp)).trans ?_
        exact mul_col_zero _ _ _ (fun b => contactU_col K active frame L q i b c (by omega)) _
      · omega
    · simp [add_assoc]

/-! ### Derivatives -/

theorem Spec.isJac_sub {F G : Vec n → Vec nu → Vec r} {A A' : Mat r n} {B B' : Mat r nu} {x : Vec n} {u : Vec nu}
    (hF : IsJac F A B x u) (hG : IsJac G A' B' x u) : IsJac (fun x u => F x u - G x u) (A - A') (B - B') x u :=
  IsJacobian.congr (IsJacobian.sub hF hG) (by funext i; exact Deriv.append_sub _ _ _ _)

theorem mulVec_append (M : Mat 6 (6 + na)) (b : Vec 6) (a : Vec na) : M *ᵥ Fin.append b a = leftSix M *ᵥ b + rightRest M *ᵥ a := by
  funext i
  show ∑ j, M i j * Fin.append b a j = ∑ j, leftSix M i j * b j + ∑ j, rightRest M i j * a j
  rw [Fin.sum_univ_add]
  exact congrArg₂ (· + ·) (Finset.sum_congr rfl fun j _ => congrArg (M i (Fin.castAdd na j) * ·) (Fin.append_left b a j))
    (Finset.sum_congr rfl fun j _ => congrArg (M i (Fin.natAdd 6 j) * ·) (Fin.append_right b a j))

section

variable {K : Kino nq nv Frame} {integ : Vec nq → Vec nv → Vec nq} {Q : Vec nq → Prop}
  {X : Vec (nq + nv) → Vec (nv + nv) → Vec (nq + nv)}

theorem Moves.at_zero (hX : Moves integ X) (x : Vec (nq + nv)) (h : integ (fst x) 0 = fst x) :
    fst (X x 0) = fst x ∧ snd (X x 0) = snd x := by
  constructor
  · rw [hX.q]
    exact h
  · rw [hX.v]
    exact add_zero _

/-- The rate of the centroidal momentum by the contacts. -/
theorem isJac_momentumRate (hK : KinoLaw K integ Q) (hX : Moves integ X) (active : Fin nk → Bool) (frame : Fin nk → Frame)
    (L : Layout nk nu) (mass : ℝ) (grav : Vec 3) (x : Vec (nq + nv)) (u : Vec nu) (hx : Q (fst x)) :
    IsJac (fun z w => momentumRateSpec K.toPin active frame L.fs mass grav (fst (X x z)) (u + w))
      (∑ i, contactX K.toPin active frame L (fst x) u i) (∑ i, contactU K.toPin active frame L (fst x) i) 0 0 := by
  have hsum := isJac_sum (s := Finset.univ) fun i => isJac_contact_of (K := K.toPin) hX.config active frame L x u
    (hX.at_zero x (hK.integ_zero _ hx)).1 i (hK.place (frame i) _ hx) (hK.com _ hx)
  have hJ := IsJac_add (IsJac_const (setSeg (setSeg (0 : Vec 6) 0 (mass • grav)) 3 (0 : Vec 3)) 0 0) hsum
  rw [zero_add, zero_add] at hJ
  simp only [momentumRateSpec_eq] at hJ
  exact hJ

/-- The part of the rate linear in the acceleration. -/
theorem derivQ_Ag (hK : KinoLaw K integ Q) (q : Vec nq) (hq : Q q) (a : Vec nv) :
    DerivQ integ (fun q => K.Ag q *ᵥ a) (K.rateDq q 0 a) q := by
  have h := hK.rate q 0 a hq
  have hm : IsJacobian (fun w : Vec nv => Fin.append w (0 : Vec nv)) (Fin.append (1 : Mat nv nv) (0 : Mat nv nv)) 0 :=
    (IsJacobian.id _).append (IsJacobian.const 0 _)
  have h0 : Fin.append (0 : Vec nv) (0 : Vec nv) = 0 := append_zero_zero
  have hc := IsJacobian.comp (z := (0 : Vec nv)) (F := stacked fun w e => K.Ag (integ q w) *ᵥ a + K.dAg (integ q w) (0 + e) *ᵥ (0 + e))
    (by rw [h0]; exact h) hm
  refine hc.congr_of' ?_ ?_
  · funext w
    simp [stacked]
  · funext i j
    refine Matrix.mul_apply.trans ?_
    rw [Fin.sum_univ_add]
    have e1 : ∀ l : Fin nv, beside (K.rateDq q 0 a) (K.rateDv q 0 a) i (Fin.castAdd nv l) = K.rateDq q 0 a i l := fun l => beside_left _ _ _ _
    have e2 : ∀ l : Fin nv, (Fin.append (1 : Mat nv nv) (0 : Mat nv nv) : Mat (nv + nv) nv) (Fin.castAdd nv l) j = (1 : Mat nv nv) l j :=
      fun l => congrFun (Fin.append_left _ _ _) j
    have e3 : ∀ l : Fin nv, (Fin.append (1 : Mat nv nv) (0 : Mat nv nv) : Mat (nv + nv) nv) (Fin.natAdd nv l) j = 0 :=
      fun l => congrFun (Fin.append_right _ _ _) j
    refine (congrArg₂ (· + ·) (Finset.sum_congr rfl fun l _ => congrArg₂ (· * ·) (e1 l) (e2 l))
      (Finset.sum_congr rfl fun l _ => congrArg (_ * ·) (e3 l))).trans ?_
    have := congrFun (congrFun (Matrix.mul_one (K.rateDq q 0 a)) i) j
    rw [Matrix.mul_apply] at this
    simp only [mul_zero, Finset.sum_const_zero, add_zero]
    exact this

/-- The rest of it. -/
theorem derivQV_dAg (hK : KinoLaw K integ Q) (q : Vec nq) (hq : Q q) (v : Vec nv) :
    DerivQV integ (fun q v => K.dAg q v *ᵥ v) (K.rateDq q v 0) (K.rateDv q v 0) q v := by
  refine IsJacobian.congr_of' (hK.rate q v 0 hq) ?_ rfl
  funext y
  simp [stacked]

theorem continuousAt_Ag (hK : KinoLaw K integ Q) (q : Vec nq) (hq : Q q) (i : Fin 6) (j : Fin nv) :
    ContinuousAt (fun w => K.Ag (integ q w) i j) 0 := by
  have h := IsJacobian.continuousAt (derivQ_Ag hK q hq (Pi.single j 1)) i
  simpa using h

theorem continuousAt_Ag' (hK : KinoLaw K integ Q) (hX : Moves integ X) (x : Vec (nq + nv)) (hx : Q (fst x)) (i : Fin 6) (j : Fin nv) :
    ContinuousAt (fun y : Vec (nv + nv + nu) => K.Ag (fst (X x (fst y))) i j) (Fin.append 0 0) := by
  simp only [hX.q]
  have h := continuousAt_Ag hK (fst x) hx i j
  have hc : ContinuousAt (fun y : Vec (nv + nv + nu) => fst (n := nv) (m := nv) (fst (n := nv + nv) (m := nu) y)) (Fin.append 0 0) :=
    (continuous_pi fun l => continuous_apply _).continuousAt
  refine ContinuousAt.comp (f := fun y : Vec (nv + nv + nu) => fst (n := nv) (m := nv) (fst (n := nv + nv) (m := nu) y))
    (g := fun w => K.Ag (integ (fst x) w) i j) ?_ hc
  rw [fst_append]
  exact h

end

/-! ### The kinodynamics -/

section

variable {K : Kino nq (6 + na) Frame} {integ : Vec nq → Vec (6 + na) → Vec nq} {Q : Vec nq → Prop}
  {X : Vec (nq + (6 + na)) → Vec ((6 + na) + (6 + na)) → Vec (nq + (6 + na))}

/-- The joint accelerations in the control. -/
def joints (n : ℕ) (u : Vec (n + na)) : Vec na := snd u

/-- The acceleration of the base. -/
noncomputable def baseAcc (K : Kino nq (6 + na) Frame) (active : Fin nk → Bool) (frame : Fin nk → Frame) (fs : ℕ) (mass : ℝ)
    (grav : Vec 3) (q : Vec nq) (v : Vec (6 + na)) (u : Vec (nk * fs + na)) : Vec 6 :=
  (leftSix (K.Ag q))⁻¹ *ᵥ (momentumRateSpec K.toPin active frame fs mass grav q u - K.dAg q v *ᵥ v -
    rightRest (K.Ag q) *ᵥ joints (nk * fs) u)

theorem isJac_baseAcc (hK : KinoLaw K integ Q) (hX : Moves integ X) (active : Fin nk → Bool) (frame : Fin nk → Frame)
    (fs : ℕ) (h3 : 3 ≤ fs) (mass : ℝ) (grav : Vec 3) (x : Vec (nq + (6 + na))) (u : Vec (nk * fs + na)) (hx : Q (fst x))
    (hd : IsUnit (leftSix (K.Ag (fst x))).det) :
    IsJac (fun z w => baseAcc K active frame fs mass grav (fst (X x z)) (snd (X x z)) (u + w))
      ((leftSix (K.Ag (fst x)))⁻¹ * ((∑ i, contactX K.toPin active frame ⟨fs, h3, by omega⟩ (fst x) u i) -
        beside (K.rateDq (fst x) (snd x) 0) (K.rateDv (fst x) (snd x) 0) -
        beside (K.rateDq (fst x) 0 (Fin.append 0 (joints (nk * fs) u))) 0 -
        beside (K.rateDq (fst x) 0 (Fin.append (baseAcc K active frame fs mass grav (fst x) (snd x) u) 0)) 0))
      ((leftSix (K.Ag (fst x)))⁻¹ * ((∑ i, contactU K.toPin active frame ⟨fs, h3, by omega⟩ (fst x) i) -
        Centroidal.setBlock 0 0 (nk * fs) (rightRest (K.Ag (fst x))))) 0 0 := by
  set L : Layout nk (nk * fs + na) := ⟨fs, h3, by omega⟩ with hL
  set b0 := baseAcc K active frame fs mass grav (fst x) (snd x) u with hb0
  have hz := hX.at_zero x (hK.integ_zero _ hx)
  have cA := fun i j => continuousAt_Ag' (nu := nk * fs + na) hK hX x hx i j
  -- the terms
  have t1 := isJac_momentumRate hK hX active frame L mass grav x u hx
  have t2 : IsJac (fun z (_ : Vec (nk * fs + na)) => K.dAg (fst (X x z)) (snd (X x z)) *ᵥ snd (X x z))
      (beside (K.rateDq (fst x) (snd x) 0) (K.rateDv (fst x) (snd x) 0)) 0 0 0 := by
    have h := isJac_phase (nu := nk * fs + na) hX.config hX.velocity (derivQV_dAg hK (fst x) hx (snd x))
    exact (setBlock_both (0 : Mat 6 ((6 + na) + (6 + na))) (K.rateDq (fst x) (snd x) 0) (K.rateDv (fst x) (snd x) 0)) ▸ h
  have tA : ∀ a : Vec (6 + na), IsJac (fun z (_ : Vec (nk * fs + na)) => K.Ag (fst (X x z)) *ᵥ a)
      (beside (K.rateDq (fst x) 0 a) 0) 0 0 0 := by
    intro a
    have h := isJac_config (nu := nk * fs + na) hX.config (derivQ_Ag hK (fst x) hx a)
    have e : setBlock (0 : Mat 6 ((6 + na) + (6 + na))) 0 0 (K.rateDq (fst x) 0 a) = beside (K.rateDq (fst x) 0 a) 0 := by
      funext i j
      refine Fin.addCases (fun j => ?_) (fun j => ?_) j
      · rw [beside_left, setBlock_in _ _ _ _ _ _ i j (by simp) (by simp)]
      · rw [beside_right, setBlock_aside _ _ _ _ _ _ (by right; simp [-Fin.natAdd_eq_addNat])]
        rfl
    exact e ▸ h
  have t5 : IsJac (fun (z : Vec ((6 + na) + (6 + na))) (w : Vec (nk * fs + na)) =>
      rightRest (K.Ag (fst (X x z))) *ᵥ joints (nk * fs) w) 0
      (Centroidal.setBlock 0 0 (nk * fs) (rightRest (K.Ag (fst x)))) 0 0 := by
    have hj : IsJac (fun (_ : Vec ((6 + na) + (6 + na))) (w : Vec (nk * fs + na)) => joints (nk * fs) w) 0
        (Centroidal.setBlock 0 0 (nk * fs) (1 : Mat na na)) 0 0 :=
      isJac_block na (nk * fs) le_rfl (fun f => f) 1 0 0 (IsJacobian.id _)
    have h := isJacobian_vanish (M := fun y : Vec ((6 + na) + (6 + na) + (nk * fs + na)) => rightRest (K.Ag (fst (X x (fst y)))))
      (fun i j => cA i (Fin.natAdd 6 j)) hj (by simp only [stacked, snd_append]; rfl)
    refine h.congr_of' rfl ?_
    have e0 : rightRest (K.Ag (fst (X x (fst (Fin.append (0 : Vec ((6 + na) + (6 + na))) (0 : Vec (nk * fs + na))))))) =
        rightRest (K.Ag (fst x)) := by rw [fst_append, hz.1]
    refine (congrArg (fun M : Mat 6 na => M * (beside (0 : Mat na ((6 + na) + (6 + na)))
      (Centroidal.setBlock 0 0 (nk * fs) (1 : Mat na na)) : Mat na ((6 + na) + (6 + na) + (nk * fs + na)))) e0).trans
      ((mul_beside _ _ _).trans ?_)
    exact congrArg₂ beside (Matrix.mul_zero _) ((mul_setBlock _ _ _).trans (by rw [Matrix.mul_one]))
  have hR := isJac_sub (isJac_sub (isJac_sub (isJac_sub t1 t2) (tA (Fin.append 0 (joints (nk * fs) u)))) (tA (Fin.append b0 0))) t5
  -- zero at the point
  have hR0 : momentumRateSpec K.toPin active frame fs mass grav (fst x) u - K.dAg (fst x) (snd x) *ᵥ snd x -
      K.Ag (fst x) *ᵥ Fin.append 0 (joints (nk * fs) u) - K.Ag (fst x) *ᵥ Fin.append b0 0 = 0 := by
    rw [mulVec_append, mulVec_append, Matrix.mulVec_zero, Matrix.mulVec_zero, zero_add, add_zero, hb0]
    unfold baseAcc
    rw [Matrix.mulVec_mulVec, Matrix.mul_nonsing_inv _ hd, Matrix.one_mulVec, sub_self]
  have cM := fun i j => continuousAt_inv (M := fun y : Vec ((6 + na) + (6 + na) + (nk * fs + na)) => leftSix (K.Ag (fst (X x (fst y)))))
    (fun i j => cA i (Fin.castAdd na j)) (by rw [fst_append, hz.1]; exact hd) i j
  have hev := eventually_isUnit (M := fun y : Vec ((6 + na) + (6 + na) + (nk * fs + na)) => leftSix (K.Ag (fst (X x (fst y)))))
    (fun i j => cA i (Fin.castAdd na j)) (by rw [fst_append, hz.1]; exact hd)
  have hv := (isJacobian_vanish cM hR (by
    simp only [stacked, fst_append, snd_append, add_zero, hz.1, hz.2]
    rw [show momentumRateSpec K.toPin active frame L.fs mass grav (fst x) u = momentumRateSpec K.toPin active frame fs mass grav (fst x) u from rfl]
    have h0 : joints (na := na) (nk * fs) 0 = 0 := rfl
    rw [h0, Matrix.mulVec_zero, sub_zero]
    exact hR0)).add (IsJacobian.const b0 _)
  refine IsJacobian.congr (IsJacobian.congr_near hv ?_) ?_
  · filter_upwards [hev] with y hy
    simp only [stacked]
    unfold baseAcc
    have ej : joints (nk * fs) (u + snd y) = joints (nk * fs) u + joints (nk * fs) (snd y) := rfl
    have ea : ∀ a b : Vec na, ∀ M : Mat 6 na, M *ᵥ (a + b) = M *ᵥ a + M *ᵥ b := fun a b M => Matrix.mulVec_add M a b
    rw [mulVec_append, mulVec_append, Matrix.mulVec_zero, Matrix.mulVec_zero, zero_add, add_zero, ej, ea]
    have key : ∀ (M : Mat 6 6) (p a b c : Vec 6), IsUnit M.det → M⁻¹ *ᵥ (p - (a + b)) = M⁻¹ *ᵥ (p - a - M *ᵥ c - b) + c := by
      intro M p a b c hM
      rw [show p - a - M *ᵥ c - b = (p - (a + b)) - M *ᵥ c by abel, Matrix.mulVec_sub (M⁻¹) (p - (a + b)) (M *ᵥ c), Matrix.mulVec_mulVec,
        Matrix.nonsing_inv_mul _ hM, Matrix.one_mulVec, sub_add_cancel]
    exact key _ _ _ _ _ hy
  · have e0 : (leftSix (K.Ag (fst (X x (fst (Fin.append (0 : Vec ((6 + na) + (6 + na))) (0 : Vec (nk * fs + na)))))))) =
        leftSix (K.Ag (fst x)) := by rw [fst_append, hz.1]
    rw [add_zero]
    refine (congrArg (fun M : Mat 6 6 => M⁻¹ * (beside _ _ : Mat 6 ((6 + na) + (6 + na) + (nk * fs + na)))) e0).trans
      ((mul_beside _ _ _).trans ?_)
    simp only [sub_zero]
    rfl

/-! #### Rows that are not written -/

/-- Rows of the base acceleration. -/
def midRow (nv : ℕ) (i : ℕ) : Prop := nv ≤ i ∧ i < nv + 6

theorem setBlock_out {a : ℕ} (M : Mat r n) (c0 : ℕ) (B : Mat 6 a) (i : Fin r) (h : ¬ midRow nv i) : setBlock M nv c0 B i = M i := by
  unfold midRow at h
  by_cases h' : i.val < nv
  · exact setBlock_above _ _ _ _ _ h'
  · exact setBlock_below _ _ _ _ _ (by omega)

theorem add_setBlock_out {a : ℕ} (M : Mat r n) (c0 : ℕ) (B : Mat 6 a) (i : Fin r) (h : ¬ midRow nv i) :
    (M + setBlock 0 nv c0 B : Mat r n) i = M i := by
  funext j
  exact (congrArg (M i j + ·) (congrFun (setBlock_out 0 c0 B i h) j)).trans (add_zero _)

theorem sub_setBlock_out {a : ℕ} (M : Mat r n) (c0 : ℕ) (B : Mat 6 a) (i : Fin r) (h : ¬ midRow nv i) :
    (M - setBlock 0 nv c0 B : Mat r n) i = M i := by
  funext j
  exact (congrArg (M i j - ·) (congrFun (setBlock_out 0 c0 B i h) j)).trans (sub_zero _)

theorem kinoJx_out {nv : ℕ} (K : Pin nq nv Frame) (active : Fin nk → Bool) (frame : Fin nk → Frame) (L : Layout nk nu) (u : Vec nu)
    (i : Fin (nv + nv)) (h : ¬ midRow nv i) : ∀ (l : List (Fin nk)) (d : KinoData nq nv Frame nu),
      (l.foldl (kinoJx K active frame L u) d).Jx i = d.Jx i ∧ (l.foldl (kinoJx K active frame L u) d).Ju i = d.Ju i := by
  intro l
  induction l with
  | nil => intro d; exact ⟨rfl, rfl⟩
  | cons c l ih =>
    intro d
    rw [List.foldl_cons]
    have hs : (kinoJx K active frame L u d c).Jx i = d.Jx i ∧ (kinoJx K active frame L u d c).Ju i = d.Ju i := by
      unfold kinoJx
      split_ifs
      · exact ⟨add_setBlock_out _ _ _ _ h, rfl⟩
      · exact ⟨rfl, rfl⟩
    exact ⟨(ih _).1.trans hs.1, (ih _).2.trans hs.2⟩

theorem kinoJu_out {nv : ℕ} (active : Fin nk → Bool) (frame : Fin nk → Frame) (L : Layout nk nu)
    (i : Fin (nv + nv)) (h : ¬ midRow nv i) : ∀ (l : List (Fin nk)) (d : KinoData nq nv Frame nu),
      (l.foldl (kinoJu active frame L) d).Jx i = d.Jx i ∧ (l.foldl (kinoJu active frame L) d).Ju i = d.Ju i := by
  intro l
  induction l with
  | nil => intro d; exact ⟨rfl, rfl⟩
  | cons c l ih =>
    intro d
    rw [List.foldl_cons]
    have hs : (kinoJu active frame L d c).Jx i = d.Jx i ∧ (kinoJu active frame L d c).Ju i = d.Ju i := by
      unfold kinoJu
      split_ifs
      · exact ⟨rfl, (add_setBlock_out _ _ _ _ h).trans ((add_setBlock_out _ _ _ _ h).trans (setBlock_out _ _ _ _ h))⟩
      · exact ⟨rfl, (add_setBlock_out _ _ _ _ h).trans (setBlock_out _ _ _ _ h)⟩
      · exact ⟨rfl, rfl⟩
    exact ⟨(ih _).1.trans hs.1, (ih _).2.trans hs.2⟩

theorem kino_out [DecidableEq Frame] (K : Kino nq (6 + na) Frame) (inv : Mat 6 6 → Mat 6 6) (pin0 : PinData nq (6 + na) Frame)
    (active : Fin nk → Bool) (frame : Fin nk → Frame) (fs : ℕ) (h3 : 3 ≤ fs) (mass : ℝ) (grav : Vec 3)
    (x : Vec (nq + (6 + na))) (u : Vec (nk * fs + na)) (d : KinoData nq (6 + na) Frame (nk * fs + na))
    (i : Fin ((6 + na) + (6 + na))) (h : ¬ midRow (6 + na) i) :
    (KinoData.toFData ((kinodynamics K inv pin0 active frame fs h3 mass grav).computeJacobians () x u d)).Jx i = d.Jx i ∧
    (KinoData.toFData ((kinodynamics K inv pin0 active frame fs h3 mass grav).computeJacobians () x u d)).Ju i = d.Ju i := by
  dsimp only [kinodynamics]
  constructor
  · refine (kinoJu_out active frame _ i h _ _).1.trans ?_
    refine (sub_setBlock_out _ _ _ _ h).trans ((setBlock_out _ _ _ _ h).trans ((sub_setBlock_out _ _ _ _ h).trans
      ((sub_setBlock_out _ _ _ _ h).trans ?_)))
    refine (kinoJx_out K.toPin active frame _ u i h _ _).1.trans ?_
    exact setBlock_out _ _ _ _ h
  · refine (setBlock_out _ _ _ _ h).trans ?_
    refine (kinoJu_out active frame _ i h _ _).2.trans ?_
    refine (setBlock_out _ _ _ _ h).trans ?_
    exact (kinoJx_out K.toPin active frame _ u i h _ _).2

/-! #### The value -/

theorem rateValue_Ag {nv : ℕ} [DecidableEq Frame] (K : Pin nq nv Frame) (active : Fin nk → Bool) (frame : Fin nk → Frame)
    (L : Layout nk nu) (u : Vec nu) : ∀ (l : List (Fin nk)) (d : MData nq nv Frame 0 nu),
      (l.foldl (rateValue K active frame L u) d).pin.Ag = d.pin.Ag := by
  intro l
  induction l with
  | nil => intro d; rfl
  | cons i l ih =>
    intro d
    rw [List.foldl_cons, ih]
    unfold rateValue
    split_ifs <;> rfl

theorem setSeg_three {a b : ℕ} (y : Vec (nv + (a + b))) (v : Vec nv) (w : Vec a) (w' : Vec b) :
    setSeg (setSeg (setSeg y nv w) 0 v) (nv + a) w' = Fin.append v (Fin.append w w') := by
  funext i
  refine Fin.addCases (fun i => ?_) (fun i => ?_) i
  · rw [Fin.append_left]
    simp only [setSeg, Fin.val_castAdd]
    rw [dif_neg (by omega), dif_pos (by omega)]
    rfl
  · rw [Fin.append_right]
    refine Fin.addCases (fun i => ?_) (fun i => ?_) i
    · rw [Fin.append_left]
      simp only [setSeg, Fin.val_natAdd, Fin.val_castAdd]
      rw [dif_neg (by omega), dif_neg (by omega), dif_pos (by omega)]
      congr 1
      exact Fin.ext (by simp)
    · rw [Fin.append_right]
      simp only [setSeg, Fin.val_natAdd]
      rw [dif_pos (by omega)]
      congr 1
      exact Fin.ext (by simp; omega)

/-- The rate of the state. -/
noncomputable def kinoRate (K : Kino nq (6 + na) Frame) (active : Fin nk → Bool) (frame : Fin nk → Frame) (fs : ℕ) (mass : ℝ)
    (grav : Vec 3) (x : Vec (nq + (6 + na))) (u : Vec (nk * fs + na)) : Vec ((6 + na) + (6 + na)) :=
  Fin.append (snd x) (Fin.append (baseAcc K active frame fs mass grav (fst x) (snd x) u) (joints (nk * fs) u))

theorem kino_evaluate [DecidableEq Frame] (inv : Mat 6 6 → Mat 6 6) (hinv : ∀ A, IsUnit A.det → inv A = A⁻¹)
    (pin0 : PinData nq (6 + na) Frame) (active : Fin nk → Bool) (frame : Fin nk → Frame) (fs : ℕ) (h3 : 3 ≤ fs) (mass : ℝ)
    (grav : Vec 3) (x : Vec (nq + (6 + na))) (u : Vec (nk * fs + na)) (d : KinoData nq (6 + na) Frame (nk * fs + na))
    (hd : IsUnit (leftSix (K.Ag (fst x))).det) :
    ∃ (pin : PinData nq (6 + na) Frame), pin.Ag = K.Ag (fst x) ∧ pin.q = fst x ∧ pin.com = K.com (fst x) ∧
      (∀ i, active i = true → pin.oMf (frame i) = K.place (frame i) (fst x)) ∧
      (kinodynamics K inv pin0 active frame fs h3 mass grav).evaluate () x u d =
        (⟨⟨kinoRate K active frame fs mass grav x u, d.Jx, d.Ju⟩, pin, K.dAg (fst x) (snd x),
          momentumRateSpec K.toPin active frame fs mass grav (fst x) u, (leftSix (K.Ag (fst x)))⁻¹⟩ :
          KinoData nq (6 + na) Frame (nk * fs + na)) := by
  set L : Layout nk (nk * fs + na) := ⟨fs, h3, by omega⟩ with hL
  set P0 : PinData nq (6 + na) Frame := centerOfMassV K.toPin (fst x) (snd x) (fk (fst x)
    (dccrba K (fst x) (snd x) { d with pin := ccrba K.toPin (fst x) (snd x) d.pin }).pin) with hP0
  set M0 : MData nq (6 + na) Frame 0 (nk * fs + na) := ⟨⟨setSeg (0 : Vec 6) 0 (mass • grav), 0, 0⟩, P0⟩ with hM0
  obtain ⟨pin, hpq, hpc, _, hpo, hpe⟩ := rateValue_fold (K := K.toPin) (ndx := 0) active frame L u (fst x) (List.finRange nk)
    M0 rfl rfl
  have hspec : M0.value + ((List.finRange nk).map (contactV K.toPin active frame L.fs (fst x) u)).sum =
      momentumRateSpec K.toPin active frame fs mass grav (fst x) u := by
    rw [← Fin.sum_univ_def, ← momentumRateSpec_eq (K := K.toPin) active frame fs mass grav (fst x) u 0]
    congr 1
    funext i
    fin_cases i <;> simp [hM0, setSeg]
  rw [hspec] at hpe
  have hAg : pin.Ag = K.Ag (fst x) := by
    have := rateValue_Ag K.toPin active frame L u (List.finRange nk) M0
    rw [hpe] at this
    exact this
  refine ⟨pin, hAg, hpq, hpc, fun i => hpo i (List.mem_finRange i), ?_⟩
  have hf := kinoForce_fold K.toPin active frame L u (List.finRange nk)
    (⟨⟨d.value, d.Jx, d.Ju⟩, P0, K.dAg (fst x) (snd x), setSeg (0 : Vec 6) 0 (mass • grav), inv (leftSix (K.Ag (fst x)))⟩ :
      KinoData nq (6 + na) Frame (nk * fs + na))
  have hf' := hf.trans (congrArg (fun e : MData nq (6 + na) Frame 0 (nk * fs + na) =>
    (⟨⟨d.value, d.Jx, d.Ju⟩, e.pin, K.dAg (fst x) (snd x), e.value, inv (leftSix (K.Ag (fst x)))⟩ :
      KinoData nq (6 + na) Frame (nk * fs + na))) hpe)
  let G : KinoData nq (6 + na) Frame (nk * fs + na) → KinoData nq (6 + na) Frame (nk * fs + na) := fun e =>
    ⟨⟨setSeg (setSeg (setSeg e.value (6 + na) (e.Agu_inv *ᵥ (e.cforces - e.dAg *ᵥ snd x - rightRest e.pin.Ag *ᵥ joints (nk * fs) u)))
      0 (snd x)) (6 + na + 6) (joints (nk * fs) u), e.Jx, e.Ju⟩, e.pin, e.dAg, e.cforces, e.Agu_inv⟩
  refine (congrArg G hf').trans ?_
  dsimp only [G]
  rw [hinv _ hd, hAg, setSeg_three]
  rfl

theorem kino_evaluate_jac [DecidableEq Frame] (K : Kino nq (6 + na) Frame) (inv : Mat 6 6 → Mat 6 6) (pin0 : PinData nq (6 + na) Frame)
    (active : Fin nk → Bool) (frame : Fin nk → Frame) (fs : ℕ) (h3 : 3 ≤ fs) (mass : ℝ) (grav : Vec 3)
    (x : Vec (nq + (6 + na))) (u : Vec (nk * fs + na)) (d : KinoData nq (6 + na) Frame (nk * fs + na)) :
    (KinoData.toFData ((kinodynamics K inv pin0 active frame fs h3 mass grav).evaluate () x u d)).Jx = d.Jx ∧
    (KinoData.toFData ((kinodynamics K inv pin0 active frame fs h3 mass grav).evaluate () x u d)).Ju = d.Ju := by
  dsimp only [kinodynamics]
  rw [kinoForce_fold]
  exact ⟨rfl, rfl⟩

/-! #### The Jacobians -/

theorem contactX_beside {nv : ℕ} (K : Pin nq nv Frame) (active : Fin nk → Bool) (frame : Fin nk → Frame) (L : Layout nk nu) (q : Vec nq)
    (u : Vec nu) (i : Fin nk) :
    (contactX K active frame L q u i : Mat 6 (nv + nv)) = beside (contactX K active frame L q u i : Mat 6 nv) 0 := by
  unfold contactX
  split_ifs
  · funext a j
    by_cases ha : 3 ≤ a.val
    · refine Fin.addCases (fun j => ?_) (fun j => ?_) j
      · rw [beside_left]
        exact (setBlock_in _ 3 0 _ _ _ ⟨a.val - 3, by omega⟩ j (by simp; omega) (by simp)).trans
          (setBlock_in _ 3 0 _ _ _ ⟨a.val - 3, by omega⟩ j (by simp; omega) (by simp)).symm
      · rw [beside_right]
        exact setBlock_aside _ 3 0 _ _ _ (by right; simp [-Fin.natAdd_eq_addNat])
    · refine (congrFun (setBlock_above (0 : Mat 6 (nv + nv)) 3 0 _ a (by omega)) j).trans ?_
      refine Fin.addCases (fun j => ?_) (fun j => ?_) j
      · rw [beside_left]
        exact (congrFun (setBlock_above (0 : Mat 6 nv) 3 0 _ a (by omega)) j).symm
      · rw [beside_right]
        rfl
  · funext a j
    refine Fin.addCases (fun j => ?_) (fun j => ?_) j
    · rw [beside_left]; rfl
    · rw [beside_right]; rfl

theorem beside_sub {a b c : ℕ} (A C : Mat a b) (B D : Mat a c) : beside A B - beside C D = beside (A - C) (B - D) := by
  funext i
  exact Deriv.append_sub _ _ _ _

theorem beside_sum {ι : Type} {a b c : ℕ} (s : Finset ι) (A : ι → Mat a b) :
    ∑ i ∈ s, beside (A i) (0 : Mat a c) = beside (∑ i ∈ s, A i) 0 := by
  classical
  funext i j
  rw [Matrix.sum_apply]
  refine Fin.addCases (fun j => ?_) (fun j => ?_) j
  · rw [beside_left, Matrix.sum_apply]
    exact Finset.sum_congr rfl fun l _ => beside_left _ _ _ _
  · rw [beside_right]
    exact Finset.sum_eq_zero fun l _ => beside_right _ _ _ _

theorem kino_jacobians [DecidableEq Frame] (hU : ∀ f q j, K.supports f j = false → ∀ i, K.jac f .LOCAL_WORLD_ALIGNED q i j = 0)
    (inv : Mat 6 6 → Mat 6 6) (pin0 : PinData nq (6 + na) Frame) (active : Fin nk → Bool) (frame : Fin nk → Frame) (fs : ℕ)
    (h3 : 3 ≤ fs) (mass : ℝ) (grav : Vec 3) (x : Vec (nq + (6 + na))) (u : Vec (nk * fs + na))
    (d : KinoData nq (6 + na) Frame (nk * fs + na)) (hAg : d.pin.Ag = K.Ag (fst x))
    (ho : ∀ i, active i = true → d.pin.oMf (frame i) = K.place (frame i) (fst x)) (b : Vec 6)
    (hb : segment (6 + na) 6 (by omega) d.value = b)
    (T : Mat (6 + na) ((6 + na) + (6 + na))) (hT : ∀ i, d.Jx (Fin.castAdd _ i) = T i)
    (hB : ∀ k, d.Jx (Fin.natAdd (6 + na) (Fin.natAdd 6 k)) = 0)
    (T' : Mat (6 + na) (nk * fs + na)) (B' : Mat na (nk * fs + na)) (hT' : ∀ i, d.Ju (Fin.castAdd _ i) = T' i)
    (hB' : ∀ k, d.Ju (Fin.natAdd (6 + na) (Fin.natAdd 6 k)) = B' k) :
    KinoData.toFData ((kinodynamics K inv pin0 active frame fs h3 mass grav).computeJacobians () x u d) =
      ⟨d.value,
        stack T (stack (d.Agu_inv * ((∑ i, contactX K.toPin active frame ⟨fs, h3, by omega⟩ (fst x) u i) -
          beside (K.rateDq (fst x) (snd x) 0) (K.rateDv (fst x) (snd x) 0) -
          beside (K.rateDq (fst x) 0 (Fin.append 0 (joints (nk * fs) u))) 0 -
          beside (K.rateDq (fst x) 0 (Fin.append b 0)) 0)) (0 : Mat na ((6 + na) + (6 + na)))),
        stack T' (stack (d.Agu_inv * ((∑ i, contactU K.toPin active frame ⟨fs, h3, by omega⟩ (fst x) i) -
          Centroidal.setBlock 0 0 (nk * fs) (rightRest (K.Ag (fst x))))) B')⟩ := by
  set L : Layout nk (nk * fs + na) := ⟨fs, h3, by omega⟩ with hL
  set q := fst x with hqx
  set v := snd x with hvx
  set a := joints (nk * fs) u with hax
  let D1 : KinoData nq (6 + na) Frame (nk * fs + na) :=
    ⟨⟨d.value, setBlock d.Jx (6 + na) 0 (0 : Mat 6 (6 + na)), d.Ju⟩,
      computeJointJacobians (jacobianCenterOfMass K.toPin q (centerOfMassV K.toPin q v d.pin)), d.dAg, d.cforces, d.Agu_inv⟩
  let mid : KinoData nq (6 + na) Frame (nk * fs + na) → KinoData nq (6 + na) Frame (nk * fs + na) := fun e =>
    ⟨⟨e.value, setBlock (e.Jx - setBlock 0 (6 + na) 0 (e.Agu_inv * K.rateDq q 0 (Fin.append 0 a)) -
        setBlock 0 (6 + na) 0 (e.Agu_inv * K.rateDq q v 0)) (6 + na) (6 + na) (-e.Agu_inv * K.rateDv q v 0) -
        setBlock 0 (6 + na) 0 (e.Agu_inv * K.rateDq q 0 (Fin.append (segment (6 + na) 6 (by omega) e.value) 0)),
      setBlock e.Ju (6 + na) 0 (0 : Mat 6 (nk * fs + na))⟩,
      centroidalDerivatives K.toPin q 0 (centroidalDerivatives K.toPin q v (centroidalDerivatives K.toPin q 0 e.pin)),
      e.dAg, e.cforces, e.Agu_inv⟩
  let fin : KinoData nq (6 + na) Frame (nk * fs + na) → FData ((6 + na) + (6 + na)) (nk * fs + na) ((6 + na) + (6 + na)) := fun e =>
    ⟨e.value, e.Jx, setBlock e.Ju (6 + na) (nk * fs) (-e.Agu_inv * rightRest e.pin.Ag)⟩
  have f1 := kinoJx_fold K.toPin hU active frame L u q (List.finRange nk) D1 rfl rfl
  refine (congrArg (fun e => fin ((List.finRange nk).foldl (kinoJu active frame L) (mid e))) f1).trans ?_
  have f2 := kinoJu_fold K.toPin active frame L q (List.finRange nk) (mid
    { D1 with Jx := D1.Jx + ((List.finRange nk).map fun i => setBlock 0 (6 + na) 0 (D1.Agu_inv * (contactX K.toPin active frame L q u i : Mat 6 (6 + na)))).sum })
    ho rfl (List.nodup_finRange nk) (fun i _ a c h1 h2 _ => by
      exact setBlock_in d.Ju (6 + na) 0 (0 : Mat 6 (nk * fs + na)) a c ⟨a.val - (6 + na), by omega⟩ c (by simp; omega) (by simp))
  refine (congrArg fin f2).trans ?_
  have e1 : ((List.finRange nk).map fun i => setBlock (0 : Mat ((6 + na) + (6 + na)) ((6 + na) + (6 + na))) (6 + na) 0
      (d.Agu_inv * (contactX K.toPin active frame L q u i : Mat 6 (6 + na)))).sum =
      setBlock 0 (6 + na) 0 (d.Agu_inv * ∑ i, (contactX K.toPin active frame L q u i : Mat 6 (6 + na))) := by
    rw [← Fin.sum_univ_def, Matrix.mul_sum]
    exact (setBlock_sum0 _ _ _ _).symm
  have e2 : ((List.finRange nk).map fun i => setBlock (0 : Mat ((6 + na) + (6 + na)) (nk * fs + na)) (6 + na) 0
      (d.Agu_inv * contactU K.toPin active frame L q i)).sum =
      setBlock 0 (6 + na) 0 (d.Agu_inv * ∑ i, contactU K.toPin active frame L q i) := by
    rw [← Fin.sum_univ_def, Matrix.mul_sum]
    exact (setBlock_sum0 _ _ _ _).symm
  have hx := kino_jx d.Jx T hT hB (d.Agu_inv * ∑ i, (contactX K.toPin active frame L q u i : Mat 6 (6 + na)))
    (d.Agu_inv * K.rateDq q 0 (Fin.append 0 a)) (d.Agu_inv * K.rateDq q v 0) (d.Agu_inv * K.rateDq q 0 (Fin.append b 0))
    (-d.Agu_inv * K.rateDv q v 0)
  have hu := kino_ju d.Ju T' B' hT' hB' (d.Agu_inv * ∑ i, contactU K.toPin active frame L q i) (fun i j => by
    refine mul_col_zero _ _ _ (fun a => ?_) _
    rw [Matrix.sum_apply]
    refine Finset.sum_eq_zero fun c _ => contactU_col K.toPin active frame L q c a _ (Or.inr ?_)
    have h1 : fs * c.val + fs ≤ nk * fs := by
      have := Nat.mul_le_mul_left fs (Nat.succ_le_of_lt c.isLt)
      rw [Nat.mul_succ, mul_comm fs nk] at this
      exact this
    exact h1.trans (Nat.le_add_right _ _)) (-d.Agu_inv * rightRest (K.Ag q))
  have jx : ∀ (e : FData ((6 + na) + (6 + na)) (nk * fs + na) ((6 + na) + (6 + na))) (A : Mat _ _) (B : Mat _ _), e.value = d.value →
      e.Jx = A → e.Ju = B → e = ⟨d.value, A, B⟩ := by
    rintro ⟨e1, e2, e3⟩ A B rfl rfl rfl
    rfl
  refine jx _ _ _ rfl ?_ ?_
  · dsimp only [fin, mid, D1]
    refine Eq.trans ?_ (hx.trans ?_)
    · rw [hb]
      exact congrArg (fun S => setBlock (setBlock d.Jx (6 + na) 0 (0 : Mat 6 (6 + na)) + S - setBlock 0 (6 + na) 0 (d.Agu_inv * K.rateDq q 0 (Fin.append 0 a)) -
        setBlock 0 (6 + na) 0 (d.Agu_inv * K.rateDq q v 0)) (6 + na) (6 + na) (-d.Agu_inv * K.rateDv q v 0) -
        setBlock 0 (6 + na) 0 (d.Agu_inv * K.rateDq q 0 (Fin.append b 0))) e1
    · congr 2
      simp only [contactX_beside, beside_sum, beside_sub]
      rw [mul_beside]
      congr 1
      · rw [Matrix.mul_sub, Matrix.mul_sub, Matrix.mul_sub]
        abel
      · rw [sub_zero, sub_zero, zero_sub, Matrix.mul_neg, Matrix.neg_mul]
  · dsimp only [fin, mid, D1]
    refine Eq.trans ?_ (hu.trans ?_)
    · have e3 : rightRest (centroidalDerivatives K.toPin q 0 (centroidalDerivatives K.toPin q v (centroidalDerivatives K.toPin q 0
        (computeJointJacobians (jacobianCenterOfMass K.toPin q (centerOfMassV K.toPin q v d.pin)))))).Ag = rightRest (K.Ag q) :=
        congrArg rightRest hAg
      rw [e3]
      exact congrArg (fun S => setBlock (setBlock d.Ju (6 + na) 0 (0 : Mat 6 (nk * fs + na)) + S) (6 + na) (nk * fs)
        (-d.Agu_inv * rightRest (K.Ag q))) e2
    · congr 2
      rw [Matrix.mul_sub, mul_setBlock, sub_eq_add_neg, Matrix.neg_mul]
      exact congrArg (_ + ·) (setBlock_neg0 _ _ _)

theorem top_new' (i : Fin nv) : setBlock (0 : Mat (nv + m) (nv + nv)) 0 nv (1 : Mat nv nv) (Fin.castAdd m i) =
    beside (0 : Mat nv nv) (1 : Mat nv nv) i := by
  funext j
  refine Fin.addCases (fun j => ?_) (fun j => ?_) j
  · rw [beside_left, setBlock_aside _ _ _ _ _ _ (by left; simp)]
    rfl
  · rw [beside_right, setBlock_in _ _ _ _ _ _ i j (by simp) rfl]

theorem bot_new (k : Fin na) : setBlock (0 : Mat (nv + (6 + na)) (n + na)) (nv + 6) n (1 : Mat na na) (Fin.natAdd nv (Fin.natAdd 6 k)) =
    setBlock (0 : Mat na (n + na)) 0 n (1 : Mat na na) k := by
  funext j
  refine Fin.addCases (fun j => ?_) (fun j => ?_) j
  · exact (setBlock_aside (0 : Mat (nv + (6 + na)) (n + na)) (nv + 6) n (1 : Mat na na) _ (Fin.castAdd na j) (Or.inl j.isLt)).trans
      (setBlock_aside (0 : Mat na (n + na)) 0 n (1 : Mat na na) k (Fin.castAdd na j) (Or.inl j.isLt)).symm
  · exact (setBlock_in _ _ _ _ _ _ k j (by show nv + (6 + k.val) = nv + 6 + k.val; omega) rfl).trans
      (setBlock_in _ _ _ _ _ _ k j (by simp) rfl).symm

/-- The equations of motion, at the state `x` with the control `u`: `y` is the velocity, followed by accelerations such that the
rate of the centroidal momentum is the wrench of gravity and contacts, and the joints have the accelerations in the control. -/
def IsMotion (K : Kino nq (6 + na) Frame) (active : Fin nk → Bool) (frame : Fin nk → Frame) (fs : ℕ) (mass : ℝ)
    (grav : Vec 3) (x : Vec (nq + (6 + na))) (u : Vec (nk * fs + na)) (y : Vec ((6 + na) + (6 + na))) : Prop :=
  fst y = snd x ∧
  K.Ag (fst x) *ᵥ snd y + K.dAg (fst x) (snd x) *ᵥ snd x = momentumRateSpec K.toPin active frame fs mass grav (fst x) u ∧
  (∀ k : Fin na, snd y (Fin.natAdd 6 k) = u (Fin.natAdd (nk * fs) k))

theorem isMotion_iff (active : Fin nk → Bool) (frame : Fin nk → Frame) (fs : ℕ) (mass : ℝ) (grav : Vec 3)
    (x : Vec (nq + (6 + na))) (u : Vec (nk * fs + na)) (y : Vec ((6 + na) + (6 + na)))
    (hd : IsUnit (leftSix (K.Ag (fst x))).det) :
    IsMotion K active frame fs mass grav x u y ↔ y = kinoRate K active frame fs mass grav x u := by
  have hy : ∃ v b a, y = Fin.append v (Fin.append b a) :=
    ⟨fst y, fst (snd y), snd (snd y), by rw [append_fst_snd, append_fst_snd]⟩
  obtain ⟨w, b, a, rfl⟩ := hy
  unfold IsMotion kinoRate
  rw [fst_append, snd_append, mulVec_append]
  have hj : (∀ k : Fin na, Fin.append b a (Fin.natAdd 6 k) = u (Fin.natAdd (nk * fs) k)) ↔ a = joints (nk * fs) u := by
    constructor
    · intro h
      funext k
      rw [← Fin.append_right b a k, h]
      rfl
    · rintro rfl k
      rw [Fin.append_right]
      rfl
  rw [hj]
  constructor
  · rintro ⟨rfl, h, rfl⟩
    congr 2
    unfold baseAcc
    rw [← h, add_sub_cancel_right, add_sub_cancel_right, Matrix.mulVec_mulVec, Matrix.nonsing_inv_mul _ hd, Matrix.one_mulVec]
  · intro h
    have h1 := congrArg fst h
    have h2 := congrArg snd h
    rw [fst_append, fst_append] at h1
    rw [snd_append, snd_append] at h2
    have h3 := congrArg fst h2
    have h4 := congrArg snd h2
    rw [fst_append, fst_append] at h3
    rw [snd_append, snd_append] at h4
    refine ⟨h1, ?_, h4⟩
    rw [h3, h4]
    unfold baseAcc
    rw [Matrix.mulVec_mulVec, Matrix.mul_nonsing_inv _ hd, Matrix.one_mulVec]
    abel

/-- C62: the kinodynamics.  Where the base part of the centroidal momentum matrix is invertible, the rate of the state is the one
solution of the equations of motion; the Jacobians are those of this function in state and control, after any calls. -/
theorem C62_kinodynamics [DecidableEq Frame] (hK : KinoLaw K integ Q) (hX : Moves integ X) (inv : Mat 6 6 → Mat 6 6)
    (hinv : ∀ A, IsUnit A.det → inv A = A⁻¹) (pin0 : PinData nq (6 + na) Frame) (active : Fin nk → Bool) (frame : Fin nk → Frame)
    (fs : ℕ) (h3 : 3 ≤ fs) (mass : ℝ) (grav : Vec 3) :
    ∃ F : Vec (nq + (6 + na)) → Vec (nk * fs + na) → Vec ((6 + na) + (6 + na)), Right (kinodynamics K inv pin0 active frame fs h3 mass grav) X
        (fun _ x => Q (fst x) ∧ IsUnit (leftSix (K.Ag (fst x))).det) (fun _ _ => True) (fun _ x u => F x u) ∧
      ∀ x u, IsUnit (leftSix (K.Ag (fst x))).det → ∀ y, IsMotion K active frame fs mass grav x u y ↔ y = F x u := by
  refine ⟨kinoRate K active frame fs mass grav, ?_, fun x u hd y => isMotion_iff active frame fs mass grav x u y hd⟩
  refine right_of_inv _ _ _ _ _ (fun _ (d : KinoData nq (6 + na) Frame (nk * fs + na)) =>
      (∀ i, d.Jx (Fin.castAdd (6 + na) i) = beside (0 : Mat (6 + na) (6 + na)) 1 i) ∧
      (∀ k, d.Jx (Fin.natAdd (6 + na) (Fin.natAdd 6 k)) = 0) ∧
      (∀ i, d.Ju (Fin.castAdd (6 + na) i) = 0) ∧
      (∀ k, d.Ju (Fin.natAdd (6 + na) (Fin.natAdd 6 k)) = setBlock (0 : Mat na (nk * fs + na)) 0 (nk * fs) (1 : Mat na na) k))
    (fun _ => ⟨fun i => top_new' i, fun k => setBlock_below _ _ _ _ _ (by simp [-Fin.natAdd_eq_addNat]),
      fun i => setBlock_above _ _ _ _ _ (by simp; omega), fun k => bot_new k⟩) ?_ ?_ ?_
  · rintro _ _ x u d _ ⟨h1, h2, h3', h4⟩
    have h := kino_evaluate_jac K inv pin0 active frame fs h3 mass grav x u d
    refine ⟨fun i => ?_, fun k => ?_, fun i => ?_, fun k => ?_⟩
    · exact (congrFun h.1 _).trans (h1 i)
    · exact (congrFun h.1 _).trans (h2 k)
    · exact (congrFun h.2 _).trans (h3' i)
    · exact (congrFun h.2 _).trans (h4 k)
  · rintro _ _ x u d _ ⟨h1, h2, h3', h4⟩
    have h := kino_out K inv pin0 active frame fs h3 mass grav x u d
    have hc : ∀ i : Fin (6 + na), ¬ midRow (6 + na) (Fin.castAdd (6 + na) i) := fun i h => by
      have := h.1
      simp at this
      omega
    have hn : ∀ k : Fin na, ¬ midRow (6 + na) (Fin.natAdd (6 + na) (Fin.natAdd 6 k)) := fun k h => by
      have := h.2
      simp [-Fin.natAdd_eq_addNat] at this
    refine ⟨fun i => ?_, fun k => ?_, fun i => ?_, fun k => ?_⟩
    · exact (h _ (hc i)).1.trans (h1 i)
    · exact (h _ (hn k)).1.trans (h2 k)
    · exact (h _ (hc i)).2.trans (h3' i)
    · exact (h _ (hn k)).2.trans (h4 k)
  · rintro _ x u d ⟨hx, hd⟩ ⟨h1, h2, h3', h4⟩
    obtain ⟨pin, hAg, _, _, ho, he⟩ := kino_evaluate inv hinv pin0 active frame fs h3 mass grav x u d hd
    rw [he]
    have hj := kino_jacobians hK.unsupported inv pin0 active frame fs h3 mass grav x u
      (⟨⟨kinoRate K active frame fs mass grav x u, d.Jx, d.Ju⟩, pin, K.dAg (fst x) (snd x),
          momentumRateSpec K.toPin active frame fs mass grav (fst x) u, (leftSix (K.Ag (fst x)))⁻¹⟩ :
          KinoData nq (6 + na) Frame (nk * fs + na)) hAg ho (baseAcc K active frame fs mass grav (fst x) (snd x) u) (by
        funext i
        have e : (kinoRate K active frame fs mass grav x u) (Fin.natAdd (6 + na) (Fin.castAdd na i)) =
            baseAcc K active frame fs mass grav (fst x) (snd x) u i := by
          unfold kinoRate
          rw [Fin.append_right, Fin.append_left]
        exact e) _ h1 h2 0 _ h3' h4
    refine ⟨rfl, rfl, rfl, congrArg FData.value hj, ?_⟩
    have hJ : IsJac (fun (_ : Vec ((6 + na) + (6 + na))) (w : Vec (nk * fs + na)) => joints (nk * fs) (u + w)) 0
        (Centroidal.setBlock 0 0 (nk * fs) (1 : Mat na na)) 0 0 := by
      have h := IsJac_add (IsJac_const (joints (nk * fs) u) (0 : Vec ((6 + na) + (6 + na))) (0 : Vec (nk * fs + na)))
        (isJac_block na (nk * fs) le_rfl (fun f => f) 1 (0 : Vec ((6 + na) + (6 + na))) (0 : Vec (nk * fs + na)) (IsJacobian.id _))
      rw [zero_add, zero_add] at h
      exact h
    have hs := isJac_stack (isJac_velocity (nu := nk * fs + na) hX x)
      (isJac_stack (isJac_baseAcc hK hX active frame fs h3 mass grav x u hx hd) hJ)
    have eX := congrArg FData.Jx hj
    have eU := congrArg FData.Ju hj
    dsimp only at eX eU
    rw [← eX, ← eU] at hs
    exact hs

end

/-! ### A robot -/

/-- A body that translates, with three flywheels, and an arm with a mass at its end that turns about the vertical: half of the
mass of the robot is in the arm.  The arm ends in a foot. -/
noncomputable def armed : Kino 7 (6 + 1) Unit where
  place _ q := ⟨1, ![q 0 + 2 * Real.cos (q 6), q 1 + 2 * Real.sin (q 6), q 2]⟩
  jac _ _ q := !![1, 0, 0, 0, 0, 0, -2 * Real.sin (q 6); 0, 1, 0, 0, 0, 0, 2 * Real.cos (q 6); 0, 0, 1, 0, 0, 0, 0;
    0, 0, 0, 0, 0, 0, 0; 0, 0, 0, 0, 0, 0, 0; 0, 0, 0, 0, 0, 0, 1]
  supports _ j := decide (j.val < 3 ∨ j.val = 6)
  vel _ _ _ _ := 0
  velDq _ _ _ _ := 0
  velDv _ _ _ _ := 0
  com q := ![q 0 + Real.cos (q 6), q 1 + Real.sin (q 6), q 2]
  Jcom q := !![1, 0, 0, 0, 0, 0, -Real.sin (q 6); 0, 1, 0, 0, 0, 0, Real.cos (q 6); 0, 0, 1, 0, 0, 0, 0]
  vcom _ _ := 0
  vcomDq _ _ := 0
  Ag q := !![2, 0, 0, 0, 0, 0, -2 * Real.sin (q 6); 0, 2, 0, 0, 0, 0, 2 * Real.cos (q 6); 0, 0, 2, 0, 0, 0, 0;
    0, 0, 0, 1, 0, 0, 0; 0, 0, 0, 0, 1, 0, 0; 0, 0, 0, 0, 0, 1, 2]
  hDq _ _ := 0
  gravity _ := 0
  gravityDq _ := 0
  related _ _ := true
  log6 _ := 0
  Jlog6 _ := 0
  dist _ := 0
  near1 _ := 0
  near2 _ := 0
  normal _ := 0
  dAg q v := !![0, 0, 0, 0, 0, 0, -2 * Real.cos (q 6) * v 6; 0, 0, 0, 0, 0, 0, -2 * Real.sin (q 6) * v 6; 0, 0, 0, 0, 0, 0, 0;
    0, 0, 0, 0, 0, 0, 0; 0, 0, 0, 0, 0, 0, 0; 0, 0, 0, 0, 0, 0, 0]
  rateDq q v a := !![0, 0, 0, 0, 0, 0, -2 * Real.cos (q 6) * a 6 + 2 * Real.sin (q 6) * v 6 * v 6;
    0, 0, 0, 0, 0, 0, -2 * Real.sin (q 6) * a 6 - 2 * Real.cos (q 6) * v 6 * v 6; 0, 0, 0, 0, 0, 0, 0;
    0, 0, 0, 0, 0, 0, 0; 0, 0, 0, 0, 0, 0, 0; 0, 0, 0, 0, 0, 0, 0]
  rateDv q v _ := !![0, 0, 0, 0, 0, 0, -4 * Real.cos (q 6) * v 6; 0, 0, 0, 0, 0, 0, -4 * Real.sin (q 6) * v 6; 0, 0, 0, 0, 0, 0, 0;
    0, 0, 0, 0, 0, 0, 0; 0, 0, 0, 0, 0, 0, 0; 0, 0, 0, 0, 0, 0, 0]

theorem armed_rate (q v a : Vec 7) (i : Fin 6) : (armed.Ag q *ᵥ a + armed.dAg q v *ᵥ v) i =
    ![2 * a 0 + -2 * a 6 * Real.sin (q 6) + -2 * Real.cos (q 6) * (v 6 * v 6),
      2 * a 1 + 2 * a 6 * Real.cos (q 6) + -2 * Real.sin (q 6) * (v 6 * v 6), 2 * a 2, a 3, a 4, a 5 + 2 * a 6] i := by
  show (armed.Ag q *ᵥ a) i + (armed.dAg q v *ᵥ v) i = _
  fin_cases i <;> simp [armed, Matrix.mulVec, dotProduct, Fin.sum_univ_succ] <;> (try ring_nf) <;> rfl

theorem armed_law : KinoLaw armed (fun q z => q + z) (fun _ => True) where
  integ_zero q _ := add_zero q
  place _ q _ := by
    intro i
    have c := fun l : Fin 7 => (IsGradient.const (q l) 0).add (IsGradient.coord l (0 : Vec 7))
    have hc := (IsGradient.comp (φ := Real.cos) (Real.hasDerivAt_cos _) (c 6)).smul 2
    have hs := (IsGradient.comp (φ := Real.sin) (Real.hasDerivAt_sin _) (c 6)).smul 2
    fin_cases i
    · refine ((c 0).add hc).congr_of ?_ ?_
      · funext y; rfl
      · funext l
        fin_cases l <;> simp [armed, top]
    · refine ((c 1).add hs).congr_of ?_ ?_
      · funext y; rfl
      · funext l
        fin_cases l <;> simp [armed, top]
    · refine (c 2).congr_of ?_ ?_
      · funext y; rfl
      · funext l
        fin_cases l <;> simp [armed, top]
  unsupported _ q j hj i := by
    fin_cases j <;> simp [armed] at hj <;> fin_cases i <;> simp [armed]
  com q _ := by
    intro i
    have c := fun l : Fin 7 => (IsGradient.const (q l) 0).add (IsGradient.coord l (0 : Vec 7))
    have hc := (IsGradient.comp (φ := Real.cos) (Real.hasDerivAt_cos _) (c 6))
    have hs := (IsGradient.comp (φ := Real.sin) (Real.hasDerivAt_sin _) (c 6))
    fin_cases i
    · refine ((c 0).add hc).congr_of ?_ ?_
      · funext y; rfl
      · funext l
        fin_cases l <;> simp [armed]
    · refine ((c 1).add hs).congr_of ?_ ?_
      · funext y; rfl
      · funext l
        fin_cases l <;> simp [armed]
    · refine (c 2).congr_of ?_ ?_
      · funext y; rfl
      · funext l
        fin_cases l <;> simp [armed]
  rate q v a _ := by
    intro i
    have cq := (IsGradient.const (q 6) 0).add (IsGradient.coord (6 : Fin (7 + 7)) 0)
    have cv := (IsGradient.const (v 6) 0).add (IsGradient.coord (13 : Fin (7 + 7)) 0)
    have hc := (IsGradient.comp (φ := Real.cos) (Real.hasDerivAt_cos _) cq)
    have hs := (IsGradient.comp (φ := Real.sin) (Real.hasDerivAt_sin _) cq)
    simp only [stacked, armed_rate]
    fin_cases i
    · refine (((IsGradient.const (2 * a 0) 0).add (hs.smul (-2 * a 6))).add ((hc.smul (-2)).mul (cv.mul cv))).congr_of ?_ ?_
      · funext y
        rfl
      · funext l
        fin_cases l <;> simp [armed, beside, Fin.append, Fin.addCases] <;> ring
    · refine (((IsGradient.const (2 * a 1) 0).add (hc.smul (2 * a 6))).add ((hs.smul (-2)).mul (cv.mul cv))).congr_of ?_ ?_
      · funext y
        rfl
      · funext l
        fin_cases l <;> simp [armed, beside, Fin.append, Fin.addCases] <;> ring
    all_goals
      refine (IsGradient.const _ 0).congr ?_
      funext l
      fin_cases l <;> simp [armed, beside, Fin.append, Fin.addCases]

theorem armed_unit (q : Vec 7) : IsUnit (leftSix (armed.Ag q)).det := by
  have e : leftSix (armed.Ag q) = Matrix.diagonal ![2, 2, 2, 1, 1, 1] := by
    funext i j
    fin_cases i <;> fin_cases j <;> simp [leftSix, armed, Matrix.diagonal]
  rw [e, Matrix.det_diagonal]
  simp [Fin.prod_univ_succ]

/-- C62 applied to this robot, standing on its foot: the foot pushes the centre of mass; where the force and the centre of mass
are aligned the flywheel takes up the acceleration of the arm. -/
example (x : Vec (7 + (6 + 1))) (u : Vec (1 * 3 + 1)) (pin0 : PinData 7 (6 + 1) Unit) :
    let R := kinodynamics armed (fun A => A⁻¹) pin0 (fun _ : Fin 1 => true) (fun _ => ()) 3 le_rfl 2 ![0, 0, -9]
    let y := (R.base (R.evaluate () x u R.new)).value
    2 * y 7 - 2 * Real.sin (x 6) * u 3 - 2 * Real.cos (x 6) * (x 13 * x 13) = u 0 ∧
    2 * y 9 = u 2 - 18 ∧ y 12 + 2 * u 3 = Real.cos (x 6) * u 1 - Real.sin (x 6) * u 0 ∧ y 13 = u 3 := by
  intro R y
  obtain ⟨F, hR, hF⟩ := C62_kinodynamics armed_law moves_add (fun A : Mat 6 6 => A⁻¹) (fun _ _ => rfl) pin0 (fun _ : Fin 1 => true) (fun _ => ()) 3
    le_rfl 2 ![0, 0, -9]
  have hy : y = F x u := (hR [] () x u ⟨trivial, armed_unit _⟩ (by simp)).1
  obtain ⟨h1, h2, h3⟩ := (hF x u (armed_unit _) y).2 hy
  have h13 : y 13 = u 3 := h3 0
  have e := fun i => (armed_rate _ _ _ i).symm.trans (congrFun h2 i)
  have s0 := e 0
  have s2 := e 2
  have s5 := e 5
  simp [momentumRateSpec, Fin.append, Fin.addCases, resultant, totalMoment, force, moment, armed, snd, fst, cross_apply] at s0 s2 s5
  have t0 : three u 0 0 = u 0 := rfl
  have t1 : three u 0 1 = u 1 := rfl
  have t2 : three u 0 2 = u 2 := rfl
  rw [t0] at s0 s5
  rw [t1] at s5
  rw [t2] at s2
  rw [h13] at s0 s5
  exact ⟨by linarith, by linarith, by linarith, h13⟩

end Aligator.MB
