import Verif.Lemmas.Multibody
import Verif.Lemmas.MultibodyRobot

/-!
# C60: residuals of rigid-body kinematics

Value and Jacobian of each residual, for every model whose algorithms obey the laws of `Spec.Lawful`, after every history of
calls.
-/

namespace Aligator.MB

open Matrix Aligator.Deriv Aligator.Centroidal.Spec Spec

variable {nx ndx nu r nq nv : ℕ} {Frame : Type} {P : Type}

/-- Residuals are right by an invariant of their data. -/
theorem right_of_inv (f : Resid P nx ndx nu r) (X : Vec nx → Vec ndx → Vec nx) (ok : P → Vec nx → Prop)
    (compat : P → P → Prop) (F : P → Vec nx → Vec nu → Vec r) (Inv : P → f.Data → Prop) (hnew : ∀ p, Inv p f.new)
    (he : ∀ p' p x u d, compat p' p → Inv p d → Inv p (f.evaluate p' x u d))
    (hj : ∀ p' p x u d, compat p' p → Inv p d → Inv p (f.computeJacobians p' x u d))
    (main : ∀ p x u d, ok p x → Inv p d →
      (f.base (f.evaluate p x u d)).value = F p x u ∧
      (f.base (f.evaluate p x u d)).Jx = (f.base d).Jx ∧ (f.base (f.evaluate p x u d)).Ju = (f.base d).Ju ∧
      (f.base (f.computeJacobians p x u (f.evaluate p x u d))).value = F p x u ∧
      IsJac (fun z w => F p (X x z) (u + w)) (f.base (f.computeJacobians p x u (f.evaluate p x u d))).Jx
        (f.base (f.computeJacobians p x u (f.evaluate p x u d))).Ju 0 0) :
    Right f X ok compat F := by
  intro cs p x u hx hc
  refine main p x u _ hx ?_
  have : ∀ (cs : List (Call P nx nu)) (d : f.Data), Inv p d → (∀ c ∈ cs, compat c.param p) → Inv p (cs.foldl f.call d) := by
    intro cs
    induction cs with
    | nil => intro d hd _; exact hd
    | cons c cs ih =>
      intro d hd hc
      refine ih _ ?_ (fun c' h' => hc c' (List.mem_cons_of_mem _ h'))
      have := hc c (by simp)
      cases c with
      | value p' x u => exact he p' p x u d this hd
      | jac p' x u => exact hj p' p x u d this hd
  exact this cs _ (hnew p) hc

variable {K : Pin nq nv Frame} {integ : Vec nq → Vec nv → Vec nq} {Q : Vec nq → Prop}
  {X : Vec nx → Vec ndx → Vec nx} {hq : nq ≤ nx} {hqv : nq + nv ≤ nx} {hv : nv ≤ ndx} {hvv : nv + nv ≤ ndx}

/-- Every joint that moves the first frame moves the second. -/
def Carries (K : Pin nq nv Frame) (f g : Frame) : Prop := ∀ j, K.supports f j = true → K.supports g j = true

/-- C60: the frame-translation residual is the position of the frame minus its reference, and its Jacobian is the derivative;
also when reference and frame are changed on the way, as long as each earlier frame was on the path to the present one. -/
theorem C60_frame_translation [DecidableEq Frame] (hK : Lawful K integ Q) (hX : MovesConfig integ X hq hv) (pin0 : PinData nq nv Frame) :
    Right (frameTranslation K pin0 hq : Resid (Frame × Vec 3) nx ndx nu 3) X (fun _ x => Q (head nq hq x))
      (fun p' p => Carries K p'.1 p.1) (fun p x _ => (K.place p.1 (head nq hq x)).p - p.2) := by
  refine right_of_inv _ _ _ _ _ (fun p (d : KData nq nv Frame ndx nu 3) =>
    (∀ j, K.supports p.1 j = false → ∀ i, d.fJf i j = 0) ∧ (∀ i j, nv ≤ j.val → d.Jx i j = 0) ∧ d.Ju = 0) ?_ ?_ ?_ ?_
  · exact fun p => ⟨fun _ _ _ => rfl, fun _ _ _ => rfl, rfl⟩
  · intro p' p x u d _ hd
    exact hd
  · intro p' p x u d hc hd
    exact ⟨fill_zero _ _ _ _ hc hd.1, fun i j h => setBlock_left_zero _ i j h _ (hd.2.1 i j h), hd.2.2⟩
  · intro p x u d hx hd
    have ev : ((frameTranslation K pin0 hq : Resid (Frame × Vec 3) nx ndx nu 3).evaluate p x u d : KData nq nv Frame ndx nu 3).value =
        (K.place p.1 (head nq hq x)).p - p.2 := by
      show (Function.update d.pin.oMf p.1 (K.place p.1 (head nq hq x)) p.1).p - p.2 = _
      rw [Function.update_self]
    refine ⟨ev, rfl, rfl, ev, ?_⟩
    have hD : DerivQ integ (fun q => (K.place p.1 q).p) (top (K.jac p.1 .LOCAL_WORLD_ALIGNED (head nq hq x))) (head nq hq x) := by
      have := (hK.place p.1 _ hx).trans
      rw [hK.integ_zero _ hx] at this
      rw [hK.lwa _ _ hx, top_six_mul, Matrix.zero_mul, add_zero]
      exact this
    have hJ := IsJac_sub_const (isJac_config (nu := nu) hX hD) p.2
    show IsJac _ (setBlock d.Jx 0 0 (top (fill (K.supports p.1) (K.jac p.1 .LOCAL_WORLD_ALIGNED (head nq hq x)) d.fJf))) d.Ju 0 0
    rw [fill_eq _ _ _ (fun j hj => (hK.unsupported p.1 _ _ 0 j hj).1) hd.1, setBlock_left_of_zero _ _ hd.2.1, hd.2.2]
    exact hJ

/-- The robot of `Lemmas/MultibodyRobot.lean`. -/
example := C60_frame_translation (nu := 1) Robot.lawful Robot.move_config Robot.pin0

/-- C60: the frame-placement residual is the logarithm of the placement of the frame as seen from the reference. -/
theorem C60_frame_placement [DecidableEq Frame] (hK : Lawful K integ Q) (hX : MovesConfig integ X hq hv) (pin0 : PinData nq nv Frame) (M0 : SE3) :
    Right (framePlacement K pin0 hq M0 : Resid (Frame × SE3) nx ndx nu 6) X
      (fun p x => Q (head nq hq x) ∧ LogLaw K (p.2.inverse.act (K.place p.1 (head nq hq x))))
      (fun p' p => Carries K p'.1 p.1) (fun p x _ => K.log6 (p.2.inverse.act (K.place p.1 (head nq hq x)))) := by
  refine right_of_inv _ _ _ _ _ (fun p (d : PData nq nv Frame ndx nu) =>
    (∀ j, K.supports p.1 j = false → ∀ i, d.fJf i j = 0) ∧ (∀ i j, nv ≤ j.val → d.Jx i j = 0) ∧ d.Ju = 0) ?_ ?_ ?_ ?_
  · exact fun p => ⟨fun _ _ _ => rfl, fun _ _ _ => rfl, rfl⟩
  · intro p' p x u d _ hd
    exact hd
  · intro p' p x u d hc hd
    exact ⟨fill_zero _ _ _ _ hc hd.1, fun i j h => setBlock_left_zero _ i j h _ (hd.2.1 i j h), hd.2.2⟩
  · intro p x u d hx hd
    have e0 : Function.update d.pin.oMf p.1 (K.place p.1 (head nq hq x)) p.1 = K.place p.1 (head nq hq x) :=
      Function.update_self _ _ _
    have ev : ((framePlacement K pin0 hq M0 : Resid (Frame × SE3) nx ndx nu 6).evaluate p x u d : PData nq nv Frame ndx nu).value =
        K.log6 (p.2.inverse.act (K.place p.1 (head nq hq x))) := by
      show K.log6 (p.2.inverse.act (Function.update d.pin.oMf p.1 (K.place p.1 (head nq hq x)) p.1)) = _
      rw [e0]
    refine ⟨ev, rfl, rfl, ev, ?_⟩
    have hD : DerivQ integ (fun q => K.log6 (p.2.inverse.act (K.place p.1 q)))
        (K.Jlog6 (p.2.inverse.act (K.place p.1 (head nq hq x))) * K.jac p.1 .LOCAL (head nq hq x)) (head nq hq x) :=
      hx.2 _ _ _ 0 (by rw [hK.integ_zero _ hx.1]) ((hK.place p.1 _ hx.1).act _)
    have hJ := isJac_config (nu := nu) hX hD
    show IsJac _ (setBlock d.Jx 0 0 (K.Jlog6 (p.2.inverse.act (Function.update d.pin.oMf p.1 (K.place p.1 (head nq hq x)) p.1)) *
      fill (K.supports p.1) (K.jac p.1 .LOCAL (head nq hq x)) d.fJf)) d.Ju 0 0
    rw [e0, fill_eq _ _ _ (fun j hj => (hK.unsupported p.1 _ _ 0 j hj).1) hd.1, setBlock_left_of_zero _ _ hd.2.1, hd.2.2]
    exact hJ

example := C60_frame_placement (nu := 1) Robot.lawful Robot.move_config Robot.pin0 ⟨1, 0⟩

/-- C60: what the placement residuals take the logarithm of.  With `p_ref` a rigid transformation, `p_ref_inverse_ * oMf` is
the only transformation that carries the reference to the placement of the frame; likewise `actInv`, used by the equality of
two frames. -/
theorem C60_relative_placement (A B M : SE3) (hA : IsRotation A.R) :
    (A.act M = B ↔ M = A.inverse.act B) ∧ (A.act M = B ↔ M = A.actInv B) ∧ A.inverse.act A = ⟨1, 0⟩ := by
  have h1 : A.R * A.Rᵀ = 1 := hA.1
  have h2 : A.Rᵀ * A.R = 1 := mul_eq_one_comm.1 h1
  have e : A.inverse.act B = A.actInv B := by
    simp only [SE3.inverse, SE3.act, SE3.actInv, Matrix.mulVec_sub]
    simp only [sub_eq_add_neg]
  have key : A.act M = B ↔ M = A.actInv B := by
    constructor
    · rintro rfl
      simp only [SE3.act, SE3.actInv, add_sub_cancel_right, Matrix.mulVec_mulVec, ← Matrix.mul_assoc, h2, Matrix.one_mul,
        Matrix.one_mulVec]
    · rintro rfl
      simp only [SE3.act, SE3.actInv, Matrix.mulVec_mulVec, ← Matrix.mul_assoc, h1, Matrix.one_mul, Matrix.one_mulVec,
        sub_add_cancel]
  refine ⟨by rw [e]; exact key, key, ?_⟩
  simp only [SE3.inverse, SE3.act, h2, add_neg_cancel]

/-- A quarter turn. -/
example : IsRotation !![0, -1, 0; 1, 0, 0; 0, 0, 1] := by
  constructor
  · ext i j
    fin_cases i <;> fin_cases j <;> simp [Matrix.mul_apply, Fin.sum_univ_three]
  · simp [Matrix.det_fin_three]

/-- All placements of the robot meet the condition on the logarithm. -/
example (p : Bool × SE3) (x : Vec 4) : LogLaw Robot.robot (p.2.inverse.act (Robot.robot.place p.1 (head 2 (by decide) x))) :=
  Robot.logLaw _

/-- C60: the frame-velocity residual is the frame velocity, in any reference frame, minus its reference.  The Jacobian is right
when the state consists of configuration and velocity only. -/
theorem C60_frame_velocity_partial [DecidableEq Frame] (hK : Lawful K integ Q) (hX : MovesConfig integ X hq hv) (hV : MovesVelocity X hqv hvv)
    (h2 : ndx = nv + nv) (pin0 : PinData nq nv Frame) :
    Right (frameVelocity K pin0 hq hqv : Resid (Frame × Vec 6 × Ref) nx ndx nu 6) X (fun _ x => Q (head nq hq x))
      (fun p' p => Carries K p'.1 p.1) (fun p x _ => K.vel p.1 p.2.2 (head nq hq x) (segment nq nv hqv x) - p.2.1) := by
  refine right_of_inv _ _ _ _ _ (fun p (d : KData nq nv Frame ndx nu 6) =>
    (∀ j : Fin nv, K.supports p.1 j = false → ∀ i, d.Jx i ⟨j, by omega⟩ = 0 ∧ d.Jx i ⟨ndx - nv + j, by omega⟩ = 0) ∧ d.Ju = 0)
    ?_ ?_ ?_ ?_
  · exact fun p => ⟨fun _ _ _ => ⟨rfl, rfl⟩, rfl⟩
  · intro p' p x u d _ hd
    exact hd
  · intro p' p x u d hc hd
    refine ⟨fun j hj i => ?_, hd.2⟩
    have hj' : K.supports p'.1 j = false := by
      by_contra h
      rw [hc j (by simpa using h)] at hj
      exact absurd hj (by simp)
    have hl : ∀ (M : Mat 6 ndx) (A : Mat 6 nv), setBlock M 0 0 A i ⟨ndx - nv + j, by omega⟩ = M i ⟨ndx - nv + j, by omega⟩ :=
      fun M A => setBlock_apply_out _ 0 _ i _ (by simp; omega)
    have hr : ∀ (M : Mat 6 ndx) (A : Mat 6 nv), setBlock M 0 (ndx - nv) A i ⟨j, by omega⟩ = M i ⟨j, by omega⟩ :=
      fun M A => setBlock_apply_out _ (ndx - nv) _ i _ (by simp; omega)
    constructor
    · refine (hr _ _).trans ((setBlock_apply_left _ _ i j (by omega)).trans ((fill_out _ _ _ i j hj').trans ?_))
      exact (dif_pos (by omega)).trans (hd.1 j hj i).1
    · refine (setBlock_apply_right _ _ _ i j (by omega)).trans ((fill_out _ _ _ i j hj').trans ?_)
      exact (dif_pos (by omega)).trans ((hl _ _).trans (hd.1 j hj i).2)
  · intro p x u d hx hd
    refine ⟨rfl, rfl, rfl, rfl, ?_⟩
    have hJ := IsJac_sub_const (isJac_phase (nu := nu) hX hV (hK.vel p.1 p.2.2 _ (segment nq nv hqv x) hx)) p.2.1
    refine IsJacobian.congr hJ ?_
    funext i
    congr 1
    · refine (congrFun (setBlock_halves d.Jx _ _ h2) i).symm.trans (congrFun ?_ i)
      show _ = setBlock (setBlock d.Jx 0 0 _) 0 (ndx - nv) _
      congr 1
      · congr 1
        refine (fill_eq _ _ _ (fun j hj => (hK.unsupported p.1 _ _ _ j hj).2.1) (fun j hj i => ?_)).symm
        rw [dif_pos (by omega)]
        exact (hd.1 j hj i).1
      · refine (fill_eq _ _ _ (fun j hj => (hK.unsupported p.1 _ _ _ j hj).2.2) (fun j hj i => ?_)).symm
        rw [dif_pos (by omega)]
        exact (setBlock_apply_out _ 0 _ i _ (by simp; omega)).trans (hd.1 j hj i).2
    · exact (congrFun hd.2 i).symm

example := C60_frame_velocity_partial (nu := 1) Robot.lawful Robot.move_config Robot.move_velocity rfl Robot.pin0

/-- C60: the centre-of-mass residual. -/
theorem C60_com_translation (hK : Lawful K integ Q) (hX : MovesConfig integ X hq hv) (pin0 : PinData nq nv Frame) :
    Right (comTranslation K pin0 hq : Resid (Vec 3) nx ndx nu 3) X (fun _ x => Q (head nq hq x)) (fun _ _ => True)
      (fun p x _ => K.com (head nq hq x) - p) := by
  refine right_of_inv _ _ _ _ _ (fun _ (d : KData nq nv Frame ndx nu 3) =>
    (∀ i j, nv ≤ j.val → d.Jx i j = 0) ∧ d.Ju = 0) ?_ ?_ ?_ ?_
  · exact fun p => ⟨fun _ _ _ => rfl, rfl⟩
  · intro p' p x u d _ hd
    exact hd
  · intro p' p x u d hc hd
    exact ⟨fun i j h => setBlock_left_zero _ i j h _ (hd.1 i j h), hd.2⟩
  · intro p x u d hx hd
    refine ⟨rfl, rfl, rfl, rfl, ?_⟩
    have hJ := IsJac_sub_const (isJac_config (nu := nu) hX (hK.com _ hx)) p
    show IsJac _ (setBlock d.Jx 0 0 (K.Jcom (head nq hq x))) d.Ju 0 0
    rw [setBlock_left_of_zero _ _ hd.1, hd.2]
    exact hJ

example := C60_com_translation (nu := 1) Robot.lawful Robot.move_config Robot.pin0

/-- C60: the centre-of-mass velocity residual, when the state consists of configuration and velocity only. -/
theorem C60_com_velocity_partial (hK : Lawful K integ Q) (hX : MovesConfig integ X hq hv) (hV : MovesVelocity X hqv hvv)
    (h2 : ndx = nv + nv) (pin0 : PinData nq nv Frame) :
    Right (comVelocity K pin0 hq hqv : Resid (Vec 3) nx ndx nu 3) X (fun _ x => Q (head nq hq x)) (fun _ _ => True)
      (fun p x _ => K.vcom (head nq hq x) (segment nq nv hqv x) - p) := by
  refine right_of_inv _ _ _ _ _ (fun _ (d : KData nq nv Frame ndx nu 3) => d.Ju = 0) ?_ ?_ ?_ ?_
  · exact fun p => rfl
  · intro p' p x u d _ hd
    exact hd
  · intro p' p x u d hc hd
    exact hd
  · intro p x u d hx hd
    refine ⟨rfl, rfl, rfl, rfl, ?_⟩
    have hJ := IsJac_sub_const (isJac_phase (nu := nu) hX hV (hK.vcom _ (segment nq nv hqv x) hx)) p
    show IsJac _ (setBlock (setBlock d.Jx 0 0 (K.vcomDq (head nq hq x) (segment nq nv hqv x))) 0 (ndx - nv)
      (K.Jcom (head nq hq x))) d.Ju 0 0
    rw [setBlock_halves _ _ _ h2, hd]
    exact hJ

example := C60_com_velocity_partial (nu := 1) Robot.lawful Robot.move_config Robot.move_velocity rfl Robot.pin0

/-- Derivatives of sums. -/
theorem Spec.DerivQV_add {F G : Vec nq → Vec nv → Vec r} {A B A' B' : Mat r nv} {q : Vec nq} {v : Vec nv}
    (hF : DerivQV integ F A B q v) (hG : DerivQV integ G A' B' q v) :
    DerivQV integ (fun q v => F q v + G q v) (A + A') (B + B') q v :=
  IsJacobian.congr (IsJacobian.add hF hG) (by funext i; exact Deriv.append_add _ _ _ _)

theorem Spec.DerivQV_smul {F : Vec nq → Vec nv → Vec r} {A B : Mat r nv} {q : Vec nq} {v : Vec nv} (c : ℝ)
    (hF : DerivQV integ F A B q v) : DerivQV integ (fun q v => c • F q v) (c • A) (c • B) q v :=
  IsJacobian.congr (IsJacobian.smul c hF) (by funext i; exact Deriv.append_smul _ _ _)

/-- A function of the configuration alone, seen as a function of configuration and velocity. -/
theorem Spec.DerivQ.lift {F : Vec nq → Vec r} {A : Mat r nv} {q : Vec nq} (hF : DerivQ integ F A q) (v : Vec nv) :
    DerivQV integ (fun q _ => F q) A 0 q v := by
  have h := IsJacobian.comp (G := (fst : Vec (nv + nv) → Vec nv)) (z := 0) hF (isJacobian_fst 0)
  rw [mul_selFst] at h
  exact h

/-- C60: the residual of the divergent component of motion, when the state consists of configuration and velocity only. -/
theorem C60_dcm_position_partial (hK : Lawful K integ Q) (hX : MovesConfig integ X hq hv) (hV : MovesVelocity X hqv hvv)
    (h2 : ndx = nv + nv) (pin0 : PinData nq nv Frame) (alpha : ℝ) :
    Right (dcmPosition K pin0 hq hqv alpha : Resid (Vec 3) nx ndx nu 3) X (fun _ x => Q (head nq hq x)) (fun _ _ => True)
      (fun p x _ => K.com (head nq hq x) + alpha • K.vcom (head nq hq x) (segment nq nv hqv x) - p) := by
  refine right_of_inv _ _ _ _ _ (fun _ (d : KData nq nv Frame ndx nu 3) => d.Ju = 0) ?_ ?_ ?_ ?_
  · exact fun p => rfl
  · intro p' p x u d _ hd
    exact hd
  · intro p' p x u d hc hd
    exact hd
  · intro p x u d hx hd
    refine ⟨rfl, rfl, rfl, rfl, ?_⟩
    have hD := DerivQV_add ((hK.com _ hx).lift (segment nq nv hqv x)) (DerivQV_smul alpha (hK.vcom _ (segment nq nv hqv x) hx))
    rw [zero_add] at hD
    have hJ := IsJac_sub_const (isJac_phase (nu := nu) hX hV hD) p
    show IsJac _ (setBlock (setBlock d.Jx 0 0 (K.Jcom (head nq hq x) +
      alpha • K.vcomDq (head nq hq x) (segment nq nv hqv x))) 0 (ndx - nv) (alpha • K.Jcom (head nq hq x))) d.Ju 0 0
    rw [setBlock_halves _ _ _ h2, hd]
    exact hJ

example := C60_dcm_position_partial (nu := 1) Robot.lawful Robot.move_config Robot.move_velocity rfl Robot.pin0 (1 / 3)

/-- C60: the residual of the centroidal momentum, when the state consists of configuration and velocity only. -/
theorem C60_centroidal_momentum_partial (hK : Lawful K integ Q) (hX : MovesConfig integ X hq hv) (hV : MovesVelocity X hqv hvv)
    (h2 : ndx = nv + nv) (hn : nx = nq + nv) (pin0 : PinData nq nv Frame) :
    Right (centroidalMomentum K pin0 hq hqv : Resid (Vec 6) nx ndx nu 6) X (fun _ x => Q (head nq hq x)) (fun _ _ => True)
      (fun p x _ => K.Ag (head nq hq x) *ᵥ segment nq nv hqv x - p) := by
  have hs : ∀ x : Vec nx, segment (nx - nv) nv (by omega) x = segment nq nv hqv x := by
    intro x
    funext i
    exact congrArg x (Fin.ext (by simp; omega))
  refine right_of_inv _ _ _ _ _ (fun _ (d : KData nq nv Frame ndx nu 6) => d.Ju = 0) ?_ ?_ ?_ ?_
  · exact fun p => rfl
  · intro p' p x u d _ hd
    exact hd
  · intro p' p x u d hc hd
    exact hd
  · intro p x u d hx hd
    have ev : K.Ag (head nq hq x) *ᵥ segment (nx - nv) nv (by omega) x - p =
        K.Ag (head nq hq x) *ᵥ segment nq nv hqv x - p := by rw [hs]
    refine ⟨ev, rfl, rfl, ev, ?_⟩
    have hJ := IsJac_sub_const (isJac_phase (nu := nu) hX hV (hK.momentum _ (segment nq nv hqv x) hx)) p
    show IsJac _ (setBlock (setBlock d.Jx 0 0 (K.hDq (head nq hq x) (segment (nx - nv) nv (by omega) x))) 0 (ndx - nv)
      (K.Ag (head nq hq x))) d.Ju 0 0
    rw [setBlock_halves _ _ _ h2, hd, hs]
    exact hJ

example := C60_centroidal_momentum_partial (nu := 1) Robot.lawful Robot.move_config Robot.move_velocity rfl rfl Robot.pin0

/-- C60: the residual of the distance between two bodies. -/
theorem C60_frame_collision [DecidableEq Frame] (hK : Lawful K integ Q) (hX : MovesConfig integ X hq hv)
    (pin0 : PinData nq nv Frame) (f1 f2 : Frame) :
    Right (frameCollision K pin0 hq f1 f2 : Resid Unit nx ndx nu 1) X
      (fun _ x => Q (head nq hq x) ∧ DistLaw K integ f1 f2 (head nq hq x)) (fun _ _ => True)
      (fun _ x _ _ => K.dist (head nq hq x)) := by
  have hmul : ∀ (A : Mat 6 6) (M : Mat 6 nv) (sup : Fin nv → Bool), (∀ j, sup j = false → ∀ i, M i j = 0) →
      ∀ j, sup j = false → ∀ i, (A * M) i j = 0 := by
    intro A M sup h j hj i
    rw [Matrix.mul_apply]
    exact Finset.sum_eq_zero fun l _ => by rw [h j hj l, mul_zero]
  refine right_of_inv _ _ _ _ _ (fun _ (d : CData nq nv Frame ndx nu) =>
    (∀ j, K.supports f1 j = false → ∀ i, d.Jcol i j = 0) ∧ (∀ j, K.supports f2 j = false → ∀ i, d.Jcol2 i j = 0) ∧ d.Ju = 0)
    ?_ ?_ ?_ ?_
  · exact fun p => ⟨fun _ _ _ => rfl, fun _ _ _ => rfl, rfl⟩
  · intro p' p x u d _ hd
    exact hd
  · intro p' p x u d hc hd
    exact ⟨hmul _ _ _ (fill_zero _ _ _ _ (fun _ h => h) hd.1), hmul _ _ _ (fill_zero _ _ _ _ (fun _ h => h) hd.2.1), hd.2.2⟩
  · intro p x u d hx hd
    refine ⟨rfl, rfl, rfl, rfl, ?_⟩
    -- the point of the body at `near`, in the coordinates of the body
    have point : ∀ (f : Frame) (near : Vec 3), ∃ s : Vec 3,
        (K.place f (head nq hq x)).R *ᵥ s + (K.place f (head nq hq x)).p = near ∧
        DerivQ integ (fun q => (K.place f q).R *ᵥ s + (K.place f q).p)
          (top ((⟨1, near - (K.place f (head nq hq x)).p⟩ : SE3).toActionMatrixInverse *
            K.jac f .LOCAL_WORLD_ALIGNED (head nq hq x))) (head nq hq x) := by
      intro f near
      have rot := hK.rotation f _ hx.1
      refine ⟨(K.place f (head nq hq x)).Rᵀ *ᵥ (near - (K.place f (head nq hq x)).p), ?_, ?_⟩
      · rw [Matrix.mulVec_mulVec, rot.1, Matrix.one_mulVec, sub_add_cancel]
      · have h := hK.place f _ hx.1
        have h' := (h.rot ((K.place f (head nq hq x)).Rᵀ *ᵥ (near - (K.place f (head nq hq x)).p))).add h.trans
        refine h'.congr ?_
        rw [hK.integ_zero _ hx.1, hK.lwa _ _ hx.1]
        simp only [SE3.toActionMatrixInverse, top_six_mul, bot_six_mul, Matrix.zero_mul, add_zero, zero_add]
        have s1 := rot.transpose.skew (near - (K.place f (head nq hq x)).p)
        rw [Matrix.transpose_transpose] at s1
        have e1 : ∀ Y : Mat 3 nv, (K.place f (head nq hq x)).R * ((K.place f (head nq hq x)).Rᵀ * Y) = Y := fun Y => by
          rw [← Matrix.mul_assoc, rot.1, Matrix.one_mul]
        rw [s1]
        simp only [Matrix.transpose_one, Matrix.one_mul, Matrix.mul_assoc, Matrix.neg_mul, e1]
        abel
    obtain ⟨s1, n1, D1⟩ := point f1 (K.near1 (head nq hq x))
    obtain ⟨s2, n2, D2⟩ := point f2 (K.near2 (head nq hq x))
    have hJ := isJac_config (nu := nu) hX (hx.2 s1 s2 _ _ n1 n2 D1 D2)
    have u1 := fill_eq (K.supports f1) (K.jac f1 .LOCAL_WORLD_ALIGNED (head nq hq x)) d.Jcol
      (fun j hj => (hK.unsupported f1 _ _ 0 j hj).1) hd.1
    have u2 := fill_eq (K.supports f2) (K.jac f2 .LOCAL_WORLD_ALIGNED (head nq hq x)) d.Jcol2
      (fun j hj => (hK.unsupported f2 _ _ 0 j hj).1) hd.2.1
    show IsJac _ (setBlock (0 : Mat 1 ndx) 0 0 (fun (_ : Fin 1) j => (K.normal (head nq hq x) ᵥ*
      (top ((⟨1, K.near2 (head nq hq x) - (K.place f2 (head nq hq x)).p⟩ : SE3).toActionMatrixInverse *
          fill (K.supports f2) (K.jac f2 .LOCAL_WORLD_ALIGNED (head nq hq x)) d.Jcol2) -
        top ((⟨1, K.near1 (head nq hq x) - (K.place f1 (head nq hq x)).p⟩ : SE3).toActionMatrixInverse *
          fill (K.supports f1) (K.jac f1 .LOCAL_WORLD_ALIGNED (head nq hq x)) d.Jcol))) j)) d.Ju 0 0
    rw [u1, u2, hd.2.2]
    exact hJ

example := C60_frame_collision (nu := 1) Robot.lawful Robot.move_config Robot.pin0 true false

example (x : Vec 4) : DistLaw Robot.robot Robot.integ true false (head 2 (by decide) x) := Robot.distLaw _

/-- C60: the equality residual is the logarithm of the placement of the second frame as seen from the first one moved by the
reference. -/
theorem C60_frame_equality [DecidableEq Frame] (hK : Lawful K integ Q) (hX : MovesConfig integ X hq hv)
    (pin0 : PinData nq nv Frame) (M0 : SE3) :
    Right (frameEquality K pin0 hq M0 : Resid (Frame × Frame × SE3) nx ndx nu 6) X
      (fun p x => Q (head nq hq x) ∧
        LogLaw K (((K.place p.1 (head nq hq x)).act p.2.2).actInv (K.place p.2.1 (head nq hq x))))
      (fun p' p => Carries K p'.1 p.1 ∧ Carries K p'.2.1 p.2.1)
      (fun p x _ => K.log6 (((K.place p.1 (head nq hq x)).act p.2.2).actInv (K.place p.2.1 (head nq hq x)))) := by
  refine right_of_inv _ _ _ _ _ (fun p (d : EData nq nv Frame ndx nu) =>
    (∀ j, K.supports p.1 j = false → ∀ i, d.wJf1 i j = 0) ∧ (∀ j, K.supports p.2.1 j = false → ∀ i, d.wJf2 i j = 0) ∧
    (∀ i j, nv ≤ j.val → d.Jx i j = 0) ∧ d.Ju = 0) ?_ ?_ ?_ ?_
  · exact fun p => ⟨fun _ _ _ => rfl, fun _ _ _ => rfl, fun _ _ _ => rfl, rfl⟩
  · intro p' p x u d _ hd
    exact hd
  · intro p' p x u d hc hd
    exact ⟨fill_zero _ _ _ _ hc.1 hd.1, fill_zero _ _ _ _ hc.2 hd.2.1,
      fun i j h => setBlock_left_zero _ i j h _ (hd.2.2.1 i j h), hd.2.2.2⟩
  · intro p x u d hx hd
    have e2 : Function.update (Function.update d.pin.oMf p.1 (K.place p.1 (head nq hq x))) p.2.1
        (K.place p.2.1 (head nq hq x)) p.2.1 = K.place p.2.1 (head nq hq x) := Function.update_self _ _ _
    have e1 : Function.update (Function.update d.pin.oMf p.1 (K.place p.1 (head nq hq x))) p.2.1
        (K.place p.2.1 (head nq hq x)) p.1 = K.place p.1 (head nq hq x) := by
      by_cases h : p.1 = p.2.1
      · rw [h, Function.update_self]
      · rw [Function.update_of_ne h, Function.update_self]
    have ev : ((frameEquality K pin0 hq M0 : Resid (Frame × Frame × SE3) nx ndx nu 6).evaluate p x u d :
        EData nq nv Frame ndx nu).value =
        K.log6 (((K.place p.1 (head nq hq x)).act p.2.2).actInv (K.place p.2.1 (head nq hq x))) := by
      show K.log6 (((Function.update (Function.update d.pin.oMf p.1 (K.place p.1 (head nq hq x))) p.2.1
        (K.place p.2.1 (head nq hq x)) p.1).act p.2.2).actInv (Function.update (Function.update d.pin.oMf p.1
        (K.place p.1 (head nq hq x))) p.2.1 (K.place p.2.1 (head nq hq x)) p.2.1)) = _
      rw [e1, e2]
    refine ⟨ev, rfl, rfl, ev, ?_⟩
    have h1 := hK.place p.1 _ hx.1
    have h2 := hK.place p.2.1 _ hx.1
    have hb := h1.actInv h2 (by rw [hK.integ_zero _ hx.1]; exact hK.rotation _ _ hx.1)
      (by rw [hK.integ_zero _ hx.1]; exact hK.rotation _ _ hx.1) p.2.2
    have hD : DerivQ integ (fun q => K.log6 (((K.place p.1 q).act p.2.2).actInv (K.place p.2.1 q))) _ (head nq hq x) :=
      hx.2 _ _ _ 0 (by rw [hK.integ_zero _ hx.1]) hb
    rw [hK.integ_zero _ hx.1, ← hK.world p.2.1 _ hx.1, ← hK.world p.1 _ hx.1, ← Matrix.mul_assoc] at hD
    have hJ := isJac_config (nu := nu) hX hD
    have u1 := fill_eq (K.supports p.1) (K.jac p.1 .WORLD (head nq hq x)) d.wJf1
      (fun j hj => (hK.unsupported p.1 _ _ 0 j hj).1) hd.1
    have u2 := fill_eq (K.supports p.2.1) (K.jac p.2.1 .WORLD (head nq hq x)) d.wJf2
      (fun j hj => (hK.unsupported p.2.1 _ _ 0 j hj).1) hd.2.1
    show IsJac _ (setBlock d.Jx 0 0 (K.Jlog6 (((Function.update (Function.update d.pin.oMf p.1
      (K.place p.1 (head nq hq x))) p.2.1 (K.place p.2.1 (head nq hq x)) p.1).act p.2.2).actInv
      (Function.update (Function.update d.pin.oMf p.1 (K.place p.1 (head nq hq x))) p.2.1
        (K.place p.2.1 (head nq hq x)) p.2.1)) *
      (Function.update (Function.update d.pin.oMf p.1 (K.place p.1 (head nq hq x))) p.2.1
        (K.place p.2.1 (head nq hq x)) p.2.1).toActionMatrixInverse *
      (fill (K.supports p.2.1) (K.jac p.2.1 .WORLD (head nq hq x)) d.wJf2 -
        fill (K.supports p.1) (K.jac p.1 .WORLD (head nq hq x)) d.wJf1))) d.Ju 0 0
    rw [e1, e2, u1, u2, setBlock_left_of_zero _ _ hd.2.2.1, hd.2.2.2]
    exact hJ

example := C60_frame_equality (nu := 1) Robot.lawful Robot.move_config Robot.pin0 ⟨1, 0⟩

/-! ### Gravity compensation -/

theorem isJac_control (B : Mat r nu) (u : Vec nu) : IsJac (fun (_ : Vec ndx) w => B *ᵥ (u + w)) (0 : Mat r ndx) B 0 0 := by
  have h := isJacobian_affine₂ (0 : Mat r ndx) B (B *ᵥ u) (Fin.append 0 0)
  have e : (fun z : Vec (ndx + nu) => (0 : Mat r ndx) *ᵥ fst z + B *ᵥ snd z + B *ᵥ u) =
      stacked fun (_ : Vec ndx) w => B *ᵥ (u + w) := by
    funext z
    simp only [stacked, Matrix.zero_mulVec, zero_add, Matrix.mulVec_add]
    exact add_comm _ _
  rw [e] at h
  exact h

/-- C60: the gravity-compensation residual is what the actuation leaves of gravity.  Its Jacobian is right exactly when the
buffer that nobody initialises happens to be zero at the entries Pinocchio does not write. -/
theorem C60_gravity_compensation_iff_partial (hK : Lawful K integ Q) (hX : MovesConfig integ X hq hv) (act : Mat nv nu)
    (garbage : Mat nv nv) (hex : ∃ x : Vec nx, Q (head nq hq x)) :
    Right (gravityCompensation K hq act garbage : Resid Unit nx ndx nu nv) X (fun _ x => Q (head nq hq x)) (fun _ _ => True)
      (fun _ x u => -K.gravity (head nq hq x) + act *ᵥ u) ↔
    ∀ i j, K.related i j = false → garbage i j = 0 := by
  have hJ : ∀ x u, Q (head nq hq x) → IsJac (fun z w => -K.gravity (head nq hq (X x z)) + act *ᵥ (u + w))
      (setBlock (0 : Mat nv ndx) 0 0 (-K.gravityDq (head nq hq x))) act 0 0 := by
    intro x u hx
    have hD : DerivQ integ (fun q => -K.gravity q) (-K.gravityDq (head nq hq x)) (head nq hq x) := fun i => (hK.gravity _ hx i).neg
    have := IsJac_add (isJac_config (nu := nu) hX hD) (isJac_control (ndx := ndx) act u)
    rwa [add_zero, zero_add] at this
  constructor
  · intro h i j hij
    obtain ⟨x, hx⟩ := hex
    have h' := (h [] () x 0 hx (by simp)).2.2.2.2
    have e := (IsJac_unique h' (hJ x 0 hx)).1
    have e' := congrFun (congrFun e i) ⟨j, by omega⟩
    have e1 := setBlock_apply_left (0 : Mat nv ndx) (-K.gravityDq (head nq hq x)) i j (by omega)
    rw [e1] at e'
    have e2 := (setBlock_apply_left (0 : Mat nv ndx)
      (-(fun i j => if K.related i j then K.gravityDq (head nq hq x) i j else garbage i j : Mat nv nv)) i j (by omega)).symm.trans e'
    have e3 : -(if K.related i j then K.gravityDq (head nq hq x) i j else garbage i j) = -K.gravityDq (head nq hq x) i j := e2
    rw [hK.unrelated _ i j hij, if_neg (by simp [hij])] at e3
    simpa using e3
  · intro h
    refine right_of_inv _ _ _ _ _ (fun _ (d : GData nv ndx nu) =>
      (∀ i j, K.related i j = false → d.dG i j = 0) ∧ (∀ i j, nv ≤ j.val → d.Jx i j = 0)) ?_ ?_ ?_ ?_
    · exact fun p => ⟨h, fun _ _ _ => rfl⟩
    · intro p' p x u d _ hd
      exact hd
    · intro p' p x u d _ hd
      refine ⟨fun i j hij => ?_, fun i j h => setBlock_left_zero _ i j h _ (hd.2 i j h)⟩
      show (if K.related i j then K.gravityDq (head nq hq x) i j else d.dG i j) = 0
      rw [if_neg (by simp [hij])]
      exact hd.1 i j hij
    · intro p x u d hx hd
      refine ⟨rfl, rfl, rfl, rfl, ?_⟩
      have e : (fun i j => if K.related i j then K.gravityDq (head nq hq x) i j else d.dG i j : Mat nv nv) =
          K.gravityDq (head nq hq x) := by
        funext i j
        by_cases hij : K.related i j = true
        · rw [if_pos hij]
        · rw [if_neg hij, hd.1 i j (by simpa using hij), hK.unrelated _ i j (by simpa using hij)]
      show IsJac _ (setBlock d.Jx 0 0
        (-(fun i j => if K.related i j then K.gravityDq (head nq hq x) i j else d.dG i j : Mat nv nv))) act 0 0
      rw [e]
      have e3 := setBlock_left_of_zero _ (-K.gravityDq (head nq hq x)) hd.2
      exact e3.symm ▸ hJ x u hx

/-- For the robot: right exactly if the two off-diagonal entries of the buffer happen to be zero. -/
example (act : Mat 2 1) (g : Mat 2 2) :
    Right (gravityCompensation Robot.robot (by decide) act g : Resid Unit 4 4 1 2) Robot.move (fun _ _ => True) (fun _ _ => True)
      (fun _ x u => -Robot.robot.gravity (head 2 (by decide) x) + act *ᵥ u) ↔ g 0 1 = 0 ∧ g 1 0 = 0 := by
  refine (C60_gravity_compensation_iff_partial Robot.lawful Robot.move_config act g ⟨0, trivial⟩).trans ?_
  constructor
  · intro h
    exact ⟨h 0 1 rfl, h 1 0 rfl⟩
  · rintro ⟨h1, h2⟩ i j hij
    fin_cases i <;> fin_cases j <;> simp_all [Robot.robot]

/-! ### Fly high -/

/-- The derivative of the fly-high residual. -/
theorem flyHigh_deriv (hK : Lawful K integ Q) (f : Frame) (slope : ℝ) (q : Vec nq) (v : Vec nv) (hx : Q q) :
    DerivQV integ (fun q v => Real.exp (-(K.place f q).p 2 * slope) • ![K.vel f .LOCAL_WORLD_ALIGNED q v 0,
        K.vel f .LOCAL_WORLD_ALIGNED q v 1])
      (fun i j => Real.exp (-(K.place f q).p 2 * slope) * two ((K.place f q).R *
          (skew (-(lin (K.vel f .LOCAL q v))) * bot (K.jac f .LOCAL q) + top (K.velDq f .LOCAL q v))) i j -
        (Real.exp (-(K.place f q).p 2 * slope) * ![K.vel f .LOCAL_WORLD_ALIGNED q v 0, K.vel f .LOCAL_WORLD_ALIGNED q v 1] i) *
          slope * ((K.place f q).R * top (K.jac f .LOCAL q)) 2 j)
      (Real.exp (-(K.place f q).p 2 * slope) • two ((K.place f q).R * top (K.jac f .LOCAL q))) q v := by
  -- the transformation, as a function of tangent vector and velocity
  have hM : IsBodyJac (fun z : Vec (nv + nv) => K.place f (integ q (fst z))) (K.jac f .LOCAL q * selFst nv nv) 0 :=
    IsBodyJac.comp (g := (fst : Vec (nv + nv) → Vec nv)) (z := 0) (hK.place f q hx) (isJacobian_fst 0)
  have hL : IsJacobian (fun z : Vec (nv + nv) => lin (K.vel f .LOCAL (integ q (fst z)) (v + snd z)))
      (top (beside (K.velDq f .LOCAL q v) (K.velDv f .LOCAL q v))) 0 := fun i => hK.vel f .LOCAL q v hx (Fin.castAdd 3 i)
  have z0 : integ q (fst (0 : Vec (nv + nv))) = q := hK.integ_zero q hx
  have z1 : v + snd (0 : Vec (nv + nv)) = v := add_zero v
  have hR := hM.mulVec hL
  have hT := hM.trans
  simp only [z0, z1] at hR hT
  have hlw : ∀ q v (i : Fin 3), K.vel f .LOCAL_WORLD_ALIGNED q v (Fin.castAdd 3 i) =
      ((K.place f q).R *ᵥ lin (K.vel f .LOCAL q v)) i := by
    intro q v i
    rw [hK.vel_lwa]
    simp only [Matrix.mulVec, dotProduct]
    rw [Fin.sum_univ_add (a := 3) (b := 3)]
    simp [-Fin.natAdd_eq_addNat, six, lin]
  have hE : IsGradient (fun z : Vec (nv + nv) => Real.exp (-(K.place f (integ q (fst z))).p 2 * slope))
      ((Real.exp (-(K.place f q).p 2 * slope)) • ((-slope) • ((K.place f q).R * top (K.jac f .LOCAL q * selFst nv nv)) 2)) 0 := by
    have hg := (hT 2).smul (-slope)
    have he : (fun z : Vec (nv + nv) => -slope * (K.place f (integ q (fst z))).p 2) =
        fun z => -(K.place f (integ q (fst z))).p 2 * slope := by funext z; ring
    rw [he] at hg
    refine IsGradient.comp (φ := Real.exp) ?_ hg
    rw [z0]
    exact Real.hasDerivAt_exp _
  intro i
  have hi : (![K.vel f .LOCAL_WORLD_ALIGNED q v 0, K.vel f .LOCAL_WORLD_ALIGNED q v 1] : Vec 2) i =
      K.vel f .LOCAL_WORLD_ALIGNED q v (Fin.castAdd 3 (Fin.castLE (by omega) i)) := by
    fin_cases i <;> rfl
  have key := hE.mul (hR (Fin.castLE (by omega) i))
  refine key.congr_of ?_ ?_
  · funext z
    simp only [stacked, Pi.smul_apply, smul_eq_mul]
    rw [← hlw]
    congr 1
    fin_cases i <;> rfl
  · funext l
    have hi' : (![K.vel f .LOCAL_WORLD_ALIGNED q v 0, K.vel f .LOCAL_WORLD_ALIGNED q v 1] : Vec 2) i =
      ((K.place f q).R *ᵥ lin (K.vel f .LOCAL q v)) (Fin.castLE (by omega) i) := hi.trans (hlw q v _)
    dsimp only
    rw [z0, z1, top_mul, bot_mul, ← Matrix.mul_assoc, ← Matrix.mul_assoc, mul_selFst, mul_selFst, top_beside, mul_beside,
      hK.velDv f .LOCAL q v hx, skew_neg]
    refine Fin.addCases (fun l => ?_) (fun l => ?_) l
    · refine Eq.trans ?_ (beside_left _ _ i l).symm
      rw [hi']
      show Real.exp _ * (-(Fin.append _ _ (Fin.castAdd nv l)) + beside _ _ _ (Fin.castAdd nv l)) +
        _ * (Real.exp _ * (-slope * Fin.append _ _ (Fin.castAdd nv l))) = _
      rw [Fin.append_left, Fin.append_left, beside_left, Matrix.mul_add, Matrix.neg_mul, Matrix.mul_neg, ← Matrix.mul_assoc]
      simp only [two, Matrix.add_apply, Matrix.neg_apply]
      ring
    · refine Eq.trans ?_ (beside_right _ _ i l).symm
      show Real.exp _ * (-(Fin.append _ _ (Fin.natAdd nv l)) + beside _ _ _ (Fin.natAdd nv l)) +
        _ * (Real.exp _ * (-slope * Fin.append _ _ (Fin.natAdd nv l))) = _
      rw [Fin.append_right, Fin.append_right, beside_right]
      simp [two]

/-- C60: the fly-high residual is the horizontal velocity of the frame, in world axes, times an exponential of minus its
height; when the state consists of configuration and velocity only. -/
theorem C60_fly_high_partial [DecidableEq Frame] (hK : Lawful K integ Q) (hX : MovesConfig integ X hq hv)
    (hV : MovesVelocity X hqv hvv) (h2 : ndx = nv + nv) (pin0 : PinData nq nv Frame) (ez0 : ℝ) :
    Right (flyHigh K pin0 hq hqv ez0 : Resid (Frame × ℝ) nx ndx nu 2) X (fun _ x => Q (head nq hq x))
      (fun p' p => Carries K p'.1 p.1) (fun p x _ => Real.exp (-(K.place p.1 (head nq hq x)).p 2 * p.2) •
        ![K.vel p.1 .LOCAL_WORLD_ALIGNED (head nq hq x) (segment nq nv hqv x) 0,
          K.vel p.1 .LOCAL_WORLD_ALIGNED (head nq hq x) (segment nq nv hqv x) 1]) := by
  refine right_of_inv _ _ _ _ _ (fun p (d : HData nq nv Frame ndx nu) =>
    (∀ j, K.supports p.1 j = false → ∀ i, d.lDq i j = 0) ∧ (∀ j, K.supports p.1 j = false → ∀ i, d.lDv i j = 0) ∧ d.Ju = 0)
    ?_ ?_ ?_ ?_
  · exact fun p => ⟨fun _ _ _ => rfl, fun _ _ _ => rfl, rfl⟩
  · intro p' p x u d _ hd
    exact hd
  · intro p' p x u d hc hd
    exact ⟨fill_zero _ _ _ _ hc hd.1, fill_zero _ _ _ _ hc hd.2.1, hd.2.2⟩
  · intro p x u d hx hd
    have e0 : Function.update d.pin.oMf p.1 (K.place p.1 (head nq hq x)) p.1 = K.place p.1 (head nq hq x) :=
      Function.update_self _ _ _
    have ev : ((flyHigh K pin0 hq hqv ez0 : Resid (Frame × ℝ) nx ndx nu 2).evaluate p x u d : HData nq nv Frame ndx nu).value =
        Real.exp (-(K.place p.1 (head nq hq x)).p 2 * p.2) •
        ![K.vel p.1 .LOCAL_WORLD_ALIGNED (head nq hq x) (segment nq nv hqv x) 0,
          K.vel p.1 .LOCAL_WORLD_ALIGNED (head nq hq x) (segment nq nv hqv x) 1] := by
      show Real.exp (-(Function.update d.pin.oMf p.1 (K.place p.1 (head nq hq x)) p.1).p 2 * p.2) •
        ![K.vel p.1 .LOCAL_WORLD_ALIGNED (head nq hq x) (segment nq nv hqv x) 0,
          K.vel p.1 .LOCAL_WORLD_ALIGNED (head nq hq x) (segment nq nv hqv x) 1] = _
      rw [e0]
    refine ⟨ev, rfl, rfl, ev, ?_⟩
    have hJ := isJac_phase (nu := nu) hX hV (flyHigh_deriv hK p.1 p.2 _ (segment nq nv hqv x) hx)
    have u1 := fill_eq (K.supports p.1) (K.velDq p.1 .LOCAL (head nq hq x) (segment nq nv hqv x)) d.lDq
      (fun j hj => (hK.unsupported p.1 _ _ _ j hj).2.1) hd.1
    have u2 := fill_eq (K.supports p.1) (K.velDv p.1 .LOCAL (head nq hq x) (segment nq nv hqv x)) d.lDv
      (fun j hj => (hK.unsupported p.1 _ _ _ j hj).2.2) hd.2.1
    have e3 : (![K.vel p.1 .LOCAL (head nq hq x) (segment nq nv hqv x) 0, K.vel p.1 .LOCAL (head nq hq x) (segment nq nv hqv x) 1,
        K.vel p.1 .LOCAL (head nq hq x) (segment nq nv hqv x) 2] : Vec 3) =
        lin (K.vel p.1 .LOCAL (head nq hq x) (segment nq nv hqv x)) := by
      funext i; fin_cases i <;> rfl
    refine IsJacobian.congr hJ ?_
    funext i
    congr 1
    · funext j
      show _ = (if h : j.val < nv then
          (Real.exp (-(Function.update d.pin.oMf p.1 (K.place p.1 (head nq hq x)) p.1).p 2 * p.2) • setBlock (setBlock d.Jx 0 0
            (two ((Function.update d.pin.oMf p.1 (K.place p.1 (head nq hq x)) p.1).R * (skew (-![
              K.vel p.1 .LOCAL (head nq hq x) (segment nq nv hqv x) 0, K.vel p.1 .LOCAL (head nq hq x) (segment nq nv hqv x) 1,
              K.vel p.1 .LOCAL (head nq hq x) (segment nq nv hqv x) 2]) *
              bot (fill (K.supports p.1) (K.velDv p.1 .LOCAL (head nq hq x) (segment nq nv hqv x)) d.lDv) +
              top (fill (K.supports p.1) (K.velDq p.1 .LOCAL (head nq hq x) (segment nq nv hqv x)) d.lDq))))) 0 (ndx - nv)
            (two ((Function.update d.pin.oMf p.1 (K.place p.1 (head nq hq x)) p.1).R *
              top (fill (K.supports p.1) (K.velDv p.1 .LOCAL (head nq hq x) (segment nq nv hqv x)) d.lDv)))) i j -
          (Real.exp (-(Function.update d.pin.oMf p.1 (K.place p.1 (head nq hq x)) p.1).p 2 * p.2) •
            ![K.vel p.1 .LOCAL_WORLD_ALIGNED (head nq hq x) (segment nq nv hqv x) 0,
              K.vel p.1 .LOCAL_WORLD_ALIGNED (head nq hq x) (segment nq nv hqv x) 1]) i * p.2 *
          ((Function.update d.pin.oMf p.1 (K.place p.1 (head nq hq x)) p.1).R *
              top (fill (K.supports p.1) (K.velDv p.1 .LOCAL (head nq hq x) (segment nq nv hqv x)) d.lDv)) 2 ⟨j, h⟩
        else
          (Real.exp (-(Function.update d.pin.oMf p.1 (K.place p.1 (head nq hq x)) p.1).p 2 * p.2) • setBlock (setBlock d.Jx 0 0
            (two ((Function.update d.pin.oMf p.1 (K.place p.1 (head nq hq x)) p.1).R * (skew (-![
              K.vel p.1 .LOCAL (head nq hq x) (segment nq nv hqv x) 0, K.vel p.1 .LOCAL (head nq hq x) (segment nq nv hqv x) 1,
              K.vel p.1 .LOCAL (head nq hq x) (segment nq nv hqv x) 2]) *
              bot (fill (K.supports p.1) (K.velDv p.1 .LOCAL (head nq hq x) (segment nq nv hqv x)) d.lDv) +
              top (fill (K.supports p.1) (K.velDq p.1 .LOCAL (head nq hq x) (segment nq nv hqv x)) d.lDq))))) 0 (ndx - nv)
            (two ((Function.update d.pin.oMf p.1 (K.place p.1 (head nq hq x)) p.1).R *
              top (fill (K.supports p.1) (K.velDv p.1 .LOCAL (head nq hq x) (segment nq nv hqv x)) d.lDv)))) i j)
      rw [e0, e3, u1, u2, setBlock_halves _ _ _ h2, hK.velDv _ _ _ _ hx]
      have hjl := j.isLt
      by_cases h : j.val < nv
      · rw [dif_pos h, setBlock_apply_out _ nv _ i j (by omega), Matrix.smul_apply, setBlock_apply_out _ nv _ i j (by omega)]
        refine (setBlock_at_left _ _ i j h).trans ?_
        rw [setBlock_at_left _ _ i j h]
        simp
      · rw [dif_neg h, Matrix.smul_apply]
        rw [setBlock_at_right _ nv _ i j (by omega) (by omega), setBlock_at_right _ nv _ i j (by omega) (by omega)]
        rfl
    · exact (congrFun hd.2.2 i).symm

example := C60_fly_high_partial (nu := 1) Robot.lawful Robot.move_config Robot.move_velocity rfl Robot.pin0 1

end Aligator.MB
