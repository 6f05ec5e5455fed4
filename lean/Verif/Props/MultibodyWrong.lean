import Verif.Props.Multibody
import Mathlib.Analysis.SpecialFunctions.Trigonometric.Basic

/-!
# C60: where the residuals of rigid-body kinematics are wrong

States with coordinates after the velocity, frames changed during the life of a data object, and Jacobians computed at another
point than the last evaluation.
-/

namespace Aligator.MB

open Matrix Aligator.Deriv Aligator.Centroidal.Spec Spec

variable {nx ndx nu r nq nv : ℕ} {Frame : Type} {K : Pin nq nv Frame} {integ : Vec nq → Vec nv → Vec nq} {Q : Vec nq → Prop}
  {X : Vec nx → Vec ndx → Vec nx} {hq : nq ≤ nx} {hqv : nq + nv ≤ nx} {hv : nv ≤ ndx} {hvv : nv + nv ≤ ndx}

/-- Writing the derivative in the velocity over the last columns is right only if it is zero. -/
theorem wide_zero (h : nv + nv < ndx) (A B : Mat r nv)
    (e : setBlock (setBlock (0 : Mat r ndx) 0 0 A) 0 (ndx - nv) B = setBlock (setBlock (0 : Mat r ndx) 0 0 A) 0 nv B) : B = 0 := by
  have key : ∀ (k : ℕ) (i : Fin r) (j : Fin nv), nv ≤ j.val + k → B i j = 0 := by
    intro k
    induction k with
    | zero => intro i j hj; have := j.isLt; omega
    | succ k ih =>
      intro i j hj
      have hjl := j.isLt
      have hl : ndx - nv + j.val < ndx := by omega
      have e' := congrFun (congrFun e i) ⟨ndx - nv + j, hl⟩
      rw [setBlock_apply_right] at e'
      rw [e']
      by_cases h' : ndx - nv + j.val - nv < nv
      · rw [setBlock_at_right _ _ _ _ _ (by simp; omega) h']
        exact ih i _ (by simp; omega)
      · rw [setBlock_apply_out _ _ _ _ _ (by simp; omega), setBlock_apply_out _ _ _ _ _ (by simp; omega)]
        rfl
  funext i j
  exact key nv i j (by omega)

/-- C60: with further coordinates after the velocity, the Jacobian of the velocity of the centre of mass is wrong wherever the
centre of mass can be moved at all. -/
theorem C60_com_velocity_wide_negation (hK : Lawful K integ Q) (hX : MovesConfig integ X hq hv) (hV : MovesVelocity X hqv hvv)
    (h : nv + nv < ndx) (pin0 : PinData nq nv Frame) (x : Vec nx) (hx : Q (head nq hq x)) (hJ : K.Jcom (head nq hq x) ≠ 0) :
    ¬ Right (comVelocity K pin0 hq hqv : Resid (Vec 3) nx ndx nu 3) X (fun _ x => Q (head nq hq x)) (fun p' p => p' = p)
      (fun p x _ => K.vcom (head nq hq x) (segment nq nv hqv x) - p) := by
  intro hR
  have h1 := (hR [] 0 x 0 hx (by simp)).2.2.2.2
  have h2 := IsJac_sub_const (isJac_phase (nu := nu) hX hV (hK.vcom _ (segment nq nv hqv x) hx)) 0
  exact hJ (wide_zero h _ _ (IsJac_unique h1 h2).1)

example (pin0 : PinData 2 2 Bool) :
    ¬ Right (comVelocity Robot.robot pin0 (by decide) (by decide) : Resid (Vec 3) 5 5 1 3) Robot.move5 (fun _ _ => True)
      (fun p' p => p' = p) (fun p x _ => Robot.robot.vcom (head 2 (by decide) x) (segment 2 2 (by decide) x) - p) := by
  refine C60_com_velocity_wide_negation Robot.lawful Robot.move5_config Robot.move5_velocity (by decide) pin0 0 trivial ?_
  intro h
  have := congrFun (congrFun h 2) 1
  simp [Robot.robot, Robot.trig, Robot.comA, Robot.comC, Robot.comS] at this

/-- C60: the same for the divergent component of motion, unless the weight of the velocity is zero. -/
theorem C60_dcm_position_wide_negation (hK : Lawful K integ Q) (hX : MovesConfig integ X hq hv) (hV : MovesVelocity X hqv hvv)
    (h : nv + nv < ndx) (pin0 : PinData nq nv Frame) (alpha : ℝ) (ha : alpha ≠ 0) (x : Vec nx) (hx : Q (head nq hq x))
    (hJ : K.Jcom (head nq hq x) ≠ 0) :
    ¬ Right (dcmPosition K pin0 hq hqv alpha : Resid (Vec 3) nx ndx nu 3) X (fun _ x => Q (head nq hq x)) (fun p' p => p' = p)
      (fun p x _ => K.com (head nq hq x) + alpha • K.vcom (head nq hq x) (segment nq nv hqv x) - p) := by
  intro hR
  have h1 := (hR [] 0 x 0 hx (by simp)).2.2.2.2
  have h2 := IsJac_sub_const (isJac_phase (nu := nu) hX hV (DerivQV_add ((hK.com _ hx).lift (segment nq nv hqv x))
    (DerivQV_smul alpha (hK.vcom _ (segment nq nv hqv x) hx)))) 0
  rw [zero_add] at h2
  have e := wide_zero h _ _ (IsJac_unique h1 h2).1
  exact hJ ((smul_eq_zero.1 e).resolve_left ha)

example (pin0 : PinData 2 2 Bool) :=
  C60_dcm_position_wide_negation (nu := 1) Robot.lawful Robot.move5_config Robot.move5_velocity (by decide) pin0 1 one_ne_zero 0 trivial
    (by
      intro h
      have := congrFun (congrFun h 2) 1
      simp [Robot.robot, Robot.trig, Robot.comA, Robot.comC, Robot.comS] at this)

/-- C60: the constructor of the frame-velocity residual accepts exactly the states with tangents of at least twice the number of
velocities. -/
theorem C60_frame_velocity_ctor {α : Type*} (res : α) :
    (2 * nv ≤ ndx → frameVelocityCtor nv ndx res = some res) ∧ (ndx < 2 * nv → frameVelocityCtor nv ndx res = none) :=
  ⟨fun h => if_neg (by omega), fun h => if_pos (by omega)⟩

example : frameVelocityCtor 3 6 () = some () ∧ frameVelocityCtor 3 5 () = none :=
  ⟨(C60_frame_velocity_ctor ()).1 (by decide), (C60_frame_velocity_ctor ()).2 (by decide)⟩

/-- C60: the constructor of the frame-velocity residual accepts every state with room for two velocities; with more room, the
Jacobian is wrong wherever the frame can be moved at all. -/
theorem C60_frame_velocity_wide_negation [DecidableEq Frame] (hK : Lawful K integ Q) (hX : MovesConfig integ X hq hv)
    (hV : MovesVelocity X hqv hvv) (h : nv + nv < ndx) (pin0 : PinData nq nv Frame) (f : Frame) (ref : Ref) (x : Vec nx)
    (hx : Q (head nq hq x)) (hJ : K.jac f ref (head nq hq x) ≠ 0) :
    frameVelocityCtor nv ndx (frameVelocity K pin0 hq hqv : Resid (Frame × Vec 6 × Ref) nx ndx nu 6) =
      some (frameVelocity K pin0 hq hqv) ∧
    ¬ Right (frameVelocity K pin0 hq hqv : Resid (Frame × Vec 6 × Ref) nx ndx nu 6) X (fun _ x => Q (head nq hq x))
      (fun p' p => p' = p) (fun p x _ => K.vel p.1 p.2.2 (head nq hq x) (segment nq nv hqv x) - p.2.1) := by
  refine ⟨if_neg (by omega), ?_⟩
  intro hR
  have h1 := (hR [] (f, 0, ref) x 0 hx (by simp)).2.2.2.2
  have h2 := IsJac_sub_const (isJac_phase (nu := nu) hX hV (hK.vel f ref _ (segment nq nv hqv x) hx)) 0
  have e := (IsJac_unique h1 h2).1
  have us := hK.unsupported f ref (head nq hq x) (segment nq nv hqv x)
  have hA : fill (K.supports f) (K.velDq f ref (head nq hq x) (segment nq nv hqv x)) (fun _ _ => 0) =
      K.velDq f ref (head nq hq x) (segment nq nv hqv x) := fill_eq _ _ _ (fun j hj => (us j hj).2.1) fun _ _ _ => rfl
  have hB : ∀ M : Mat 6 nv, (∀ i j, M i j = 0) → fill (K.supports f) (K.velDv f ref (head nq hq x) (segment nq nv hqv x)) M =
      K.velDv f ref (head nq hq x) (segment nq nv hqv x) := fun M hM =>
    fill_eq _ _ _ (fun j hj => (us j hj).2.2) fun j _ i => hM i j
  have z1 : (fun (i : Fin 6) (j : Fin nv) => if h : j.val < ndx then (0 : Mat 6 ndx) i ⟨j, h⟩ else 0) = fun _ _ => 0 := by
    funext i j
    split_ifs <;> rfl
  have e' : setBlock (setBlock (0 : Mat 6 ndx) 0 0 (K.velDq f ref (head nq hq x) (segment nq nv hqv x))) 0 (ndx - nv)
      (K.velDv f ref (head nq hq x) (segment nq nv hqv x)) = setBlock (setBlock (0 : Mat 6 ndx) 0 0
      (K.velDq f ref (head nq hq x) (segment nq nv hqv x))) 0 nv (K.velDv f ref (head nq hq x) (segment nq nv hqv x)) := by
    refine Eq.trans ?_ e
    show _ = setBlock (setBlock (0 : Mat 6 ndx) 0 0 (fill (K.supports f) (K.velDq f ref (head nq hq x) (segment nq nv hqv x))
      (fun (i : Fin 6) (j : Fin nv) => if h : j.val < ndx then (0 : Mat 6 ndx) i ⟨j, h⟩ else 0))) 0 (ndx - nv)
      (fill (K.supports f) (K.velDv f ref (head nq hq x) (segment nq nv hqv x)) _)
    rw [z1, hA]
    refine congrArg _ (hB _ ?_).symm
    intro i j
    have hjl := j.isLt
    refine (dif_pos (by omega)).trans ?_
    exact setBlock_apply_out _ _ _ _ _ (by simp; omega)
  exact hJ ((hK.velDv f ref _ _ hx).symm.trans (wide_zero h _ _ e'))

example (pin0 : PinData 2 2 Bool) :=
  C60_frame_velocity_wide_negation (nu := 1) Robot.lawful Robot.move5_config Robot.move5_velocity (by decide) pin0 true .LOCAL 0 trivial
    (by
      intro h
      have := congrFun (congrFun h 1) 0
      simp [Robot.robot, Robot.trig, Robot.jacA, Robot.jacC, Robot.jacS] at this)

/-- C60: with further coordinates after the velocity, the centroidal momentum is evaluated with the wrong coordinates. -/
theorem C60_centroidal_momentum_wide_negation (h : nq + nv < nx) (pin0 : PinData nq nv Frame) (q : Vec nq) (hx : Q q)
    (hA : K.Ag q ≠ 0) :
    ¬ Right (centroidalMomentum K pin0 hq hqv : Resid (Vec 6) nx ndx nu 6) X (fun _ x => Q (head nq hq x)) (fun p' p => p' = p)
      (fun p x _ => K.Ag (head nq hq x) *ᵥ segment nq nv hqv x - p) := by
  intro hR
  apply hA
  have key : ∀ (k : ℕ) (i : Fin 6) (j : Fin nv), nv ≤ j.val + k → K.Ag q i j = 0 := by
    intro k
    induction k with
    | zero => intro i j hj; have := j.isLt; omega
    | succ k ih =>
      intro i j hj
      have hjl := j.isLt
      let x : Vec nx := fun l => if hl : l.val < nq then q ⟨l, hl⟩ else if l.val = nx - nv + j then 1 else 0
      have hd : head nq hq x = q := by
        funext l
        show (if hl : l.val < nq then q ⟨l, hl⟩ else _) = _
        rw [dif_pos l.isLt]
      have h2 : K.Ag (head nq hq x) *ᵥ segment (nx - nv) nv (by omega) x - 0 = K.Ag (head nq hq x) *ᵥ segment nq nv hqv x - 0 :=
        (hR [] 0 x 0 (by show Q (head nq hq x); rw [hd]; exact hx) (by simp)).1
      rw [hd, sub_zero, sub_zero] at h2
      have e1 : segment (nx - nv) nv (by omega) x = Pi.single j 1 := by
        funext l
        show (if hl : nx - nv + l.val < nq then q ⟨nx - nv + l, hl⟩ else if nx - nv + l.val = nx - nv + j then (1 : ℝ) else 0) = _
        rw [dif_neg (by omega), Pi.single_apply]
        congr 1
        simp [Fin.ext_iff]
      have e2 : (K.Ag q *ᵥ segment nq nv hqv x) i = 0 := by
        rw [Matrix.mulVec, dotProduct]
        refine Finset.sum_eq_zero fun l _ => ?_
        by_cases hl : nq + l.val = nx - nv + j
        · rw [ih i l (by omega), zero_mul]
        · have : segment nq nv hqv x l = 0 := by
            show (if hl : nq + l.val < nq then q ⟨nq + l, hl⟩ else if nq + l.val = nx - nv + j then (1 : ℝ) else 0) = _
            rw [dif_neg (by omega), if_neg hl]
          rw [this, mul_zero]
      have e3 := congrFun h2 i
      rw [e2, e1, Matrix.mulVec_single_one] at e3
      exact e3
  funext i j
  exact key nv i j (by omega)

example (pin0 : PinData 2 2 Bool) :=
  C60_centroidal_momentum_wide_negation (nx := 5) (ndx := 5) (nu := 1) (K := Robot.robot) (Q := fun _ => True) (X := Robot.move5)
    (hq := by decide) (hqv := by decide) (by decide) pin0 0 trivial (by
      intro h
      have := congrFun (congrFun h 2) 1
      simp [Robot.robot, Robot.trig, Robot.agA, Robot.agC, Robot.agS, Robot.agZC, Robot.agZS] at this)

/-- C60: after the Jacobian of one frame was computed, changing the residual to a frame that some joint does not move leaves
the column of that joint from the first frame: the Jacobian is wrong. -/
theorem C60_frame_translation_change_negation [DecidableEq Frame] (hK : Lawful K integ Q) (hX : MovesConfig integ X hq hv)
    (pin0 : PinData nq nv Frame) (f f' : Frame) (x : Vec nx) (hx : Q (head nq hq x)) (i : Fin 3) (j : Fin nv)
    (hf : K.supports f j = false) (hf' : K.supports f' j = true)
    (hJ : K.jac f' .LOCAL_WORLD_ALIGNED (head nq hq x) (Fin.castAdd 3 i) j ≠ 0) :
    ¬ Right (frameTranslation K pin0 hq : Resid (Frame × Vec 3) nx ndx nu 3) X (fun _ x => Q (head nq hq x)) (fun _ _ => True)
      (fun p x _ => (K.place p.1 (head nq hq x)).p - p.2) := by
  intro hR
  have h1 := (hR [.value (f', 0) x 0, .jac (f', 0) x 0] (f, 0) x 0 hx (by simp)).2.2.2.2
  have h2 := (C60_frame_translation (nu := nu) hK hX pin0 [] (f, 0) x 0 hx (by simp)).2.2.2.2
  have e := congrFun (congrFun (IsJac_unique h1 h2).1 i) ⟨j, by have := j.isLt; omega⟩
  have e1 : setBlock (0 : Mat 3 ndx) 0 0 (top (fill (K.supports f) (K.jac f .LOCAL_WORLD_ALIGNED (head nq hq x)) 0)) i
      ⟨j, by have := j.isLt; omega⟩ = 0 := by
    rw [setBlock_apply_left]
    exact fill_out _ _ _ _ _ hf
  have e2 : ∀ M : Mat 3 ndx, setBlock M 0 0 (top (fill (K.supports f) (K.jac f .LOCAL_WORLD_ALIGNED (head nq hq x))
      (fill (K.supports f') (K.jac f' .LOCAL_WORLD_ALIGNED (head nq hq x)) 0))) i ⟨j, by have := j.isLt; omega⟩ =
      K.jac f' .LOCAL_WORLD_ALIGNED (head nq hq x) (Fin.castAdd 3 i) j := by
    intro M
    rw [setBlock_apply_left]
    refine (fill_out _ _ _ _ _ hf).trans ?_
    unfold fill
    rw [if_pos hf']
  exact hJ ((e2 _).symm.trans (e.trans e1))

/-- The robot: from the tip to the cart. -/
example (pin0 : PinData 2 2 Bool) :=
  C60_frame_translation_change_negation (nu := 1) Robot.lawful Robot.move_config pin0 false true 0 trivial 1 0 rfl rfl (by
    simp [Robot.robot, Robot.trig, Robot.jacA, Robot.jacC, Robot.jacS, head])

/-- C60: the same for the frame velocity, whose Jacobian itself keeps the columns. -/
theorem C60_frame_velocity_change_negation [DecidableEq Frame] (hK : Lawful K integ Q) (hX : MovesConfig integ X hq hv)
    (hV : MovesVelocity X hqv hvv) (h2n : ndx = nv + nv) (pin0 : PinData nq nv Frame) (f f' : Frame) (ref : Ref) (x : Vec nx)
    (hx : Q (head nq hq x)) (i : Fin 6) (j : Fin nv) (hf : K.supports f j = false) (hf' : K.supports f' j = true)
    (hJ : K.jac f' ref (head nq hq x) i j ≠ 0) :
    ¬ Right (frameVelocity K pin0 hq hqv : Resid (Frame × Vec 6 × Ref) nx ndx nu 6) X (fun _ x => Q (head nq hq x))
      (fun _ _ => True) (fun p x _ => K.vel p.1 p.2.2 (head nq hq x) (segment nq nv hqv x) - p.2.1) := by
  intro hR
  have hjl := j.isLt
  have h1 := (hR [.value (f', 0, ref) x 0, .jac (f', 0, ref) x 0] (f, 0, ref) x 0 hx (by simp)).2.2.2.2
  have h2 := (C60_frame_velocity_partial (nu := nu) hK hX hV h2n pin0 [] (f, 0, ref) x 0 hx (by simp)).2.2.2.2
  have e := congrFun (congrFun (IsJac_unique h1 h2).1 i) ⟨ndx - nv + j, by omega⟩
  -- what one call leaves in an unsupported column of the right half, and in a supported one
  have hout : ∀ (p : Frame × Vec 6 × Ref) (d : KData nq nv Frame ndx nu 6), K.supports p.1 j = false →
      ((frameVelocity K pin0 hq hqv : Resid (Frame × Vec 6 × Ref) nx ndx nu 6).computeJacobians p x 0 d : KData nq nv Frame ndx nu 6).Jx i
        ⟨ndx - nv + j, by omega⟩ = d.Jx i ⟨ndx - nv + j, by omega⟩ := by
    intro p d hp
    refine (setBlock_apply_right _ _ _ _ _ (by omega)).trans ((fill_out _ _ _ _ _ hp).trans ?_)
    refine (dif_pos (by omega)).trans ?_
    exact setBlock_apply_out _ _ _ _ _ (by simp; omega)
  have hin : ∀ (p : Frame × Vec 6 × Ref) (d : KData nq nv Frame ndx nu 6), K.supports p.1 j = true →
      ((frameVelocity K pin0 hq hqv : Resid (Frame × Vec 6 × Ref) nx ndx nu 6).computeJacobians p x 0 d : KData nq nv Frame ndx nu 6).Jx i
        ⟨ndx - nv + j, by omega⟩ = K.velDv p.1 p.2.2 (head nq hq x) (segment nq nv hqv x) i j := by
    intro p d hp
    refine (setBlock_apply_right _ _ _ _ _ (by omega)).trans ?_
    exact if_pos hp
  have e1 := (hout (f, 0, ref) _ hf).symm.trans (e.trans (hout (f, 0, ref) _ hf))
  have e2 := (hin (f', 0, ref) _ hf').symm.trans e1
  rw [hK.velDv f' ref _ _ hx] at e2
  exact hJ e2

example (pin0 : PinData 2 2 Bool) :=
  C60_frame_velocity_change_negation (nu := 1) Robot.lawful Robot.move_config Robot.move_velocity rfl pin0 false true .LOCAL 0 trivial 1 0
    rfl rfl (by simp [Robot.robot, Robot.trig, Robot.jacA, Robot.jacC, Robot.jacS])

/-- C60: the Jacobian of the frame translation is computed at the point of the last evaluation, whatever point is passed to
`computeJacobians`; passing another point gives the Jacobian of the other point, unless they agree there. -/
theorem C60_frame_translation_point_negation [DecidableEq Frame] (hK : Lawful K integ Q) (hX : MovesConfig integ X hq hv)
    (pin0 : PinData nq nv Frame) (f : Frame) (ref : Vec 3) (x y : Vec nx) (u : Vec nu) (hx : Q (head nq hq x)) (hy : Q (head nq hq y))
    (hJ : top (K.jac f .LOCAL_WORLD_ALIGNED (head nq hq x)) ≠ top (K.jac f .LOCAL_WORLD_ALIGNED (head nq hq y))) :
    let F := (frameTranslation K pin0 hq : Resid (Frame × Vec 3) nx ndx nu 3)
    let d := F.computeJacobians (f, ref) y u (F.evaluate (f, ref) x u F.new)
    ¬ IsJac (fun z (_ : Vec nu) => (K.place f (head nq hq (X y z))).p - ref) (F.base d).Jx (F.base d).Ju 0 0 := by
  intro F d hR
  have hx' := (C60_frame_translation (nu := nu) hK hX pin0 [] (f, ref) x u hx (by simp)).2.2.2.2
  have hy' := (C60_frame_translation (nu := nu) hK hX pin0 [] (f, ref) y u hy (by simp)).2.2.2.2
  have e := (IsJac_unique hR hy').1
  apply hJ
  have hf : ∀ z : Vec nx, fill (K.supports f) (K.jac f .LOCAL_WORLD_ALIGNED (head nq hq z)) 0 =
      K.jac f .LOCAL_WORLD_ALIGNED (head nq hq z) := fun z =>
    fill_eq _ _ _ (fun j hj => (hK.unsupported f .LOCAL_WORLD_ALIGNED _ 0 j hj).1) fun _ _ _ => rfl
  have e' : setBlock (0 : Mat 3 ndx) 0 0 (top (fill (K.supports f) (K.jac f .LOCAL_WORLD_ALIGNED (head nq hq x)) 0)) =
      setBlock (0 : Mat 3 ndx) 0 0 (top (fill (K.supports f) (K.jac f .LOCAL_WORLD_ALIGNED (head nq hq y)) 0)) := e
  rw [hf, hf] at e'
  funext i j
  have := congrFun (congrFun e' i) ⟨j, by have := j.isLt; omega⟩
  rwa [setBlock_apply_left, setBlock_apply_left] at this

/-- The robot, evaluated at angle 0 and asked for the Jacobian at angle π. -/
example (pin0 : PinData 2 2 Bool) :=
  C60_frame_translation_point_negation (nu := 1) Robot.lawful Robot.move_config pin0 true 0 0 ![Real.pi, 0, 0, 0] 0 trivial trivial (by
    intro h
    have := congrFun (congrFun h 1) 0
    simp [Robot.robot, Robot.trig, Robot.jacA, Robot.jacC, Robot.jacS, head, top] at this
    norm_num at this)

/-! ### Where the residuals vanish -/

theorem SE3.actInv_eq_one {A B : SE3} (hA : IsRotation A.R) : A.actInv B = ⟨1, 0⟩ ↔ B = A := by
  obtain ⟨R, p⟩ := A
  obtain ⟨S, s⟩ := B
  constructor
  · intro h
    simp only [SE3.actInv, SE3.mk.injEq] at h
    have h1 := congrArg (fun M => R * M) h.1
    have h2 := congrArg (fun v => R *ᵥ v) h.2
    simp only [← Matrix.mul_assoc, hA.1, Matrix.one_mul, Matrix.mul_one] at h1
    simp only [Matrix.mulVec_mulVec, hA.1, Matrix.one_mulVec, Matrix.mulVec_zero] at h2
    rw [h1, sub_eq_zero.1 h2]
  · intro h
    simp only [SE3.mk.injEq] at h
    obtain ⟨rfl, rfl⟩ := h
    simp [SE3.actInv, hA.left]

/-- C60: the frame-equality residual vanishes exactly when the second frame is placed, as seen from the first, at the
reference.  (The formula in the documentation, the logarithm of `f1⁻¹ · ref · f2`, would vanish when `ref · f2 = f1`.) -/
theorem C60_frame_equality_zero [DecidableEq Frame] (hK : Lawful K integ Q)
    (hlog : ∀ M : SE3, IsRotation M.R → (K.log6 M = 0 ↔ M = ⟨1, 0⟩)) (pin0 : PinData nq nv Frame) (M0 : SE3) (f1 f2 : Frame)
    (ref : SE3) (href : IsRotation ref.R) (cs : List (Call (Frame × Frame × SE3) nx nu)) (x : Vec nx) (u : Vec nu)
    (hx : Q (head nq hq x)) :
    let F := (frameEquality K pin0 hq M0 : Resid (Frame × Frame × SE3) nx ndx nu 6)
    (F.base (F.evaluate (f1, f2, ref) x u (cs.foldl F.call F.new))).value = 0 ↔
      K.place f2 (head nq hq x) = (K.place f1 (head nq hq x)).act ref := by
  intro F
  have rot : ∀ {A B : Mat 3 3}, IsRotation A → IsRotation B → IsRotation (A * B) := by
    intro A B hA hB
    refine ⟨?_, by rw [Matrix.det_mul, hA.2, hB.2, one_mul]⟩
    rw [Matrix.transpose_mul, Matrix.mul_assoc, ← Matrix.mul_assoc B, hB.1, Matrix.one_mul, hA.1]
  have h1 := hK.rotation f1 _ hx
  have h2 := hK.rotation f2 _ hx
  have hv : (F.base (F.evaluate (f1, f2, ref) x u (cs.foldl F.call F.new))).value =
      K.log6 (((K.place f1 (head nq hq x)).act ref).actInv (K.place f2 (head nq hq x))) := by
    generalize cs.foldl F.call F.new = d
    show K.log6 (((Function.update (Function.update (EData.pin d).oMf f1 (K.place f1 (head nq hq x))) f2 (K.place f2 (head nq hq x)) f1).act
      ref).actInv (Function.update (Function.update (EData.pin d).oMf f1 (K.place f1 (head nq hq x))) f2 (K.place f2 (head nq hq x)) f2)) = _
    rw [Function.update_self]
    by_cases e : f1 = f2
    · subst e
      rw [Function.update_self]
    · rw [Function.update_of_ne e, Function.update_self]
  rw [hv, hlog _ (rot (rot h1 href).transpose h2), SE3.actInv_eq_one (rot h1 href)]

open Classical in
/-- A map with the zeros of the logarithm, on the robot. -/
example (cs : List (Call (Bool × Bool × SE3) 4 1)) (x : Vec 4) (u : Vec 1) :=
  C60_frame_equality_zero (K := { Robot.robot with log6 := fun M => if M = ⟨1, 0⟩ then 0 else 1 }) (hq := by decide) (ndx := 4)
    (integ := Robot.integ) (Q := fun _ => True)
    { integ_zero := Robot.lawful.integ_zero, rotation := Robot.lawful.rotation, place := Robot.lawful.place, lwa := Robot.lawful.lwa
      world := Robot.lawful.world, unsupported := Robot.lawful.unsupported, vel := Robot.lawful.vel, velDv := Robot.lawful.velDv
      vel_lwa := Robot.lawful.vel_lwa, com := Robot.lawful.com, vcom := Robot.lawful.vcom, momentum := Robot.lawful.momentum
      gravity := Robot.lawful.gravity, unrelated := Robot.lawful.unrelated }
    (fun M _ => by
      show (if M = (⟨1, 0⟩ : SE3) then (0 : Vec 6) else 1) = 0 ↔ _
      split_ifs with h
      · simp [h]
      · simp [h]) Robot.pin0 ⟨1, 0⟩ true false ⟨1, ![1, 0, 0]⟩ Robot.one_rotation cs x u trivial

end Aligator.MB
