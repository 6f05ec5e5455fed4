import Verif.Lemmas.Multibody
import Mathlib.Analysis.SpecialFunctions.Trigonometric.Deriv
import Mathlib.Analysis.SpecialFunctions.Sqrt

/-!
# A robot with two joints

Joint 0 turns about the vertical axis and carries the frame `tip` (`true`), a unit mass at distance one of the axis; joint 1
slides along the vertical axis and carries the frame `cart` (`false`), a unit mass.  Gravity of 10 along the second axis.  The
kinematics obey the laws of `Spec.Lawful`: the theorems on residuals are not vacuous.
-/

namespace Aligator.MB.Robot

open Matrix Aligator.Deriv Aligator.MB.Spec Aligator.Centroidal.Spec

/-- Matrices whose entries are polynomials in the cosine and sine of the first joint and the second joint. -/
noncomputable def trig {r n : ℕ} (A C S ZC ZS : Mat r n) (q : Vec 2) : Mat r n :=
  A + Real.cos (q 0) • C + Real.sin (q 0) • S + (q 1 * Real.cos (q 0)) • ZC + (q 1 * Real.sin (q 0)) • ZS

/-- The derivative of `trig q *ᵥ v` in the configuration. -/
noncomputable def trigD {r n : ℕ} (C S ZC ZS : Mat r n) (q : Vec 2) (v : Vec n) : Mat r 2 := fun i l =>
  if l = 0 then ((-Real.sin (q 0) • C + Real.cos (q 0) • S + (-(q 1 * Real.sin (q 0))) • ZC + (q 1 * Real.cos (q 0)) • ZS) *ᵥ v) i
  else ((Real.cos (q 0) • ZC + Real.sin (q 0) • ZS) *ᵥ v) i

/-- Configurations are moved by adding. -/
def integ (q w : Vec 2) : Vec 2 := q + w

variable {n : ℕ}

theorem grad_shift (a : ℝ) (i : Fin n) : IsGradient (fun z : Vec n => a + z i) (Pi.single i 1) 0 :=
  ((IsGradient.const a 0).add (IsGradient.coord i 0)).congr (zero_add _)

theorem grad_cos (a : ℝ) (i : Fin n) : IsGradient (fun z : Vec n => Real.cos (a + z i)) (-Real.sin a • Pi.single i 1) 0 :=
  IsGradient.comp (φ := Real.cos) (by simpa using Real.hasDerivAt_cos (a + (0 : Vec n) i)) (grad_shift a i)

theorem grad_sin (a : ℝ) (i : Fin n) : IsGradient (fun z : Vec n => Real.sin (a + z i)) (Real.cos a • Pi.single i 1) 0 :=
  IsGradient.comp (φ := Real.sin) (by simpa using Real.hasDerivAt_sin (a + (0 : Vec n) i)) (grad_shift a i)

theorem trig_deriv {r n : ℕ} (A C S ZC ZS : Mat r n) (q : Vec 2) (v : Vec n) :
    IsJacobian (stacked fun w e => trig A C S ZC ZS (integ q w) *ᵥ (v + e))
      (beside (trigD C S ZC ZS q v) (trig A C S ZC ZS q)) 0 := by
  intro i
  have entry : ∀ j, IsGradient (fun z : Vec (2 + n) => trig A C S ZC ZS (integ q (fst z)) i j)
      ((-Real.sin (q 0) * C i j + Real.cos (q 0) * S i j + -(q 1 * Real.sin (q 0)) * ZC i j + q 1 * Real.cos (q 0) * ZS i j) •
        Pi.single (Fin.castAdd n 0) 1 + (Real.cos (q 0) * ZC i j + Real.sin (q 0) * ZS i j) • Pi.single (Fin.castAdd n 1) 1) 0 := by
    intro j
    have hc := grad_cos (q 0) (Fin.castAdd n (0 : Fin 2))
    have hs := grad_sin (q 0) (Fin.castAdd n (0 : Fin 2))
    have hz := grad_shift (q 1) (Fin.castAdd n (1 : Fin 2))
    have h := ((((IsGradient.const (A i j) 0).add (hc.smul (C i j))).add (hs.smul (S i j))).add
      ((hz.mul hc).smul (ZC i j))).add ((hz.mul hs).smul (ZS i j))
    refine h.congr_of ?_ ?_
    · funext z
      simp only [trig, integ, fst, Matrix.add_apply, Matrix.smul_apply, smul_eq_mul, Pi.add_apply]
      ring
    · funext l
      simp only [Pi.add_apply, Pi.smul_apply, smul_eq_mul, Pi.zero_apply, add_zero]
      ring
  refine (IsGradient.sum Finset.univ fun j _ => (entry j).mul (grad_shift (v j) (Fin.natAdd 2 j))).congr_of ?_ ?_
  · funext z
    rfl
  · have z0 : integ q (fst (0 : Vec (2 + n))) = q := add_zero q
    funext l
    simp only [Finset.sum_apply, Pi.add_apply, Pi.smul_apply, smul_eq_mul, z0, Pi.zero_apply, add_zero]
    refine Fin.addCases (fun l => ?_) (fun l => ?_) l
    · rw [beside_left]
      unfold trigD
      fin_cases l
      · simp [Matrix.mulVec, dotProduct, Fin.ext_iff, mul_comm]
      · simp [Matrix.mulVec, dotProduct, Pi.single_apply, Fin.ext_iff, mul_comm]
        refine Finset.sum_congr rfl fun x _ => ?_
        rw [if_neg (by omega), zero_add]
    · rw [beside_right]
      have e1 : ∀ a : Fin 2, Fin.natAdd 2 l ≠ Fin.castAdd n a := fun a h => castAdd_ne_natAdd a l h.symm
      simp [-Fin.natAdd_eq_addNat, Pi.single_apply, e1]

/-! ### The robot -/

/-- Turning about the vertical axis. -/
noncomputable def turn (a : ℝ) : Mat 3 3 := !![Real.cos a, -Real.sin a, 0; Real.sin a, Real.cos a, 0; 0, 0, 1]

noncomputable def place : Bool → Vec 2 → SE3
  | true, q => ⟨turn (q 0), ![Real.cos (q 0), Real.sin (q 0), 0]⟩
  | false, q => ⟨1, ![0, 0, q 1]⟩

/-- The constant part, the part with the cosine, the part with the sine, of the frame Jacobians. -/
def jacA : Bool → Ref → Mat 6 2
  | true, .LOCAL => !![0, 0; 1, 0; 0, 0; 0, 0; 0, 0; 1, 0]
  | true, .WORLD => !![0, 0; 0, 0; 0, 0; 0, 0; 0, 0; 1, 0]
  | true, .LOCAL_WORLD_ALIGNED => !![0, 0; 0, 0; 0, 0; 0, 0; 0, 0; 1, 0]
  | false, _ => !![0, 0; 0, 0; 0, 1; 0, 0; 0, 0; 0, 0]

def jacC : Bool → Ref → Mat 6 2
  | true, .LOCAL_WORLD_ALIGNED => !![0, 0; 1, 0; 0, 0; 0, 0; 0, 0; 0, 0]
  | _, _ => 0

def jacS : Bool → Ref → Mat 6 2
  | true, .LOCAL_WORLD_ALIGNED => !![-1, 0; 0, 0; 0, 0; 0, 0; 0, 0; 0, 0]
  | _, _ => 0

noncomputable def comA : Mat 3 2 := !![0, 0; 0, 0; 0, 1 / 2]
noncomputable def comC : Mat 3 2 := !![0, 0; 1 / 2, 0; 0, 0]
noncomputable def comS : Mat 3 2 := !![-(1 / 2), 0; 0, 0; 0, 0]

noncomputable def agA : Mat 6 2 := !![0, 0; 0, 0; 0, 1; 0, 0; 0, 0; 1 / 2, 0]
noncomputable def agC : Mat 6 2 := !![0, 0; 1, 0; 0, 0; 0, 0; 0, 1 / 2; 0, 0]
noncomputable def agS : Mat 6 2 := !![-1, 0; 0, 0; 0, 0; 0, -(1 / 2); 0, 0; 0, 0]
noncomputable def agZC : Mat 6 2 := !![0, 0; 0, 0; 0, 0; 1 / 2, 0; 0, 0; 0, 0]
noncomputable def agZS : Mat 6 2 := !![0, 0; 0, 0; 0, 0; 0, 0; 1 / 2, 0; 0, 0]

/-- Three coordinates of the skew-symmetric part of a matrix. -/
noncomputable def vee (R : Mat 3 3) : Vec 3 := ![(R 2 1 - R 1 2) / 2, (R 0 2 - R 2 0) / 2, (R 1 0 - R 0 1) / 2]

/-- The robot.  For the logarithm: translation and skew-symmetric part of the rotation, which agrees with it to first order at
the identity.  For the collision: the two masses. -/
noncomputable def robot : Pin 2 2 Bool where
  place := place
  jac f ref q := trig (jacA f ref) (jacC f ref) (jacS f ref) 0 0 q
  supports f j := if f then j == 0 else j == 1
  vel f ref q v := trig (jacA f ref) (jacC f ref) (jacS f ref) 0 0 q *ᵥ v
  velDq f ref q v := trigD (jacC f ref) (jacS f ref) 0 0 q v
  velDv f ref q _ := trig (jacA f ref) (jacC f ref) (jacS f ref) 0 0 q
  com q := ![Real.cos (q 0) / 2, Real.sin (q 0) / 2, q 1 / 2]
  Jcom q := trig comA comC comS 0 0 q
  vcom q v := trig comA comC comS 0 0 q *ᵥ v
  vcomDq q v := trigD comC comS 0 0 q v
  Ag q := trig agA agC agS agZC agZS q
  hDq q v := trigD agC agS agZC agZS q v
  gravity q := ![10 * Real.cos (q 0), 0]
  gravityDq q := !![-10 * Real.sin (q 0), 0; 0, 0]
  related i j := i == j
  log6 M := Fin.append (m := 3) (n := 3) M.p (vee M.R)
  Jlog6 M := six M.R 0 0 ((1 / 2 : ℝ) • ((M.R 0 0 + M.R 1 1 + M.R 2 2) • 1 - M.Rᵀ))
  dist q := Real.sqrt (1 + q 1 ^ 2)
  near1 q := ![Real.cos (q 0), Real.sin (q 0), 0]
  near2 q := ![0, 0, q 1]
  normal q := (1 / Real.sqrt (1 + q 1 ^ 2)) • ![-Real.cos (q 0), -Real.sin (q 0), q 1]

theorem turn_rotation (a : ℝ) : IsRotation (turn a) := by
  have h := Real.sin_sq_add_cos_sq a
  constructor
  · ext i j
    fin_cases i <;> fin_cases j <;> simp [turn, Matrix.mul_apply, Matrix.vecMul, dotProduct, Fin.sum_univ_three] <;> nlinarith
  · simp [turn, Matrix.det_fin_three]
    nlinarith

theorem one_rotation : IsRotation 1 := ⟨by simp, by simp⟩

theorem tip_jac (q : Vec 2) : IsBodyJac (fun w => place true (integ q w)) (robot.jac true .LOCAL q) 0 where
  trans := by
    intro i
    have hc := grad_cos (q 0) (0 : Fin 2)
    have hs := grad_sin (q 0) (0 : Fin 2)
    fin_cases i
    · refine hc.congr_of (by funext z; simp [place, integ]) ?_
      funext l
      fin_cases l <;> simp [place, integ, turn, robot, trig, jacA, jacC, jacS, top, Matrix.mul_apply, Matrix.vecMul, dotProduct, Fin.sum_univ_three]
    · refine hs.congr_of (by funext z; simp [place, integ]) ?_
      funext l
      fin_cases l <;> simp [place, integ, turn, robot, trig, jacA, jacC, jacS, top, Matrix.mul_apply, Matrix.vecMul, dotProduct, Fin.sum_univ_three]
    · refine (IsGradient.const 0 0).congr_of (by funext z; simp [place, integ]) ?_
      funext l
      fin_cases l <;> simp [place, integ, turn, robot, trig, jacA, jacC, jacS, top, Matrix.mul_apply, Matrix.vecMul, dotProduct, Fin.sum_univ_three]
  rot a := by
    intro i
    have hc := grad_cos (q 0) (0 : Fin 2)
    have hs := grad_sin (q 0) (0 : Fin 2)
    fin_cases i
    · refine ((hc.smul (a 0)).sub (hs.smul (a 1))).congr_of ?_ ?_
      · funext z; simp [place, integ, turn, Matrix.mulVec, dotProduct, Fin.sum_univ_three]; ring
      · funext l
        fin_cases l <;>
          simp [place, integ, turn, robot, trig, jacA, jacC, jacS, bot, skew, Matrix.mul_apply, Matrix.vecMul, dotProduct, Fin.sum_univ_three] <;> ring
    · refine ((hs.smul (a 0)).add (hc.smul (a 1))).congr_of ?_ ?_
      · funext z; simp [place, integ, turn, Matrix.mulVec, dotProduct, Fin.sum_univ_three]; ring
      · funext l
        fin_cases l <;>
          simp [place, integ, turn, robot, trig, jacA, jacC, jacS, bot, skew, Matrix.mul_apply, Matrix.vecMul, dotProduct, Fin.sum_univ_three] <;> ring
    · refine (IsGradient.const (a 2) 0).congr_of ?_ ?_
      · funext z; simp [place, integ, turn, Matrix.mulVec, dotProduct, Fin.sum_univ_three]
      · funext l
        fin_cases l <;> simp [place, integ, turn, robot, trig, jacA, jacC, jacS, bot, skew, Matrix.mul_apply, Matrix.vecMul, dotProduct, Fin.sum_univ_three]

theorem cart_jac (q : Vec 2) : IsBodyJac (fun w => place false (integ q w)) (robot.jac false .LOCAL q) 0 where
  trans := by
    intro i
    fin_cases i
    · refine (IsGradient.const 0 0).congr_of (by funext z; simp [place]) ?_
      funext l
      fin_cases l <;> simp [place, robot, trig, jacA, jacC, jacS, top]
    · refine (IsGradient.const 0 0).congr_of (by funext z; simp [place]) ?_
      funext l
      fin_cases l <;> simp [place, robot, trig, jacA, jacC, jacS, top]
    · refine (grad_shift (q 1) 1).congr_of (by funext z; simp [place, integ]) ?_
      funext l
      fin_cases l <;> simp [place, robot, trig, jacA, jacC, jacS, top]
  rot a := by
    refine (IsJacobian.const a 0).congr_of' ?_ ?_
    · funext z; simp [place]
    · funext i l
      fin_cases l <;> fin_cases i <;> simp [place, robot, trig, jacA, jacC, jacS, bot, Matrix.mul_apply, Matrix.vecMul, dotProduct, Fin.sum_univ_three]

theorem robot_lwa (f : Bool) (q : Vec 2) : robot.jac f .LOCAL_WORLD_ALIGNED q =
    six (robot.place f q).R 0 0 (robot.place f q).R * robot.jac f .LOCAL q := by
  have h := Real.sin_sq_add_cos_sq (q 0)
  cases f
  · apply ext6
    · rw [top_six_mul]
      ext i j
      fin_cases i <;> fin_cases j <;> simp [place, robot, trig, jacA, jacC, jacS, top, bot]
    · rw [bot_six_mul]
      ext i j
      fin_cases i <;> fin_cases j <;> simp [place, robot, trig, jacA, jacC, jacS, top, bot]
  · apply ext6
    · rw [top_six_mul]
      ext i j
      fin_cases i <;> fin_cases j <;> simp [place, robot, turn, trig, jacA, jacC, jacS, top, bot, Matrix.mul_apply, Matrix.vecMul, dotProduct, Fin.sum_univ_three]
    · rw [bot_six_mul]
      ext i j
      fin_cases i <;> fin_cases j <;> simp [place, robot, turn, trig, jacA, jacC, jacS, top, bot, Matrix.mul_apply, Matrix.vecMul, dotProduct, Fin.sum_univ_three]

theorem robot_world (f : Bool) (q : Vec 2) : robot.jac f .WORLD q =
    six (robot.place f q).R (skew (robot.place f q).p * (robot.place f q).R) 0 (robot.place f q).R * robot.jac f .LOCAL q := by
  have h := Real.sin_sq_add_cos_sq (q 0)
  cases f
  · apply ext6
    · rw [top_six_mul]
      ext i j
      fin_cases i <;> fin_cases j <;>
        simp [place, robot, trig, jacA, jacC, jacS, top, bot, skew, Matrix.mul_apply, Matrix.vecMul, dotProduct, Fin.sum_univ_three]
    · rw [bot_six_mul]
      ext i j
      fin_cases i <;> fin_cases j <;> simp [place, robot, trig, jacA, jacC, jacS, top, bot]
  · apply ext6
    · rw [top_six_mul]
      ext i j
      fin_cases i <;> fin_cases j <;>
        simp [place, robot, turn, trig, jacA, jacC, jacS, top, bot, skew, Matrix.mul_apply, Matrix.vecMul, dotProduct, Fin.sum_univ_three] <;> nlinarith
    · rw [bot_six_mul]
      ext i j
      fin_cases i <;> fin_cases j <;> simp [place, robot, turn, trig, jacA, jacC, jacS, top, bot, Matrix.mul_apply, Matrix.vecMul, dotProduct, Fin.sum_univ_three]

theorem robot_unsupported (f : Bool) (ref : Ref) (q v : Vec 2) (j : Fin 2) (hj : robot.supports f j = false) :
    (∀ i, robot.jac f ref q i j = 0) ∧ (∀ i, robot.velDq f ref q v i j = 0) ∧ ∀ i, robot.velDv f ref q v i j = 0 := by
  cases f
  · have : j = 0 := by fin_cases j <;> simp_all [robot]
    subst this
    refine ⟨fun i => ?_, fun i => ?_, fun i => ?_⟩
    · fin_cases i <;> simp [robot, trig, jacA, jacC, jacS]
    · simp [robot, trigD, jacC, jacS]
    · fin_cases i <;> simp [robot, trig, jacA, jacC, jacS]
  · have : j = 1 := by fin_cases j <;> simp_all [robot]
    subst this
    refine ⟨fun i => ?_, fun i => ?_, fun i => ?_⟩
    · cases ref <;> fin_cases i <;> simp [robot, trig, jacA, jacC, jacS]
    · simp [robot, trigD]
    · cases ref <;> fin_cases i <;> simp [robot, trig, jacA, jacC, jacS]

theorem robot_com (q : Vec 2) : DerivQ integ robot.com (robot.Jcom q) q := by
  intro i
  fin_cases i
  · refine ((grad_cos (q 0) (0 : Fin 2)).smul (1 / 2)).congr_of (by funext z; simp [robot, integ]; ring) ?_
    funext l
    fin_cases l <;> simp [robot, trig, comA, comC, comS, mul_comm]
  · refine ((grad_sin (q 0) (0 : Fin 2)).smul (1 / 2)).congr_of (by funext z; simp [robot, integ]; ring) ?_
    funext l
    fin_cases l <;> simp [robot, trig, comA, comC, comS, mul_comm]
  · refine ((grad_shift (q 1) (1 : Fin 2)).smul (1 / 2)).congr_of (by funext z; simp [robot, integ]; ring) ?_
    funext l
    fin_cases l <;> simp [robot, trig, comA, comC, comS, mul_comm]

theorem robot_gravity (q : Vec 2) : DerivQ integ robot.gravity (robot.gravityDq q) q := by
  intro i
  fin_cases i
  · refine ((grad_cos (q 0) (0 : Fin 2)).smul 10).congr_of (by funext z; simp [robot, integ]) ?_
    funext l
    fin_cases l <;> simp [robot]
  · refine (IsGradient.const 0 0).congr_of (by funext z; simp [robot]) ?_
    funext l
    fin_cases l <;> simp [robot]

theorem lawful : Lawful robot integ (fun _ => True) where
  integ_zero q _ := add_zero q
  rotation f q _ := by cases f <;> [exact one_rotation; exact turn_rotation _]
  place f q _ := by cases f <;> [exact cart_jac q; exact tip_jac q]
  lwa f q _ := robot_lwa f q
  world f q _ := robot_world f q
  unsupported := robot_unsupported
  vel f ref q v _ := trig_deriv _ _ _ _ _ q v
  velDv _ _ _ _ _ := rfl
  vel_lwa f q v := by
    show robot.jac f .LOCAL_WORLD_ALIGNED q *ᵥ v = _ *ᵥ (robot.jac f .LOCAL q *ᵥ v)
    rw [robot_lwa, Matrix.mulVec_mulVec]
  com q _ := robot_com q
  vcom q v _ := trig_deriv _ _ _ _ _ q v
  momentum q v _ := trig_deriv _ _ _ _ _ q v
  gravity q _ := robot_gravity q
  unrelated q i j h := by
    fin_cases i <;> fin_cases j <;> simp_all [robot]

theorem logLaw (M : SE3) : LogLaw robot M := by
  intro n c J z hz hc
  subst hz
  intro i
  refine Fin.addCases (m := 3) (n := 3) (fun a => ?_) (fun b => ?_) i
  · refine (hc.trans a).congr_of ?_ ?_
    · funext w
      simp [robot]
    · funext l
      have := congrFun (congrFun (top_six_mul (c z).R 0 0 ((1 / 2 : ℝ) • (((c z).R 0 0 + (c z).R 1 1 + (c z).R 2 2) • 1 - (c z).Rᵀ)) J) a) l
      rw [Matrix.zero_mul, add_zero] at this
      exact this.symm
  · have e : ∀ l, (robot.Jlog6 (c z) * J) (Fin.natAdd 3 b) l =
        (((1 / 2 : ℝ) • (((c z).R 0 0 + (c z).R 1 1 + (c z).R 2 2) • (1 : Mat 3 3) - (c z).Rᵀ)) * bot J) b l := by
      intro l
      have := congrFun (congrFun (bot_six_mul (c z).R 0 0 ((1 / 2 : ℝ) • (((c z).R 0 0 + (c z).R 1 1 + (c z).R 2 2) • 1 - (c z).Rᵀ)) J) b) l
      rw [Matrix.zero_mul, zero_add] at this
      exact this
    have ent := fun i j : Fin 3 => hc.entry i j
    fin_cases b
    · refine (((ent 2 1).sub (ent 1 2)).smul (1 / 2)).congr_of ?_ ?_
      · funext w
        simp [robot, vee, Fin.append, Fin.addCases]
        ring
      · funext l
        refine Eq.trans ?_ (e l).symm
        simp [skew, Matrix.mul_apply, Fin.sum_univ_three, Matrix.vecMul, dotProduct, Matrix.one_apply]
        ring
    · refine (((ent 0 2).sub (ent 2 0)).smul (1 / 2)).congr_of ?_ ?_
      · funext w
        simp [robot, vee, Fin.append, Fin.addCases]
        ring
      · funext l
        refine Eq.trans ?_ (e l).symm
        simp [skew, Matrix.mul_apply, Fin.sum_univ_three, Matrix.vecMul, dotProduct, Matrix.one_apply]
        ring
    · refine (((ent 1 0).sub (ent 0 1)).smul (1 / 2)).congr_of ?_ ?_
      · funext w
        simp [robot, vee, Fin.append, Fin.addCases]
        ring
      · funext l
        refine Eq.trans ?_ (e l).symm
        simp [skew, Matrix.mul_apply, Fin.sum_univ_three, Matrix.vecMul, dotProduct, Matrix.one_apply]
        ring

theorem distLaw (q : Vec 2) : DistLaw robot integ true false q := by
  intro s1 s2 A1 A2 h1 h2 d1 d2
  have hs1 : s1 = 0 := by
    have : turn (q 0) *ᵥ s1 = 0 := by
      have h : turn (q 0) *ᵥ s1 + ![Real.cos (q 0), Real.sin (q 0), 0] = ![Real.cos (q 0), Real.sin (q 0), 0] := h1
      exact add_eq_right.1 h
    have h := congrArg (fun v => (turn (q 0))ᵀ *ᵥ v) this
    simp only [Matrix.mulVec_mulVec, (turn_rotation (q 0)).left, Matrix.one_mulVec, Matrix.mulVec_zero] at h
    exact h
  have hs2 : s2 = 0 := by
    have h : (1 : Mat 3 3) *ᵥ s2 + ![0, 0, q 1] = ![0, 0, q 1] := h2
    rw [Matrix.one_mulVec] at h
    exact add_eq_right.1 h
  subst hs1 hs2
  have e1 : A1 = turn (q 0) * top (robot.jac true .LOCAL q) := by
    refine IsJacobian.unique d1 ?_
    have h := (tip_jac q).trans
    have z0 : integ q 0 = q := add_zero q
    rw [z0] at h
    refine h.congr_of' ?_ rfl
    funext w
    simp [robot]
  have e2 : A2 = top (robot.jac false .LOCAL q) := by
    refine IsJacobian.unique d2 ?_
    have h := (cart_jac q).trans
    refine h.congr_of' ?_ (Matrix.one_mul _)
    funext w
    simp [robot]
  subst e1 e2
  intro i
  have hpos : (0 : ℝ) < 1 + q 1 ^ 2 := by positivity
  have hz := grad_shift (q 1) (1 : Fin 2)
  have hg := (IsGradient.const 1 0).add (hz.mul hz)
  have hd := IsGradient.comp (φ := Real.sqrt) (φ' := 1 / (2 * Real.sqrt (1 + q 1 ^ 2)))
    (by
      have := Real.hasDerivAt_sqrt (x := 1 + q 1 ^ 2) hpos.ne'
      simpa [sq] using this) hg
  refine hd.congr_of ?_ ?_
  · funext w
    simp [robot, integ, sq]
  · have hr : Real.sqrt (1 + q 1 ^ 2) ≠ 0 := (Real.sqrt_pos.2 hpos).ne'
    funext l
    fin_cases l
    · simp [robot, trig, jacA, jacC, jacS, top, turn, Matrix.mul_apply, Matrix.vecMul, dotProduct, Fin.sum_univ_three]
      ring
    · simp [robot, trig, jacA, jacC, jacS, top, turn, Matrix.mul_apply, Matrix.vecMul, dotProduct, Fin.sum_univ_three]
      field_simp
      ring

/-! ### The state: configuration and velocity, moved by adding -/

def move (x z : Vec 4) : Vec 4 := x + z

theorem move_config : MovesConfig (nq := 2) (nv := 2) integ move (by decide) (by decide) := fun _ _ => rfl

theorem move_velocity : MovesVelocity (nq := 2) (nv := 2) move (by decide) (by decide) := fun _ _ => rfl

/-- A state with one more coordinate, an activation say. -/
def move5 (x z : Vec 5) : Vec 5 := x + z

theorem move5_config : MovesConfig (nq := 2) (nv := 2) integ move5 (by decide) (by decide) := fun _ _ => rfl

theorem move5_velocity : MovesVelocity (nq := 2) (nv := 2) move5 (by decide) (by decide) := fun _ _ => rfl

/-- Data at the beginning. -/
def pin0 : PinData 2 2 Bool := ⟨0, 0, 0, 0, fun _ => ⟨1, 0⟩, 0, 0, 0, 0⟩

end Aligator.MB.Robot
