import Verif.Props.ConstraintSets
import Mathlib.Analysis.Calculus.TangentCone.Real
import Mathlib.Analysis.Calculus.Deriv.Mul

/-!
# l1 penalty (C36), active sets and projected Jacobians (C37), multiplier update (C26)
-/

namespace Aligator.CSets

open Spec

/-! ### C36 -/

theorem soft_cases (mu a : ℝ) (hmu : 0 ≤ mu) :
    (mu < a ∧ Real.sign a * max (|a| - mu) 0 = a - mu) ∨
    (a < -mu ∧ Real.sign a * max (|a| - mu) 0 = a + mu) ∨
    (|a| ≤ mu ∧ Real.sign a * max (|a| - mu) 0 = 0) := by
  rcases le_or_gt |a| mu with h | h
  · exact .inr (.inr ⟨h, by rw [max_eq_right (by linarith)]; ring⟩)
  · rcases lt_or_ge a 0 with ha | ha
    · rw [abs_of_neg ha] at h
      refine .inr (.inl ⟨by linarith, ?_⟩)
      rw [Real.sign_of_neg ha, abs_of_neg ha, max_eq_left (by linarith)]; ring
    · rw [abs_of_nonneg ha] at h
      refine .inl ⟨h, ?_⟩
      rw [Real.sign_of_pos (by linarith), abs_of_nonneg ha, max_eq_left (by linarith)]; ring

theorem soft_prox (mu a w : ℝ) (hmu : 0 ≤ mu) :
    mu * |Real.sign a * max (|a| - mu) 0| + (Real.sign a * max (|a| - mu) 0 - a) ^ 2 / 2 +
      (w - Real.sign a * max (|a| - mu) 0) ^ 2 / 2 ≤ mu * |w| + (w - a) ^ 2 / 2 := by
  have h1 := le_abs_self w
  have h2 := neg_abs_le w
  rcases soft_cases mu a hmu with ⟨h, e⟩ | ⟨h, e⟩ | ⟨h, e⟩ <;> rw [e]
  · rw [abs_of_pos (by linarith)]
    nlinarith [mul_le_mul_of_nonneg_left h1 hmu]
  · rw [abs_of_neg (by linarith)]
    nlinarith [mul_le_mul_of_nonneg_left h2 hmu]
  · have : w * a ≤ |w| * mu := by
      calc w * a ≤ |w * a| := le_abs_self _
        _ = |w| * |a| := abs_mul _ _
        _ ≤ |w| * mu := mul_le_mul_of_nonneg_left h (abs_nonneg _)
    simp only [abs_zero]
    nlinarith

theorem soft_prox_list (mu : ℝ) (hmu : 0 ≤ mu) {z w : Vec} (h : z.length = w.length) :
    mu * norm1 (l1Proj mu z) + dist2 (l1Proj mu z) z / 2 + dist2 w (l1Proj mu z) / 2 ≤
      mu * norm1 w + dist2 w z / 2 := by
  refine ind2 (P := fun z w => mu * norm1 (l1Proj mu z) + dist2 (l1Proj mu z) z / 2 + dist2 w (l1Proj mu z) / 2 ≤
      mu * norm1 w + dist2 w z / 2) (by simp [l1Proj, norm1, dist2]) ?_ h
  intro a b l m _ ih
  have := soft_prox mu a b hmu
  simp only [l1Proj, norm1, dist2, List.map_cons, sub_cons, dot_cons, List.sum_cons] at ih ⊢
  nlinarith

/-- **C36** The projection of the l1 set is the proximal operator of the penalty: it minimises
`mu ‖w‖₁ + ‖w - z‖² / 2`, and it is the only minimiser. -/
theorem C36_prox (mu : ℝ) (hmu : 0 ≤ mu) (z out w : Vec) (hw : w.length = z.length) :
    mu * norm1 ((l1 mu).projection z out) + dist2 ((l1 mu).projection z out) z / 2 ≤
      mu * norm1 w + dist2 w z / 2 ∧
    (mu * norm1 w + dist2 w z / 2 ≤
      mu * norm1 ((l1 mu).projection z out) + dist2 ((l1 mu).projection z out) z / 2 →
      w = (l1 mu).projection z out) := by
  have h := soft_prox_list mu hmu hw.symm
  have h2 : 0 ≤ dist2 w (l1Proj mu z) := dot_self_nonneg _
  simp only [l1]
  refine ⟨by linarith, fun h' => dist2_eq_zero (by simp [l1Proj, hw]) (by linarith)⟩

theorem l1_cone_eq (mu : ℝ) (hmu : 0 ≤ mu) (z out : Vec) :
    (l1 mu).normalConeProjection z out =
      boxProj (List.replicate z.length (-mu)) (List.replicate z.length mu) z := by
  simp only [l1]
  induction z with
  | nil => rfl
  | cons a z ih =>
    simp only [l1Proj, boxProj, List.map_cons, List.zipWith_cons_cons, List.length_cons,
      List.replicate_succ, List.cons.injEq] at ih ⊢
    refine ⟨?_, ih⟩
    rcases soft_cases mu a hmu with ⟨h, e⟩ | ⟨h, e⟩ | ⟨h, e⟩ <;> rw [e]
    · rw [min_eq_right h.le, max_eq_left (by linarith)]; ring
    · rw [min_eq_left (by linarith), max_eq_right (by linarith)]; ring
    · obtain ⟨h1, h2⟩ := abs_le.1 h
      rw [min_eq_left h2, max_eq_left h1]; ring

theorem between_ball (mu : ℝ) (z : Vec) :
    Between (List.replicate z.length (-mu)) (List.replicate z.length mu) z ↔ Ball mu z := by
  induction z with
  | nil => simp [Between, Ball]
  | cons a z ih =>
    simp only [Between, Ball, List.length_cons, List.replicate_succ, List.forall₂_cons] at ih ⊢
    rw [List.forall_mem_cons, ← ih, abs_le]
    tauto

/-- **C36** The complementary operator is the Euclidean projection on the l-infinity ball of radius `mu`. -/
theorem C36_complement (mu : ℝ) (hmu : 0 ≤ mu) (n : ℕ) (out : Vec) :
    IsEuclideanProjection (Ball mu) n (fun z => (l1 mu).normalConeProjection z out) := by
  have hP := (projection_properties (box_projects (List.replicate n (-mu)) (List.replicate n mu) (by
    induction n with
    | zero => simp
    | succ n ih => simp only [List.replicate_succ, List.forall₂_cons]; exact ⟨by linarith, ih⟩))
    (List.replicate n 0) (by simp)).1
  rw [List.length_replicate] at hP
  have e : ∀ z : Vec, z.length = n → (l1 mu).normalConeProjection z out =
      (box (List.replicate n (-mu)) (List.replicate n mu)).projection z (List.replicate n 0) := by
    intro z hz; rw [l1_cone_eq mu hmu z out, hz]; rfl
  have b : ∀ z : Vec, z.length = n → (Between (List.replicate n (-mu)) (List.replicate n mu) z ↔ Ball mu z) := by
    intro z hz; rw [← hz]; exact between_ball mu z
  constructor
  · intro z hz; simp only [e z hz]; exact hP.length z hz
  · intro z hz; simp only [e z hz]; exact (b _ (hP.length z hz)).1 (hP.mem z hz)
  · intro z w hz hw hC; simp only [e z hz]; exact hP.closest z w hz hw ((b w hw).2 hC)
  · intro z w hz hw hC; simp only [e z hz]; exact hP.unique z w hz hw ((b w hw).2 hC)
  · intro z hz; simp only [e z hz]; rw [e _ (hP.length z hz)]; exact hP.idempotent z hz
  · intro z hz hC; simp only [e z hz]; exact hP.fixed z hz ((b z hz).2 hC)
  · intro z z' hz hz'; simp only [e z hz, e z' hz']; exact hP.nonexpansive z z' hz hz'

theorem dist2_comm {a b : Vec} (h : a.length = b.length) : dist2 a b = dist2 b a := by
  refine ind2 (P := fun a b => dist2 a b = dist2 b a) rfl ?_ h
  intro x y l m _ ih
  unfold dist2 at ih ⊢
  simp only [sub_cons, dot_cons]
  rw [ih]; ring

/-- **C36** The Moreau envelope computed by the code is the infimum of `‖w‖₁ + ‖z - w‖² / (2 mu)`, attained. -/
theorem C36_moreau_envelope (mu : ℝ) (hmu : 0 < mu) (z out : Vec) :
    (∀ w : Vec, w.length = z.length →
      moreauEnvelope (l1 mu) mu z out ≤ norm1 w + dist2 z w / (2 * mu)) ∧
    moreauEnvelope (l1 mu) mu z out =
      norm1 ((l1 mu).projection z out) + dist2 z ((l1 mu).projection z out) / (2 * mu) := by
  have hl : (l1Proj mu z).length = z.length := by simp [l1Proj]
  have e1 : sub z (sub z (l1Proj mu z)) = l1Proj mu z := by
    refine ind2 (P := fun z p => sub z (sub z p) = p) rfl ?_ hl.symm
    intro a b l m _ ih
    simp only [sub_cons, ih]
    congr 1; ring
  have e2 : ∀ v : Vec, (v.map fun a => a * a).sum = dot v v := by
    intro v
    induction v with
    | nil => rfl
    | cons a v ih => simp [ih]
  have e : moreauEnvelope (l1 mu) mu z out = norm1 (l1Proj mu z) + dist2 z (l1Proj mu z) / (2 * mu) := by
    have h1 : moreauEnvelope (l1 mu) mu z out = norm1 (sub z (sub z (l1Proj mu z))) +
        1 / 2 * (1 / mu) * ((sub z (l1Proj mu z)).map fun a => a * a).sum := rfl
    rw [h1, e1, e2]
    unfold dist2
    field_simp
  refine ⟨fun w hw => ?_, e⟩
  rw [e]
  have h := (C36_prox mu hmu.le z out w hw).1
  simp only [l1] at h
  rw [dist2_comm hl, dist2_comm hw] at h
  have h3 : norm1 (l1Proj mu z) + dist2 z (l1Proj mu z) / (2 * mu) =
      (mu * norm1 (l1Proj mu z) + dist2 z (l1Proj mu z) / 2) / mu := by field_simp
  have h4 : norm1 w + dist2 z w / (2 * mu) = (mu * norm1 w + dist2 z w / 2) / mu := by field_simp
  rw [h3, h4]
  exact div_le_div_of_nonneg_right h hmu.le

theorem LibrarySet.evaluate_zero {S : CSet} {C : Vec → Prop} {n : ℕ} (h : LibrarySet S C n) (z : Vec) : S.evaluate z = 0 := by
  induction h generalizing z with
  | equality n => rfl
  | negativeOrthant n => rfl
  | box lo up h => rfl
  | product cs S _ hS ih =>
    unfold CSets.product at hS
    split at hS
    · cases hS
    · injection hS with hS
      subst hS
      show productEvaluate _ z 0 _ 0 = 0
      have key : ∀ (l : List CSet) (i : ℕ) (sizes : List ℕ), (∀ c ∈ l, ∀ z, c.evaluate z = 0) →
          productEvaluate sizes z i l 0 = 0 := by
        intro l
        induction l with
        | nil => intro _ _ _; rfl
        | cons c l ihl =>
          intro i sizes hl
          unfold productEvaluate
          rw [hl c (by simp), add_zero]
          exact ihl _ _ fun c hc => hl c (by simp [hc])
      refine key _ _ _ fun c hc z => ?_
      obtain ⟨d, hd, rfl⟩ := List.mem_map.1 hc
      exact ih d hd z

/-- **C35** For every set of the library, including nested products, the Moreau envelope computed by the code with parameter
`mu` is the least value of `‖z - w‖² / (2 mu)` over the set, attained at the projection; the indicator `evaluate` is zero. -/
theorem C35_moreau_envelope {S : CSet} {C : Vec → Prop} {n : ℕ} (h : LibrarySet S C n) (mu : ℝ) (hmu : 0 < mu) (z out : Vec)
    (hz : z.length = n) (ho : out.length = n) :
    S.evaluate z = 0 ∧ moreauEnvelope S mu z out = dist2 z (S.projection z out) / (2 * mu) ∧
    ∀ w : Vec, w.length = n → C w → moreauEnvelope S mu z out ≤ dist2 z w / (2 * mu) := by
  obtain ⟨hP, hN⟩ := C35_projections h out ho
  have e2 : ∀ v : Vec, (v.map fun a => a * a).sum = dot v v := by
    intro v
    induction v with
    | nil => rfl
    | cons a v ih => simp [ih]
  have e : moreauEnvelope S mu z out = dist2 z (S.projection z out) / (2 * mu) := by
    unfold moreauEnvelope
    dsimp only
    rw [h.evaluate_zero, (hN z out hz ho).1, e2, zero_add]
    unfold dist2
    field_simp
  refine ⟨h.evaluate_zero z, e, fun w hw hC => ?_⟩
  rw [e]
  exact div_le_div_of_nonneg_right (hP.closest z w hz hw hC) (by linarith)

/-- `C35_moreau_envelope` on a box. -/
example : moreauEnvelope (box [-1, 0] [1, 2]) (1 / 4) [3, 1] [7, 7] = 8 := by
  rw [(C35_moreau_envelope (.box [-1, 0] [1, 2] (by norm_num)) (1 / 4) (by norm_num) [3, 1] [7, 7] rfl rfl).2.1]
  norm_num [box, boxProj, dist2, dot, sub]

/-- **C36** An object whose parameter was never set (`mu_ = 0`; the solvers never call `setProxParameter`) is
the identity: the penalty has no effect, its multiplier estimate is always zero. -/
theorem C36_unset_parameter (z out : Vec) :
    (l1 0).projection z out = z ∧ (l1 0).normalConeProjection z out = z.map fun _ => 0 := by
  have e : ∀ a : ℝ, Real.sign a * max (|a| - 0) 0 = a := by
    intro a
    rcases soft_cases 0 a le_rfl with ⟨h, e⟩ | ⟨h, e⟩ | ⟨h, e⟩ <;> rw [e]
    · ring
    · ring
    · exact (abs_nonpos_iff.1 h).symm
  have h1 : l1Proj 0 z = z := by
    unfold l1Proj
    simp only [e, List.map_id']
  refine ⟨h1, ?_⟩
  simp only [l1, h1]
  induction z with
  | nil => rfl
  | cons a z ih =>
    simp only [List.zipWith_cons_cons, sub_self, List.map_cons, List.cons.injEq, true_and]
    refine ih ?_
    unfold l1Proj
    simp only [e, List.map_id']

/-- The hypotheses of the theorems on the l1 penalty are met. -/
example : (l1 1).projection [3, -2, 1 / 2] [] = [2, -1, 0] := by
  simp only [l1, l1Proj, List.map_cons, List.map_nil]
  rw [Real.sign_of_pos (by norm_num : (0 : ℝ) < 3), Real.sign_of_neg (by norm_num : (-2 : ℝ) < 0)]
  norm_num

/-! ### C37 -/

/-- What a component of a library set does on one coordinate. -/
inductive Kind
  | eq | orth | box (l u : ℝ) | l1 (mu : ℝ)

/-- The normal-cone projection on one coordinate. -/
noncomputable def Kind.cone : Kind → ℝ → ℝ
  | .eq, a => a
  | .orth, a => max a 0
  | .box l u, a => a - max (min a u) l
  | .l1 mu, a => a - Real.sign a * max (|a| - mu) 0

/-- The active-set flag of one coordinate. -/
noncomputable def Kind.flag : Kind → ℝ → Bool
  | .eq, _ => true
  | .orth, a => decide (a > 0)
  | .box l u, a => decide (a > u) || decide (a < l)
  | .l1 mu, a => decide (|a| ≤ mu)

/-- The points where the coordinate map has a kink. -/
def Kind.kink : Kind → ℝ → Prop
  | .eq, _ => False
  | .orth, a => a = 0
  | .box l u, a => a = l ∨ a = u
  | .l1 mu, a => a = mu ∨ a = -mu

/-- Non-degenerate parameters. -/
def Kind.Regular : Kind → Prop
  | .box l u => l < u
  | .l1 mu => 0 < mu
  | _ => True

/-- The methods of `S` act coordinatewise as the listed kinds. -/
structure HasKinds (S : CSet) (ks : List Kind) : Prop where
  projection : ∀ z out : Vec, z.length = ks.length → out.length = ks.length →
    S.projection z out = List.zipWith (fun k a => a - k.cone a) ks z
  cone : ∀ z out : Vec, z.length = ks.length → out.length = ks.length →
    S.normalConeProjection z out = List.zipWith (fun k a => k.cone a) ks z
  active : ∀ (z : Vec) (out : List Bool), z.length = ks.length → out.length = ks.length →
    S.computeActiveSet z out = List.zipWith (fun k a => k.flag a) ks z
  projJac : ∀ (z : Vec) (J : List Vec), z.length = ks.length → J.length = ks.length →
    S.applyProjectionJacobian z J =
      List.zipWith (fun b row => if b then zeroRow row else row) (List.zipWith (fun k a => k.flag a) ks z) J
  coneJac : ∀ (z : Vec) (J : List Vec), z.length = ks.length → J.length = ks.length →
    S.applyNormalConeProjectionJacobian z J =
      List.zipWith (fun b row => if b then row else zeroRow row) (List.zipWith (fun k a => k.flag a) ks z) J

/-- All the sets of the library, the l1 penalty included, with the kinds of their coordinates. -/
inductive Library : CSet → List Kind → Prop
  | equality (n : ℕ) : Library equality (List.replicate n .eq)
  | negativeOrthant (n : ℕ) : Library negativeOrthant (List.replicate n .orth)
  | box (lo up : Vec) : lo.length = up.length → Library (box lo up) (List.zipWith Kind.box lo up)
  | l1 (mu : ℝ) (n : ℕ) : Library (l1 mu) (List.replicate n (.l1 mu))
  | product (cs : List (CSet × List Kind)) (S : CSet) : (∀ c ∈ cs, Library c.1 c.2) →
      product (cs.map (·.1)) (cs.map (·.2.length)) = some S → Library S (cs.map (·.2)).flatten

theorem zipWith_replicate_left {α β γ : Type*} (f : α → β → γ) (a : α) (l : List β) :
    List.zipWith f (List.replicate l.length a) l = l.map (f a) := by
  induction l with
  | nil => rfl
  | cons b l ih => simp [List.replicate_succ, ih]

theorem boxKinds_proj {lo up z : Vec} (h : lo.length = up.length) (hz : z.length = lo.length) :
    boxProj lo up z = List.zipWith (fun (k : Kind) a => a - k.cone a) (List.zipWith Kind.box lo up) z := by
  refine ind3 (P := fun lo up z => boxProj lo up z =
    List.zipWith (fun (k : Kind) a => a - k.cone a) (List.zipWith Kind.box lo up) z) rfl ?_ h (by omega)
  intro l u a lo up z _ _ ih
  simp only [boxProj, List.zipWith_cons_cons, List.cons.injEq] at ih ⊢
  exact ⟨by simp [Kind.cone], ih⟩

theorem boxKinds_cone {lo up z : Vec} (h : lo.length = up.length) (hz : z.length = lo.length) :
    List.zipWith (· - ·) z (boxProj lo up z) =
      List.zipWith (fun (k : Kind) a => k.cone a) (List.zipWith Kind.box lo up) z := by
  refine ind3 (P := fun lo up z => List.zipWith (· - ·) z (boxProj lo up z) =
    List.zipWith (fun (k : Kind) a => k.cone a) (List.zipWith Kind.box lo up) z) rfl ?_ h (by omega)
  intro l u a lo up z _ _ ih
  simp only [boxProj, List.zipWith_cons_cons, List.cons.injEq] at ih ⊢
  exact ⟨by simp [Kind.cone], ih⟩

theorem boxKinds_active {lo up z : Vec} (h : lo.length = up.length) (hz : z.length = lo.length)
    (out : List Bool) :
    boxActive lo up z out = List.zipWith (fun (k : Kind) a => k.flag a) (List.zipWith Kind.box lo up) z := by
  refine ind3 (P := fun lo up z => boxActive lo up z out =
    List.zipWith (fun (k : Kind) a => k.flag a) (List.zipWith Kind.box lo up) z) rfl ?_ h (by omega)
  intro l u a lo up z _ _ ih
  simp only [boxActive, List.zipWith_cons_cons, List.cons.injEq] at ih ⊢
  exact ⟨by simp [Kind.flag], ih⟩

theorem not_if (b : Bool) (r : Vec) : (if (!b) = true then zeroRow r else r) = if b = true then r else zeroRow r := by
  cases b <;> rfl

theorem Library.hasKinds {S : CSet} {ks : List Kind} (h : Library S ks) : HasKinds S ks := by
  induction h with
  | equality n =>
    have hact : ∀ z : Vec, z.length = n →
        List.zipWith (fun (k : Kind) a => k.flag a) (List.replicate n .eq) z = z.map fun _ => true := by
      intro z hz
      rw [← hz, zipWith_replicate_left]; rfl
    refine ⟨?_, ?_, ?_, ?_, ?_⟩
    · intro z out h1 h2
      rw [List.length_replicate] at h1 h2
      rw [← h1, zipWith_replicate_left]
      simp only [CSets.equality, Kind.cone, sub_self]
      simp [h1, h2]
    · intro z out h1 h2
      rw [List.length_replicate] at h1 h2
      rw [← h1, zipWith_replicate_left]
      simp [CSets.equality, Kind.cone]
    · intro z out h1 h2
      rw [List.length_replicate] at h1 h2
      rw [hact z h1]
      simp [CSets.equality, h1, h2]
    · intro z J h1 h2
      rw [List.length_replicate] at h1 h2
      rw [hact z h1]
      simp only [CSets.equality]
      rw [show (z.map fun _ => true) = List.replicate J.length true by simp [h1, h2], zipWith_replicate_left]
      rfl
    · intro z J h1 h2
      rw [List.length_replicate] at h1 h2
      rw [hact z h1]
      simp only [CSets.equality]
      rw [show (z.map fun _ => true) = List.replicate J.length true by simp [h1, h2], zipWith_replicate_left]
      simp
  | negativeOrthant n =>
    have hact : ∀ (z : Vec) (out : List Bool), z.length = n → orthantActive z out =
        List.zipWith (fun (k : Kind) a => k.flag a) (List.replicate n .orth) z := by
      intro z out hz
      rw [← hz, zipWith_replicate_left]; rfl
    refine ⟨?_, ?_, ?_, ?_, ?_⟩
    · intro z out h1 h2
      rw [List.length_replicate] at h1 h2
      rw [← h1, zipWith_replicate_left]
      simp only [CSets.negativeOrthant, Kind.cone]
      refine List.map_congr_left fun a _ => ?_
      rcases le_total a 0 with h | h
      · rw [min_eq_left h, max_eq_right h]; ring
      · rw [min_eq_right h, max_eq_left h]; ring
    · intro z out h1 h2
      rw [List.length_replicate] at h1 h2
      rw [← h1, zipWith_replicate_left]
      rfl
    · intro z out h1 h2
      rw [List.length_replicate] at h1 h2
      exact hact z out h1
    · intro z J h1 h2
      rw [List.length_replicate] at h1 h2
      simp only [CSets.negativeOrthant, defaultProjectionJacobian, hact z _ h1]
    · intro z J h1 h2
      rw [List.length_replicate] at h1 h2
      simp only [CSets.negativeOrthant, defaultNormalConeJacobian, hact z _ h1, not_if]
  | box lo up hl =>
    have hk : (List.zipWith Kind.box lo up).length = lo.length := by simp [hl]
    refine ⟨?_, ?_, ?_, ?_, ?_⟩
    · intro z out h1 _; exact boxKinds_proj hl (h1.trans hk)
    · intro z out h1 _; exact boxKinds_cone hl (h1.trans hk)
    · intro z out h1 _; exact boxKinds_active hl (h1.trans hk) out
    · intro z J h1 _
      simp only [CSets.box, defaultProjectionJacobian, boxKinds_active hl (h1.trans hk)]
    · intro z J h1 _
      simp only [CSets.box, defaultNormalConeJacobian, boxKinds_active hl (h1.trans hk), not_if]
  | l1 mu n =>
    have hact : ∀ (z : Vec) (out : List Bool), z.length = n → l1Active mu z out =
        List.zipWith (fun (k : Kind) a => k.flag a) (List.replicate n (.l1 mu)) z := by
      intro z out hz
      rw [← hz, zipWith_replicate_left]; rfl
    refine ⟨?_, ?_, ?_, ?_, ?_⟩
    · intro z out h1 h2
      rw [List.length_replicate] at h1 h2
      rw [← h1, zipWith_replicate_left]
      simp only [CSets.l1, l1Proj, Kind.cone, sub_sub_cancel]
    · intro z out h1 h2
      rw [List.length_replicate] at h1 h2
      rw [← h1, zipWith_replicate_left]
      simp only [CSets.l1]
      clear h1 h2
      induction z with
      | nil => rfl
      | cons a z ih =>
        simp only [l1Proj, List.map_cons, List.zipWith_cons_cons, List.cons.injEq] at ih ⊢
        exact ⟨rfl, ih⟩
    · intro z out h1 h2
      rw [List.length_replicate] at h1 h2
      exact hact z out h1
    · intro z J h1 h2
      rw [List.length_replicate] at h1 h2
      simp only [CSets.l1, defaultProjectionJacobian, hact z _ h1]
    · intro z J h1 h2
      rw [List.length_replicate] at h1 h2
      simp only [CSets.l1, defaultNormalConeJacobian, hact z _ h1, not_if]
  | product cs S _ hS ih =>
    unfold CSets.product at hS
    rw [if_neg (by simp)] at hS
    cases hS
    -- split the vectors into blocks
    have blocks : ∀ {β : Type} (z : Vec) (out : List β), z.length = (cs.map (·.2)).flatten.length →
        out.length = (cs.map (·.2)).flatten.length →
        ∃ bs : List ((CSet × List Kind) × Vec × List β), bs.map (·.1) = cs ∧
          z = (bs.map (·.2.1)).flatten ∧ out = (bs.map (·.2.2)).flatten ∧
          ∀ b ∈ bs, b.2.1.length = b.1.2.length ∧ b.2.2.length = b.1.2.length := by
      intro β z out hz ho
      clear ih
      induction cs generalizing z out with
      | nil => exact ⟨[], rfl, by simpa using hz, by simpa using ho, by simp⟩
      | cons c cs ih' =>
        simp only [List.map_cons, List.flatten_cons, List.length_append] at hz ho
        obtain ⟨bs, h1, h2, h3, h4⟩ := ih' (fun c hc => by rename_i h; exact h c (by simp [hc]))
          (z.drop c.2.length) (out.drop c.2.length) (by rw [List.length_drop]; omega) (by rw [List.length_drop]; omega)
        refine ⟨(c, z.take c.2.length, out.take c.2.length) :: bs, by simp [h1], by simp [← h2],
          by simp [← h3], ?_⟩
        intro b hb
        rcases List.mem_cons.1 hb with rfl | hb
        · simp; omega
        · exact h4 b hb
    have main : ∀ {β : Type} (f : CSet → Vec → List β → List β) (g : List Kind → Vec → List β → List β),
        (∀ (k k' : List Kind) (a a' : Vec) (o o' : List β), a.length = k.length → o.length = k.length →
          g (k ++ k') (a ++ a') (o ++ o') = g k a o ++ g k' a' o') → g [] [] [] = [] →
        (∀ c ∈ cs, ∀ (z : Vec) (o : List β), z.length = c.2.length → o.length = c.2.length →
          f c.1 z o = g c.2 z o ∧ (g c.2 z o).length = o.length) →
        ∀ (z : Vec) (out : List β), z.length = (cs.map (·.2)).flatten.length →
          out.length = (cs.map (·.2)).flatten.length →
          productLoop f (cs.map (·.2.length)) z 0 (cs.map (·.1)) out = g (cs.map (·.2)).flatten z out := by
      intro β f g happ hnil hf z out hz ho
      obtain ⟨bs, h1, h2, h3, h4⟩ := blocks z out hz ho
      have hfb : ∀ b ∈ bs, f b.1.1 b.2.1 b.2.2 = g b.1.2 b.2.1 b.2.2 ∧
          (g b.1.2 b.2.1 b.2.2).length = b.2.2.length := fun b hb =>
        hf _ (h1 ▸ List.mem_map.2 ⟨b, hb, rfl⟩) _ _ (h4 b hb).1 (h4 b hb).2
      have := C38_blockwise f (bs.map fun b => (⟨b.1.1, b.2.1, b.2.2⟩ : Blk β)) (by
        intro b hb
        obtain ⟨b, hb', rfl⟩ := List.mem_map.1 hb
        obtain ⟨l1, l2⟩ := h4 b hb'
        obtain ⟨l3, l4⟩ := hfb b hb'
        exact ⟨by simp [l1, l2], by simp [l3, l4]⟩)
      simp only [List.map_map, Function.comp_def] at this
      have e1 : bs.map (fun b => b.2.1.length) = cs.map (·.2.length) := by
        rw [← h1, List.map_map]
        exact List.map_congr_left fun b hb => (h4 b hb).1
      have e2 : bs.map (fun b => b.1.1) = cs.map (·.1) := by rw [← h1, List.map_map]; rfl
      have e3 : cs.map (·.2) = bs.map (·.1.2) := by rw [← h1, List.map_map]; rfl
      rw [e1, e2, ← h2, ← h3] at this
      rw [this, e3, h2, h3]
      clear this e1 e2 e3 h1 h2 h3 hz ho hf blocks
      induction bs with
      | nil => simpa using hnil.symm
      | cons b bs ih' =>
        obtain ⟨l1, l2⟩ := h4 b (by simp)
        simp only [List.map_cons, List.flatten_cons]
        rw [happ _ _ _ _ _ _ l1 l2, (hfb b (by simp)).1,
          ih' (fun b hb => h4 b (by simp [hb])) fun b hb => hfb b (by simp [hb])]
    refine ⟨?_, ?_, ?_, ?_, ?_⟩
    · exact main CSet.projection (fun ks z _ => List.zipWith (fun k a => a - k.cone a) ks z)
        (fun k k' a a' o o' h _ => by rw [List.zipWith_append h.symm]) rfl
        (fun c hc z o h1 h2 => ⟨(ih c hc).projection z o h1 h2, by simp [h1, h2]⟩)
    · exact main CSet.normalConeProjection (fun ks z _ => List.zipWith (fun k a => k.cone a) ks z)
        (fun k k' a a' o o' h _ => by rw [List.zipWith_append h.symm]) rfl
        (fun c hc z o h1 h2 => ⟨(ih c hc).cone z o h1 h2, by simp [h1, h2]⟩)
    · exact main CSet.computeActiveSet (fun ks z _ => List.zipWith (fun k a => k.flag a) ks z)
        (fun k k' a a' o o' h _ => by rw [List.zipWith_append h.symm]) rfl
        (fun c hc z o h1 h2 => ⟨(ih c hc).active z o h1 h2, by simp [h1, h2]⟩)
    · exact main CSet.applyProjectionJacobian (fun ks z J => List.zipWith (fun b row => if b then zeroRow row else row)
          (List.zipWith (fun k a => k.flag a) ks z) J)
        (fun k k' a a' o o' h h' => by
          rw [List.zipWith_append h.symm, List.zipWith_append (by simp [h, h'])]) rfl
        (fun c hc z o h1 h2 => ⟨(ih c hc).projJac z o h1 h2, by simp [h1, h2]⟩)
    · exact main CSet.applyNormalConeProjectionJacobian
        (fun ks z J => List.zipWith (fun b row => if b then row else zeroRow row)
          (List.zipWith (fun k a => k.flag a) ks z) J)
        (fun k k' a a' o o' h h' => by
          rw [List.zipWith_append h.symm, List.zipWith_append (by simp [h, h'])]) rfl
        (fun c hc z o h1 h2 => ⟨(ih c hc).coneJac z o h1 h2, by simp [h1, h2]⟩)

/-! Derivatives of the coordinate maps -/

theorem slope_unique {f : ℝ → ℝ} {d a c e : ℝ} {s : Set ℝ} (h : HasDerivAt f d a)
    (hs : UniqueDiffWithinAt ℝ s a) (ha : a ∈ s) (hf : ∀ x ∈ s, f x = c * x + e) : d = c := by
  have h1 : HasDerivWithinAt f d s a := h.hasDerivWithinAt
  have h2 : HasDerivWithinAt (fun x => c * x + e) c s a := by
    simpa using (((hasDerivAt_id a).const_mul c).add_const e).hasDerivWithinAt
  exact hs.eq_deriv s h1 (h2.congr hf (hf a ha))

theorem slope_local {f : ℝ → ℝ} {a c e : ℝ} {s : Set ℝ} (hs : s ∈ nhds a)
    (hf : ∀ x ∈ s, f x = c * x + e) : HasDerivAt f c a := by
  have h2 : HasDerivAt (fun x => c * x + e) c a := by
    simpa using ((hasDerivAt_id a).const_mul c).add_const e
  exact h2.congr_of_eventuallyEq (Filter.eventually_of_mem hs hf)

/-- Around every point of a regular kind there is a closed interval where the coordinate map is affine with
the slope announced by the flag. -/
theorem Kind.region (k : Kind) (hk : k.Regular) (a : ℝ) :
    ∃ (s : Set ℝ) (e : ℝ), UniqueDiffWithinAt ℝ s a ∧ a ∈ s ∧ (¬ k.kink a → s ∈ nhds a) ∧
      ∀ x ∈ s, k.cone x = (if k.flag a then 1 else 0) * x + e := by
  cases k with
  | eq => exact ⟨Set.univ, 0, uniqueDiffWithinAt_univ, trivial, fun _ => Filter.univ_mem, fun x _ => by
      simp [Kind.cone, Kind.flag]⟩
  | orth =>
    rcases lt_or_ge 0 a with h | h
    · refine ⟨Set.Ioi 0, 0, isOpen_Ioi.uniqueDiffWithinAt h, h, fun _ => Ioi_mem_nhds h, fun x hx => ?_⟩
      have hx' : (0 : ℝ) < x := hx
      simp [Kind.cone, Kind.flag, h, hx'.le]
    · refine ⟨Set.Iic 0, 0, uniqueDiffOn_Iic 0 a h, h, fun hn => Iic_mem_nhds (lt_of_le_of_ne h hn), fun x hx => ?_⟩
      have hx' : x ≤ 0 := hx
      simp [Kind.cone, Kind.flag, not_lt.2 h, hx']
  | box l u =>
    have hlu : l < u := hk
    rcases lt_or_ge u a with h | h
    · refine ⟨Set.Ioi u, -u, isOpen_Ioi.uniqueDiffWithinAt h, h, fun _ => Ioi_mem_nhds h, fun x hx => ?_⟩
      have hx' : u < x := hx
      simp only [Kind.cone, Kind.flag]
      rw [min_eq_right hx'.le, max_eq_left hlu.le]
      simp [h]; ring
    · rcases lt_or_ge a l with h' | h'
      · refine ⟨Set.Iio l, -l, isOpen_Iio.uniqueDiffWithinAt h', h', fun _ => Iio_mem_nhds h', fun x hx => ?_⟩
        have hx' : x < l := hx
        simp only [Kind.cone, Kind.flag]
        rw [min_eq_left (by linarith), max_eq_right hx'.le]
        simp [h']; ring
      · refine ⟨Set.Icc l u, 0, uniqueDiffOn_Icc hlu a ⟨h', h⟩, ⟨h', h⟩, fun hn => ?_, fun x hx => ?_⟩
        · simp only [Kind.kink, not_or] at hn
          exact Icc_mem_nhds (lt_of_le_of_ne h' (Ne.symm hn.1)) (lt_of_le_of_ne h hn.2)
        · simp only [Kind.cone, Kind.flag]
          rw [min_eq_left hx.2, max_eq_left hx.1]
          simp [not_lt.2 h, not_lt.2 h']
  | l1 mu =>
    have hmu : 0 < mu := hk
    rcases le_or_gt |a| mu with h | h
    · obtain ⟨h1, h2⟩ := abs_le.1 h
      refine ⟨Set.Icc (-mu) mu, 0, uniqueDiffOn_Icc (by linarith) a ⟨h1, h2⟩, ⟨h1, h2⟩, fun hn => ?_, fun x hx => ?_⟩
      · simp only [Kind.kink, not_or] at hn
        exact Icc_mem_nhds (lt_of_le_of_ne h1 (Ne.symm hn.2)) (lt_of_le_of_ne h2 hn.1)
      · simp only [Kind.cone, Kind.flag]
        rw [max_eq_right (by linarith [abs_le.2 hx])]
        simp [h]
    · rcases lt_or_ge a 0 with ha | ha
      · rw [abs_of_neg ha] at h
        refine ⟨Set.Iio (-mu), -mu, isOpen_Iio.uniqueDiffWithinAt (by show a < -mu; linarith),
          by show a < -mu; linarith, fun _ => Iio_mem_nhds (by linarith), fun x hx => ?_⟩
        have hx' : x < -mu := hx
        simp only [Kind.cone, Kind.flag]
        rw [Real.sign_of_neg (by linarith), abs_of_neg (by linarith : x < 0), max_eq_left (by linarith)]
        simp only [abs_of_neg ha, not_le.2 h, decide_false]
        simp
      · rw [abs_of_nonneg ha] at h
        refine ⟨Set.Ioi mu, mu, isOpen_Ioi.uniqueDiffWithinAt h, h, fun _ => Ioi_mem_nhds h, fun x hx => ?_⟩
        have hx' : mu < x := hx
        simp only [Kind.cone, Kind.flag]
        rw [Real.sign_of_pos (by linarith), abs_of_pos (by linarith : 0 < x), max_eq_left (by linarith)]
        simp only [abs_of_nonneg ha, not_le.2 h, decide_false]
        simp

theorem Kind.deriv_flag (k : Kind) (hk : k.Regular) (a d : ℝ) (h : HasDerivAt k.cone d a) :
    d = if k.flag a then 1 else 0 := by
  obtain ⟨s, e, h1, h2, -, h4⟩ := k.region hk a
  exact slope_unique h h1 h2 h4

theorem Kind.differentiable (k : Kind) (hk : k.Regular) (a : ℝ) (hn : ¬ k.kink a) :
    HasDerivAt k.cone (if k.flag a then 1 else 0) a := by
  obtain ⟨s, e, -, -, h3, h4⟩ := k.region hk a
  exact slope_local (h3 hn) h4

theorem getD_get {α : Type*} (l : List α) (i : ℕ) (d : α) (h : i < l.length) : l.getD i d = l[i] := by
  simp [List.getD, h]

theorem getD_zipWith_kind {α : Type*} (f : Kind → ℝ → α) (ks : List Kind) (z : Vec) (i : ℕ) (dflt : α)
    (h : z.length = ks.length) (hi : i < z.length) :
    (List.zipWith f ks z).getD i dflt = f (ks[i]'(h ▸ hi)) z[i] := by
  rw [getD_get (List.zipWith f ks z) i dflt (by simp; omega), List.getElem_zipWith]

/-- The partial derivative of the `i`-th entry of the vector function `F` with respect to the `j`-th variable. -/
def HasPartial (F : Vec → Vec) (i j : ℕ) (d : ℝ) (z : Vec) : Prop :=
  HasDerivAt (fun t => (F (z.set j t)).getD i 0) d (z.getD j 0)

theorem HasPartial.cone_iff {S : CSet} {ks : List Kind} (hS : HasKinds S ks) {z out : Vec}
    (hz : z.length = ks.length) (ho : out.length = ks.length) {i : ℕ} (hi : i < z.length) (d : ℝ) :
    HasPartial (fun z => S.normalConeProjection z out) i i d z ↔
      HasDerivAt (ks[i]'(hz ▸ hi)).cone d z[i] := by
  have e : (fun t => (S.normalConeProjection (z.set i t) out).getD i 0) = (ks[i]'(hz ▸ hi)).cone := by
    funext t
    rw [hS.cone _ _ (by simpa using hz) ho,
      getD_zipWith_kind (fun k a => k.cone a) ks (z.set i t) i 0 (by simpa using hz) (by simpa using hi)]
    simp
  unfold HasPartial
  simp only [e]
  rw [getD_get z i 0 hi]

/-- **C37** The Jacobian products implement the derivative of the complementary (normal-cone) projection, row
by row.  For a set built from the library with proper bounds, if the `i`-th entry of the projection is
differentiable along its own coordinate with derivative `d`, then row `i` of the argument is multiplied by
`d`, row `i` of the complementary product by `1 - d`, `d` is 0 or 1, and the active-set flag says which. -/
theorem C37_flags_and_rows_partial {S : CSet} {ks : List Kind} (h : Library S ks) (hr : ∀ k ∈ ks, k.Regular)
    (z out : Vec) (outA : List Bool) (J : List Vec) (hz : z.length = ks.length)
    (ho : out.length = ks.length) (hA : outA.length = ks.length) (hJ : J.length = ks.length)
    (i : ℕ) (hi : i < z.length) (d : ℝ)
    (hd : HasPartial (fun z => S.normalConeProjection z out) i i d z) :
    (d = 0 ∨ d = 1) ∧ ((S.computeActiveSet z outA).getD i false = true ↔ d = 1) ∧
    (S.applyNormalConeProjectionJacobian z J).getD i [] = (J.getD i []).map (d * ·) ∧
    (S.applyProjectionJacobian z J).getD i [] = (J.getD i []).map ((1 - d) * ·) := by
  have hS := h.hasKinds
  have hd' := (HasPartial.cone_iff hS hz ho hi d).1 hd
  have hik : i < ks.length := hz ▸ hi
  have e := (ks[i]).deriv_flag (hr _ (List.getElem_mem hik)) _ _ hd'
  have iJ : i < J.length := by omega
  rw [hS.active z outA hz hA, hS.coneJac z J hz hJ, hS.projJac z J hz hJ,
    getD_zipWith_kind (fun k a => k.flag a) ks z i false hz hi]
  rw [getD_get (List.zipWith _ _ J) i [] (by simp; omega),
    getD_get (List.zipWith _ _ J) i [] (by simp; omega), getD_get J i [] iJ]
  simp only [List.getElem_zipWith]
  rw [e]
  cases (ks[i]).flag z[i] <;> simp [zeroRow]

/-- **C37** The projection itself has the complementary derivative, and the rows of its Jacobian product are the
rows of the argument times that derivative. -/
theorem C37_projection_rows_partial {S : CSet} {ks : List Kind} (h : Library S ks) (hr : ∀ k ∈ ks, k.Regular)
    (z out : Vec) (J : List Vec) (hz : z.length = ks.length) (ho : out.length = ks.length)
    (hJ : J.length = ks.length) (i : ℕ) (hi : i < z.length) (d : ℝ)
    (hd : HasPartial (fun z => S.projection z out) i i d z) :
    (S.applyProjectionJacobian z J).getD i [] = (J.getD i []).map (d * ·) := by
  have hS := h.hasKinds
  have hc : HasPartial (fun z => S.normalConeProjection z out) i i (1 - d) z := by
    have e : (fun t => (S.normalConeProjection (z.set i t) out).getD i 0) =
        fun t => t - (S.projection (z.set i t) out).getD i 0 := by
      funext t
      rw [hS.cone _ _ (by simpa using hz) ho, hS.projection _ _ (by simpa using hz) ho,
        getD_zipWith_kind (fun k a => k.cone a) ks (z.set i t) i 0 (by simpa using hz) (by simpa using hi),
        getD_zipWith_kind (fun k a => a - k.cone a) ks (z.set i t) i 0 (by simpa using hz) (by simpa using hi)]
      simp
    unfold HasPartial at hd ⊢
    simp only [e]
    exact (hasDerivAt_id _).sub hd
  have := (C37_flags_and_rows_partial h hr z out (List.replicate ks.length false) J hz ho (by simp) hJ i hi _ hc).2.2.2
  simpa using this

/-- **C37** Off the boundary points the derivative exists, so the two theorems above apply; and the entries of
the projections do not depend on the other coordinates, so the diagonal is the whole Jacobian. -/
theorem C37_differentiable {S : CSet} {ks : List Kind} (h : Library S ks) (hr : ∀ k ∈ ks, k.Regular)
    (z out : Vec) (hz : z.length = ks.length) (ho : out.length = ks.length) (i : ℕ) (hi : i < z.length)
    (hn : ¬ (ks[i]'(hz ▸ hi)).kink z[i]) :
    (∃ d, HasPartial (fun z => S.normalConeProjection z out) i i d z) ∧
    ∀ j, j ≠ i → ∀ t, (S.normalConeProjection (z.set j t) out).getD i 0 =
      (S.normalConeProjection z out).getD i 0 := by
  have hS := h.hasKinds
  refine ⟨⟨_, (HasPartial.cone_iff hS hz ho hi _).2
    ((ks[i]).differentiable (hr _ (List.getElem_mem _)) _ hn)⟩, fun j hj t => ?_⟩
  rw [hS.cone _ _ (by simpa using hz) ho, hS.cone _ _ hz ho,
    getD_zipWith_kind (fun k a => k.cone a) ks (z.set j t) i 0 (by simpa using hz) (by simpa using hi),
    getD_zipWith_kind (fun k a => k.cone a) ks z i 0 hz hi, List.getElem_set_ne hj]

/-- **C37** Whatever the point, boundary points included: the two Jacobian products add up to the argument, and
the rows kept by the normal-cone product are exactly the rows flagged active. -/
theorem C37_split {S : CSet} {ks : List Kind} (h : Library S ks) (z : Vec) (outA : List Bool) (J : List Vec)
    (hz : z.length = ks.length) (hA : outA.length = ks.length) (hJ : J.length = ks.length) :
    List.zipWith (List.zipWith (· + ·)) (S.applyProjectionJacobian z J)
      (S.applyNormalConeProjectionJacobian z J) = J ∧
    S.applyNormalConeProjectionJacobian z J = List.zipWith (fun b row => if b = true then row else row.map fun _ => 0)
      (S.computeActiveSet z outA) J := by
  have hS := h.hasKinds
  rw [hS.active z outA hz hA, hS.coneJac z J hz hJ, hS.projJac z J hz hJ]
  refine ⟨?_, rfl⟩
  have hl : (List.zipWith (fun (k : Kind) a => k.flag a) ks z).length = J.length := by simp; omega
  generalize List.zipWith (fun (k : Kind) a => k.flag a) ks z = fl at hl
  have r1 : ∀ r : Vec, List.zipWith (· + ·) r (zeroRow r) = r := by
    intro r
    induction r with
    | nil => rfl
    | cons a r ih => simpa [zeroRow] using ih
  have r2 : ∀ r : Vec, List.zipWith (· + ·) (zeroRow r) r = r := by
    intro r
    induction r with
    | nil => rfl
    | cons a r ih => simpa [zeroRow] using ih
  clear hJ
  induction fl generalizing J with
  | nil => cases J <;> simp_all
  | cons b fl ih =>
    cases J with
    | nil => simp at hl
    | cons r J =>
      simp only [List.zipWith_cons_cons, List.cons.injEq]
      refine ⟨?_, ih J (by simpa using hl)⟩
      cases b
      · exact r1 r
      · exact r2 r

/-- **C37** fails for a box with an empty interior: at the point itself the flag is off and the Jacobian row is
dropped, although the complementary projection `z - proj z` has derivative 1. -/
theorem C37_degenerate_box_misflagged (l x : ℝ) :
    HasPartial (fun z => (box [l] [l]).normalConeProjection z [0]) 0 0 1 [l] ∧
    (box [l] [l]).computeActiveSet [l] [true] = [false] ∧
    (box [l] [l]).applyNormalConeProjectionJacobian [l] [[x]] = [[0]] := by
  refine ⟨?_, by simp [box, boxActive], by simp [box, defaultNormalConeJacobian, boxActive, zeroRow]⟩
  have e : (fun t : ℝ => ((box [l] [l]).normalConeProjection (List.set [l] 0 t) [0]).getD 0 0) = fun t => t - l := by
    funext t
    simp only [box, boxProj, List.set_cons_zero, List.zipWith_cons_cons, List.zipWith_nil_left,
      List.getD_cons_zero]
    rcases le_total t l with h | h
    · rw [min_eq_left h, max_eq_right h]
    · rw [min_eq_right h, max_self]
  unfold HasPartial
  simp only [e]
  exact (hasDerivAt_id _).sub_const l

/-- **C37** fails for the l1 penalty with the default parameter 0: at zero the flag is on and the row is kept,
although the complementary projection is constant. -/
theorem C37_default_l1_misflagged (x : ℝ) :
    HasPartial (fun z => (l1 0).normalConeProjection z [0]) 0 0 0 [0] ∧
    (l1 0).computeActiveSet [0] [false] = [true] ∧
    (l1 0).applyNormalConeProjectionJacobian [0] [[x]] = [[x]] := by
  refine ⟨?_, by simp [l1, l1Active], by simp [l1, defaultNormalConeJacobian, l1Active, zeroRow]⟩
  have e : (fun t : ℝ => ((l1 0).normalConeProjection (List.set [0] 0 t) [0]).getD 0 0) = fun _ => 0 := by
    funext t
    rw [(C36_unset_parameter _ _).2]; simp
  unfold HasPartial
  simp only [e]
  exact hasDerivAt_const _ _

/-- A product of all four kinds is covered, and its hypotheses hold off the boundary. -/
example : ∃ S, product [equality, box [-1] [1], negativeOrthant, l1 2] [1, 1, 1, 1] = some S ∧
    Library S [.eq, .box (-1) 1, .orth, .l1 2] ∧ (∀ k ∈ [Kind.eq, .box (-1) 1, .orth, .l1 2], k.Regular) :=
  ⟨_, rfl, .product [(equality, [.eq]), (box [-1] [1], [.box (-1) 1]), (negativeOrthant, [.orth]), (l1 2, [.l1 2])] _
    (by
      intro c hc
      simp only [List.mem_cons, List.not_mem_nil, or_false] at hc
      rcases hc with rfl | rfl | rfl | rfl
      · exact .equality 1
      · exact .box [-1] [1] rfl
      · exact .negativeOrthant 1
      · exact .l1 2 1) rfl, by simp [Kind.Regular]⟩

/-! ### C26 -/

theorem sub_eq_zero_list {a b : Vec} (h : a.length = b.length) : (∀ x ∈ sub a b, x = 0) ↔ a = b := by
  refine ind2 (P := fun a b => (∀ x ∈ sub a b, x = 0) ↔ a = b) (by simp [sub]) ?_ h
  intro x y l m _ ih
  simp only [sub_cons, List.forall_mem_cons, List.cons.injEq, ih, sub_eq_zero]

theorem dot_map_left (c : ℝ) {a b : Vec} (h : a.length = b.length) : dot (a.map (c * ·)) b = c * dot a b := by
  refine ind2 (P := fun a b => dot (a.map (c * ·)) b = c * dot a b) (by simp) ?_ h
  intro x y l m _ ih
  simp only [List.map_cons, dot_cons, ih]; ring

theorem map_inv_mul (mu : ℝ) (hmu : mu ≠ 0) (p : Vec) : (p.map (1 / mu * ·)).map (mu * ·) = p := by
  rw [List.map_map]
  conv_rhs => rw [← List.map_id p]
  refine List.map_congr_left fun a _ => ?_
  simp only [Function.comp, id]
  field_simp

theorem sub_shift (mu : ℝ) {c v p : Vec} (h1 : c.length = v.length) (h2 : v.length = p.length) :
    sub (sub (List.zipWith (· + ·) c (v.map (mu * ·))) p) (v.map (mu * ·)) = sub c p := by
  refine ind3 (P := fun c v p => sub (sub (List.zipWith (· + ·) c (v.map (mu * ·))) p) (v.map (mu * ·)) = sub c p)
    rfl ?_ h1 h2
  intro x y w l m k _ _ ih
  simp only [List.map_cons, List.zipWith_cons_cons, sub_cons, ih]
  congr 1; ring

theorem shift_sub (mu : ℝ) {c v : Vec} (h1 : c.length = v.length) :
    sub (List.zipWith (· + ·) c (v.map (mu * ·))) c = v.map (mu * ·) := by
  refine ind2 (P := fun c v => sub (List.zipWith (· + ·) c (v.map (mu * ·))) c = v.map (mu * ·)) rfl ?_ h1
  intro x y l m _ ih
  simp only [List.map_cons, List.zipWith_cons_cons, sub_cons, ih]
  congr 1; ring

theorem map_sub (mu : ℝ) {a b : Vec} (h1 : a.length = b.length) :
    (List.zipWith (· - ·) a b).map (mu * ·) = sub (a.map (mu * ·)) (b.map (mu * ·)) := by
  refine ind2 (P := fun a b => (List.zipWith (· - ·) a b).map (mu * ·) = sub (a.map (mu * ·)) (b.map (mu * ·)))
    rfl ?_ h1
  intro x y l m _ ih
  simp only [List.map_cons, List.zipWith_cons_cons, sub_cons, ih]
  congr 1; ring

/-- **C26** The multiplier update, for any set the library projects onto (`C35_projections`), any positive
penalty, constraint value, previous estimate and current multiplier.  With `p` the Euclidean projection of
the shifted value `c + mu v_prev` on the set:
`mu v⁺ = c + mu v_prev - p` and `v⁺` is in the normal cone to the set at `p`;
the recorded infeasibility is exactly `c - p`;
it vanishes if and only if `c` is feasible and `v_prev` is a valid multiplier at `c` (feasibility together with
complementarity);
the multiplier residual vanishes if and only if the multiplier equals the new estimate. -/
theorem C26_multiplier_update {S : CSet} {C : Vec → Prop} {n : ℕ} (h : ProjectsOnto S C n) (mu : ℝ)
    (hmu : 0 < mu) (c vPrev v out : Vec) (outA : List Bool) (hc : c.length = n) (hp : vPrev.length = n)
    (hv : v.length = n) (ho : out.length = n) :
    let r := multiplierStep S mu c vPrev v out outA
    ∃ p : Vec, p.length = n ∧ C p ∧
      (∀ w : Vec, w.length = n → C w → dist2 (List.zipWith (· + ·) c (vPrev.map (mu * ·))) p ≤
        dist2 (List.zipWith (· + ·) c (vPrev.map (mu * ·))) w) ∧
      r.vsPlus.map (mu * ·) = sub (List.zipWith (· + ·) c (vPrev.map (mu * ·))) p ∧
      InNormalCone C n p r.vsPlus ∧
      r.infeas = sub c p ∧
      ((∀ x ∈ r.infeas, x = 0) ↔ C c ∧ InNormalCone C n c vPrev) ∧
      ((∀ x ∈ r.Lvs, x = 0) ↔ v = r.vsPlus) := by
  intro r
  set s := List.zipWith (· + ·) c (vPrev.map (mu * ·)) with hs
  have ls : s.length = n := by simp [hs, hc, hp]
  have lp := h.length s out ls ho
  set p := S.projection s out with hpdef
  have eN : S.normalConeProjection s out = sub s p := h.cone s out out ls ho ho
  have lN : (sub s p).length = n := by rw [sub_length (by omega)]; omega
  have ev : r.vsPlus = (sub s p).map (1 / mu * ·) := by
    show (S.normalConeProjection s out).map (1 / mu * ·) = _
    rw [eN]
  have evm : r.vsPlus.map (mu * ·) = sub s p := by rw [ev, map_inv_mul mu hmu.ne']
  have ei : r.infeas = sub c p := by
    have e0 : r.infeas = (List.zipWith (· - ·) r.vsPlus vPrev).map (mu * ·) := rfl
    rw [e0, map_sub mu (by rw [ev, List.length_map, lN, hp]), evm]
    exact sub_shift mu (by omega) (by omega)
  have eL : r.Lvs = sub (sub s p) (v.map (mu * ·)) := by
    have e0 : r.Lvs = List.zipWith (· - ·) (S.normalConeProjection s out) (v.map (mu * ·)) := rfl
    rw [e0, eN]; rfl
  have nrm : ∀ w : Vec, w.length = n → C w → dot (sub s p) (sub w p) ≤ 0 := fun w hw hCw =>
    h.normal s out w ls ho hw hCw
  refine ⟨p, lp, h.mem s out ls ho, fun w hw hCw => h.closest ls ho hw hCw, evm, ⟨h.mem s out ls ho, ?_⟩, ei, ?_, ?_⟩
  · intro w hw hCw
    rw [ev, dot_map_left _ (by rw [lN, sub_length (by omega)]; omega)]
    exact mul_nonpos_of_nonneg_of_nonpos (by positivity) (nrm w hw hCw)
  · rw [ei, sub_eq_zero_list (by omega)]
    constructor
    · intro e
      have hC : C c := e ▸ h.mem s out ls ho
      refine ⟨hC, hC, fun w hw hCw => ?_⟩
      have h1 := nrm w hw hCw
      rw [← e, hs, shift_sub mu (by omega), dot_map_left _ (by rw [sub_length (by omega)]; omega)] at h1
      by_contra h2
      rw [not_le] at h2
      linarith [mul_pos hmu h2]
    · rintro ⟨hC, -, hcone⟩
      refine h.unique ls ho hc hC ?_
      have e := dist2_expand (z := s) (p := c) (w := p) (by omega) (by omega)
      have h1 := hcone p lp (h.mem s out ls ho)
      have h2 : dot (sub s c) (sub p c) ≤ 0 := by
        rw [hs, shift_sub mu (by omega), dot_map_left _ (by rw [sub_length (by omega)]; omega)]
        exact mul_nonpos_of_nonneg_of_nonpos hmu.le h1
      have h3 : 0 ≤ dist2 p c := dot_self_nonneg _
      linarith
  · rw [eL, sub_eq_zero_list (by rw [lN, List.length_map, hv])]
    constructor
    · intro e
      rw [ev, e, List.map_map]
      conv_lhs => rw [← List.map_id v]
      refine List.map_congr_left fun a _ => ?_
      simp only [Function.comp, id]
      field_simp
    · intro e
      rw [e, evm]

/-- A mixed stack (an equality and two inequalities) meets the hypotheses of `C26_multiplier_update`. -/
example : ∃ S C, product [equality, negativeOrthant] [1, 2] = some S ∧ ProjectsOnto S C 3 ∧
    (multiplierStep S 2 [1, -1, 3] [0, 1, 0] [0, 0, 0] [0, 0, 0] []).vsPlus = [1 / 2, 1 / 2, 3 / 2] := by
  refine ⟨_, _, rfl, (LibrarySet.product [(equality, Spec.Zero, 1), (negativeOrthant, Nonpos, 2)] _ ?_ rfl).projects, ?_⟩
  · intro c hc
    simp only [List.mem_cons, List.not_mem_nil, or_false] at hc
    rcases hc with rfl | rfl
    · exact .equality 1
    · exact .negativeOrthant 2
  · norm_num [multiplierStep, productLoop, blockStart, seg, writeSeg, equality, negativeOrthant]

end Aligator.CSets
