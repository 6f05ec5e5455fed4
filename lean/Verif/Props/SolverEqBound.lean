import Verif.Props.SolverEqWit
import Mathlib.LinearAlgebra.Basis.VectorSpace

/-!
# The error bound of C77 from uniqueness
-/

namespace Aligator.Link

open Matrix CSets Lag LQ

variable {nx nu : ℕ → ℕ} {N : ℕ}

/-- A linear relation in which zero is related to zero only is bounded. -/
theorem rel_bound {I J : Type} [Fintype I] [Fintype J] [DecidableEq I] (R : Submodule ℝ ((I → ℝ) × (J → ℝ)))
    (h : ∀ g, ((0 : I → ℝ), g) ∈ R → g = 0) : ∃ K : ℝ, 0 ≤ K ∧ ∀ r g, (r, g) ∈ R → ∑ j, g j ^ 2 ≤ K * ∑ i, r i ^ 2 := by
  let f : R →ₗ[ℝ] (I → ℝ) := (LinearMap.fst ℝ (I → ℝ) (J → ℝ)).comp R.subtype
  have hf : LinearMap.ker f = ⊥ := by
    rw [LinearMap.ker_eq_bot']
    rintro ⟨⟨r, g⟩, hm⟩ h0
    have h0' : r = 0 := h0
    subst h0'
    have := h g hm
    subst this
    rfl
  obtain ⟨L, hL⟩ := f.exists_leftInverse_of_injective hf
  let T : (I → ℝ) →ₗ[ℝ] (J → ℝ) := ((LinearMap.snd ℝ (I → ℝ) (J → ℝ)).comp R.subtype).comp L
  have hT : ∀ r g, (r, g) ∈ R → T r = g := by
    intro r g hm
    have h1 := LinearMap.congr_fun hL ⟨(r, g), hm⟩
    have h2 : L r = ⟨(r, g), hm⟩ := h1
    show (L r).1.2 = g
    rw [h2]
  refine ⟨∑ j, ∑ i, (T (Pi.single i 1) j) ^ 2, Finset.sum_nonneg fun _ _ => Finset.sum_nonneg fun _ _ => sq_nonneg _, fun r g hm => ?_⟩
  rw [← hT r g hm, Finset.sum_mul]
  refine Finset.sum_le_sum fun j _ => ?_
  have e : T r j = ∑ i, T (Pi.single i 1) j * r i := by
    have := LinearMap.pi_apply_eq_sum_univ T r
    rw [this, Finset.sum_apply]
    refine Finset.sum_congr rfl fun i _ => ?_
    rw [Pi.smul_apply, smul_eq_mul, mul_comm]
    rw [show (fun j => if i = j then (1 : ℝ) else 0) = Pi.single i 1 from
      funext fun k => (if_congr eq_comm rfl rfl).trans (Pi.single_apply i (1 : ℝ) k).symm]
  rw [e]
  exact Finset.sum_mul_sq_le_sq_mul_sq _ _ _

/-- The bilinear form of the Hessians. -/
def bil (H : Hess nx nu N) (ex : ∀ i, Fin (nx i) → ℝ) (eu : ∀ i, Fin (nu i) → ℝ) (dx : ∀ i, Fin (nx i) → ℝ)
    (du : ∀ i, Fin (nu i) → ℝ) : ℝ :=
  (∑ i ∈ Finset.range N, (dx i ⬝ᵥ (H.Lxx i *ᵥ ex i + H.Lxu i *ᵥ eu i) + du i ⬝ᵥ ((H.Lxu i)ᵀ *ᵥ ex i + H.Luu i *ᵥ eu i))) +
    dx N ⬝ᵥ (H.termLxx *ᵥ ex N)

theorem costSlope_bil {P : Prob nx nu N} {H : Hess nx nu N} (hL : Spec.IsLQE P H) (x ex dx : ∀ i, Fin (nx i) → ℝ)
    (u eu du : ∀ i, Fin (nu i) → ℝ) :
    costSlope P (fun i => x i + ex i) (fun i => u i + eu i) dx du = costSlope P x u dx du + bil H ex eu dx du := by
  unfold costSlope bil
  have h1 := hL.free.lx
  have h2 := hL.free.lu
  have h3 := hL.free.lNx
  dsimp only at h1 h2 h3
  simp only [h1, h2, h3, dotProduct_add, Finset.sum_add_distrib]
  ring

/-- The multiplier part of the derivative of the Lagrangian. -/
def mpart (P : Prob nx nu N) (y : ∀ i, Fin (nx i) → ℝ) (w : ∀ i, Fin (nu i) → ℝ) (l0 : Fin P.nc0 → ℝ)
    (l : ∀ i, Fin (nx (i + 1)) → ℝ) (ev : ℕ → ℕ → ℝ) (dx : ∀ i, Fin (nx i) → ℝ) (du : ∀ i, Fin (nu i) → ℝ) : ℝ :=
  l0 ⬝ᵥ P.hx (y 0) *ᵥ dx 0 +
      (∑ i ∈ Finset.range N, l i ⬝ᵥ (P.fx i (y i) (w i) *ᵥ dx i + P.fu i (y i) (w i) *ᵥ du i - dx (i + 1))) +
      ∑ i ∈ Finset.range (N + 1), ∑ k ∈ Finset.range (P.nc i), ev i k * (cdir P y w dx du i).getD k 0

/-- The derivative of the Lagrangian at two points. -/
theorem pair_diff {P : Prob nx nu N} {H : Hess nx nu N} (hL : Spec.IsLQE P H) (y ex dx : ∀ i, Fin (nx i) → ℝ)
    (w eu du : ∀ i, Fin (nu i) → ℝ) (l l' : Lams nx P.nc0) (v v' : ℕ → List ℝ) (hv : Shape P v) (hv' : Shape P v') :
    pair (compute (pdata (P.spec (fun i => y i + ex i) (fun i => w i + eu i))) (some l) v) N dx du =
      pair (compute (pdata (P.spec y w)) (some l') v') N dx du + bil H ex eu dx du +
        mpart P y w (l.init - l'.init) (fun i => l.dyn i - l'.dyn i) (fun i k => (v i).getD k 0 - (v' i).getD k 0) dx du := by
  have e1 := pair_spec P (fun i => y i + ex i) (fun i => w i + eu i) l v hv dx du
  have e2 := pair_spec P y w l' v' hv' dx du
  rw [e1, e2, costSlope_bil hL, cdir_congr hL y (fun i => y i + ex i) dx w (fun i => w i + eu i) du]
  have h1 : P.hx (y 0 + ex 0) = P.hx (y 0) := hL.free.hx _ _
  have h2 : ∀ i, P.fx i (y i + ex i) (w i + eu i) = P.fx i (y i) (w i) := fun i => hL.free.fx i _ _ _ _
  have h3 : ∀ i, P.fu i (y i + ex i) (w i + eu i) = P.fu i (y i) (w i) := fun i => hL.free.fu i _ _ _ _
  unfold mpart
  simp only [h1, h2, h3, sub_dotProduct, sub_mul, Finset.sum_sub_distrib]
  ring

/-- The linearised first-order conditions: residuals `c`, `rx`, `ru` of an error `ex`, `eu`, `ev`. -/
def LinRel (P : Prob nx nu N) (H : Hess nx nu N) (fixed : Prop) (y : ∀ i, Fin (nx i) → ℝ) (w : ∀ i, Fin (nu i) → ℝ)
    (c : ℕ → ℕ → ℝ) (rx : ∀ i, Fin (nx i) → ℝ) (ru : ∀ i, Fin (nu i) → ℝ)
    (ev : ℕ → ℕ → ℝ) (ex : ∀ i, Fin (nx i) → ℝ) (eu : ∀ i, Fin (nu i) → ℝ) : Prop :=
  P.hx (y 0) *ᵥ ex 0 = 0 ∧
  (∀ i, i < N → P.fx i (y i) (w i) *ᵥ ex i + P.fu i (y i) (w i) *ᵥ eu i = ex (i + 1)) ∧
  (∀ i, i ≤ N → ∀ k, k < P.nc i → (cdir P y w ex eu i).getD k 0 = c i k) ∧
  ∃ (l0 : Fin P.nc0 → ℝ) (l : ∀ i, Fin (nx (i + 1)) → ℝ), ∀ (dx : ∀ i, Fin (nx i) → ℝ) (du : ∀ i, Fin (nu i) → ℝ),
    (fixed → dx 0 = 0) → bil H ex eu dx du + mpart P y w l0 l ev dx du = inner2 N rx ru dx du

theorem bil_add (H : Hess nx nu N) (ex ex' : ∀ i, Fin (nx i) → ℝ) (eu eu' : ∀ i, Fin (nu i) → ℝ) (dx : ∀ i, Fin (nx i) → ℝ)
    (du : ∀ i, Fin (nu i) → ℝ) :
    bil H (fun i => ex i + ex' i) (fun i => eu i + eu' i) dx du = bil H ex eu dx du + bil H ex' eu' dx du := by
  unfold bil
  simp only [mulVec_add, dotProduct_add, Finset.sum_add_distrib]
  ring

theorem bil_smul (H : Hess nx nu N) (a : ℝ) (ex : ∀ i, Fin (nx i) → ℝ) (eu : ∀ i, Fin (nu i) → ℝ) (dx : ∀ i, Fin (nx i) → ℝ)
    (du : ∀ i, Fin (nu i) → ℝ) : bil H (fun i => a • ex i) (fun i => a • eu i) dx du = a * bil H ex eu dx du := by
  unfold bil
  simp only [mulVec_smul, dotProduct_add, dotProduct_smul, smul_eq_mul, mul_add, Finset.mul_sum]

theorem mpart_add (P : Prob nx nu N) (y : ∀ i, Fin (nx i) → ℝ) (w : ∀ i, Fin (nu i) → ℝ) (l0 l0' : Fin P.nc0 → ℝ)
    (l l' : ∀ i, Fin (nx (i + 1)) → ℝ) (ev ev' : ℕ → ℕ → ℝ) (dx : ∀ i, Fin (nx i) → ℝ) (du : ∀ i, Fin (nu i) → ℝ) :
    mpart P y w (l0 + l0') (fun i => l i + l' i) (fun i k => ev i k + ev' i k) dx du =
      mpart P y w l0 l ev dx du + mpart P y w l0' l' ev' dx du := by
  unfold mpart
  simp only [add_dotProduct, add_mul, Finset.sum_add_distrib]
  ring

theorem mpart_smul (P : Prob nx nu N) (a : ℝ) (y : ∀ i, Fin (nx i) → ℝ) (w : ∀ i, Fin (nu i) → ℝ) (l0 : Fin P.nc0 → ℝ)
    (l : ∀ i, Fin (nx (i + 1)) → ℝ) (ev : ℕ → ℕ → ℝ) (dx : ∀ i, Fin (nx i) → ℝ) (du : ∀ i, Fin (nu i) → ℝ) :
    mpart P y w (a • l0) (fun i => a • l i) (fun i k => a * ev i k) dx du = a * mpart P y w l0 l ev dx du := by
  unfold mpart
  simp only [smul_dotProduct, smul_eq_mul, mul_add, Finset.mul_sum, mul_assoc]

theorem inner2_add (rx rx' dx : ∀ i, Fin (nx i) → ℝ) (ru ru' du : ∀ i, Fin (nu i) → ℝ) :
    inner2 N (fun i => rx i + rx' i) (fun i => ru i + ru' i) dx du = inner2 N rx ru dx du + inner2 N rx' ru' dx du := by
  unfold inner2
  simp only [add_dotProduct, Finset.sum_add_distrib]
  ring

theorem inner2_smul (a : ℝ) (rx dx : ∀ i, Fin (nx i) → ℝ) (ru du : ∀ i, Fin (nu i) → ℝ) :
    inner2 N (fun i => a • rx i) (fun i => a • ru i) dx du = a * inner2 N rx ru dx du := by
  unfold inner2
  simp only [smul_dotProduct, smul_eq_mul, mul_add, Finset.mul_sum]

theorem stackDir_lin {n m : ℕ} (cs : List (Lag.Spec.CFun n m)) (a : ℝ) (d d' : Fin n → ℝ) (e e' : Fin m → ℝ) (k : ℕ) :
    (stackDir cs (a • d + d') (a • e + e')).getD k 0 = a * (stackDir cs d e).getD k 0 + (stackDir cs d' e').getD k 0 := by
  induction cs generalizing k with
  | nil => simp [stackDir]
  | cons c cs ih =>
    have h1 : ∀ d e, stackDir (c :: cs) d e = List.ofFn (c.Jx *ᵥ d + c.Ju *ᵥ e) ++ stackDir cs d e := fun _ _ => rfl
    rw [h1, h1, h1]
    by_cases hk : k < c.dim
    · rw [List.getD_append _ _ _ _ (by simpa using hk), List.getD_append _ _ _ _ (by simpa using hk),
        List.getD_append _ _ _ _ (by simpa using hk)]
      simp [hk, mulVec_add, mulVec_smul]
      ring
    · rw [List.getD_append_right _ _ _ _ (by simpa using hk), List.getD_append_right _ _ _ _ (by simpa using hk),
        List.getD_append_right _ _ _ _ (by simpa using hk)]
      simp only [List.length_ofFn]
      exact ih _

theorem cdir_lin (P : Prob nx nu N) (y : ∀ i, Fin (nx i) → ℝ) (w : ∀ i, Fin (nu i) → ℝ) (a : ℝ) (d d' : ∀ i, Fin (nx i) → ℝ)
    (e e' : ∀ i, Fin (nu i) → ℝ) (i k : ℕ) :
    (cdir P y w (fun i => a • d i + d' i) (fun i => a • e i + e' i) i).getD k 0 =
      a * (cdir P y w d e i).getD k 0 + (cdir P y w d' e' i).getD k 0 := by
  unfold cdir
  split
  · exact stackDir_lin _ _ _ _ _ _ _
  · have := stackDir_lin (P.spec y w).cN a (d N) (d' N) 0 0 k
    rw [smul_zero, zero_add] at this
    exact this

theorem LinRel.lin {P : Prob nx nu N} {H : Hess nx nu N} {fixed : Prop} {y : ∀ i, Fin (nx i) → ℝ} {w : ∀ i, Fin (nu i) → ℝ}
    {c c' : ℕ → ℕ → ℝ} {rx rx' : ∀ i, Fin (nx i) → ℝ} {ru ru' : ∀ i, Fin (nu i) → ℝ}
    {ev ev' : ℕ → ℕ → ℝ} {ex ex' : ∀ i, Fin (nx i) → ℝ} {eu eu' : ∀ i, Fin (nu i) → ℝ}
    (h : LinRel P H fixed y w c rx ru ev ex eu) (h' : LinRel P H fixed y w c' rx' ru' ev' ex' eu') (a : ℝ) :
    LinRel P H fixed y w (fun i k => a * c i k + c' i k) (fun i => a • rx i + rx' i) (fun i => a • ru i + ru' i)
      (fun i k => a * ev i k + ev' i k) (fun i => a • ex i + ex' i) (fun i => a • eu i + eu' i) := by
  obtain ⟨h0, h1, h2, l0, l, h3⟩ := h
  obtain ⟨h0', h1', h2', l0', l', h3'⟩ := h'
  refine ⟨?_, fun i hi => ?_, fun i hi k hk => ?_, a • l0 + l0', fun i => a • l i + l' i, fun dx du hf => ?_⟩
  · rw [mulVec_add, mulVec_smul, h0, h0', smul_zero, add_zero]
  · show _ = a • ex (i + 1) + ex' (i + 1)
    rw [mulVec_add, mulVec_smul, mulVec_add, mulVec_smul, ← h1 i hi, ← h1' i hi, smul_add]
    abel
  · rw [cdir_lin, h2 i hi k hk, h2' i hi k hk]
  · rw [bil_add H (fun i => a • ex i), bil_smul, mpart_add P y w (a • l0) l0' (fun i => a • l i), mpart_smul,
      inner2_add (fun i => a • rx i), inner2_smul, ← h3 dx du hf, ← h3' dx du hf]
    ring

/-- Indices of multipliers, states and controls. -/
abbrev Ix (P : Prob nx nu N) : Type :=
  (Σ i : Fin (N + 1), Fin (P.nc i)) ⊕ ((Σ i : Fin (N + 1), Fin (nx i)) ⊕ (Σ i : Fin N, Fin (nu i)))

/-- The entries of a family. -/
def enc (P : Prob nx nu N) (c : ℕ → ℕ → ℝ) (rx : ∀ i, Fin (nx i) → ℝ) (ru : ∀ i, Fin (nu i) → ℝ) : Ix P → ℝ
  | .inl j => c j.1 j.2
  | .inr (.inl j) => rx j.1 j.2
  | .inr (.inr j) => ru j.1 j.2

theorem enc_sq (P : Prob nx nu N) (c : ℕ → ℕ → ℝ) (rx : ∀ i, Fin (nx i) → ℝ) (ru : ∀ i, Fin (nu i) → ℝ) :
    ∑ j, enc P c rx ru j ^ 2 = (∑ i ∈ Finset.range (N + 1), ∑ k ∈ Finset.range (P.nc i), c i k ^ 2) +
      ((∑ i ∈ Finset.range (N + 1), ∑ k, rx i k ^ 2) + ∑ i ∈ Finset.range N, ∑ k, ru i k ^ 2) := by
  rw [Fintype.sum_sum_type, Fintype.sum_sum_type, Fintype.sum_sigma, Fintype.sum_sigma, Fintype.sum_sigma]
  rw [← Fin.sum_univ_eq_sum_range (fun i => ∑ k ∈ Finset.range (P.nc i), c i k ^ 2), ← Fin.sum_univ_eq_sum_range
    (fun i => ∑ k, rx i k ^ 2), ← Fin.sum_univ_eq_sum_range (fun i => ∑ k, ru i k ^ 2)]
  congr 1
  refine Finset.sum_congr rfl fun i _ => ?_
  rw [← Fin.sum_univ_eq_sum_range (fun k => c i k ^ 2)]
  rfl

theorem enc_lin (P : Prob nx nu N) (a : ℝ) (c c' : ℕ → ℕ → ℝ) (rx rx' : ∀ i, Fin (nx i) → ℝ) (ru ru' : ∀ i, Fin (nu i) → ℝ) :
    enc P (fun i k => a * c i k + c' i k) (fun i => a • rx i + rx' i) (fun i => a • ru i + ru' i) =
      a • enc P c rx ru + enc P c' rx' ru' := by
  funext j
  rcases j with j | j | j <;> rfl

/-- The relation on entries. -/
def linRel (P : Prob nx nu N) (H : Hess nx nu N) (fixed : Prop) (y : ∀ i, Fin (nx i) → ℝ) (w : ∀ i, Fin (nu i) → ℝ) :
    Submodule ℝ ((Ix P → ℝ) × (Ix P → ℝ)) where
  carrier := { p | ∃ c rx ru ev ex eu, LinRel P H fixed y w c rx ru ev ex eu ∧ p = (enc P c rx ru, enc P ev ex eu) }
  zero_mem' := by
    refine ⟨0, 0, 0, 0, 0, 0, ⟨by simp, fun i hi => by simp, fun i hi k hk => ?_, 0, 0, fun dx du hf => ?_⟩, ?_⟩
    · have := cdir_lin P y w (-1) (0 : ∀ i, Fin (nx i) → ℝ) 0 (0 : ∀ i, Fin (nu i) → ℝ) 0 i k
      have e1 : (fun i => (-1 : ℝ) • (0 : ∀ i, Fin (nx i) → ℝ) i + (0 : ∀ i, Fin (nx i) → ℝ) i) = 0 := by funext i; simp
      have e2 : (fun i => (-1 : ℝ) • (0 : ∀ i, Fin (nu i) → ℝ) i + (0 : ∀ i, Fin (nu i) → ℝ) i) = 0 := by funext i; simp
      rw [e1, e2] at this
      simp only [Pi.zero_apply]
      linarith
    · simp [bil, mpart, inner2]
    · refine Prod.ext ?_ ?_ <;>
      · funext j
        rcases j with j | j | j <;> rfl
  add_mem' := by
    rintro _ _ ⟨c, rx, ru, ev, ex, eu, h, rfl⟩ ⟨c', rx', ru', ev', ex', eu', h', rfl⟩
    refine ⟨_, _, _, _, _, _, h.lin h' 1, ?_⟩
    rw [enc_lin, enc_lin, one_smul, one_smul]
    rfl
  smul_mem' := by
    rintro a _ ⟨c, rx, ru, ev, ex, eu, h, rfl⟩
    refine ⟨_, _, _, _, _, _, h.lin h (a - 1), ?_⟩
    rw [enc_lin, enc_lin, sub_smul, sub_smul, one_smul, one_smul, sub_add_cancel, sub_add_cancel]
    rfl

/-- The derivative of the Lagrangian along a direction. -/
theorem lag_deriv {P : Prob nx nu N} {H : Hess nx nu N} (hL : Spec.IsLQE P H) (x : ∀ i, Fin (nx i) → ℝ) (u : ∀ i, Fin (nu i) → ℝ)
    (lam0 : Fin P.nc0 → ℝ) (lam : ∀ i, Fin (nx (i + 1)) → ℝ) {v : ℕ → List ℝ} (hv : Shape P v) (dx : ∀ i, Fin (nx i) → ℝ)
    (du : ∀ i, Fin (nu i) → ℝ) :
    HasDerivAt (fun t : ℝ => Spec.lagrangian P lam0 lam v (fun i => x i + t • dx i) (fun i => u i + t • du i))
      (pair (compute (pdata (P.spec x u)) (some ⟨lam0, lam⟩) v) N dx du) 0 := by
  have h1 := C27_lagrangian_gradient (P.spec x u) x u (IsLQE_right hL x u) ⟨lam0, lam⟩ v (hv.vShape x u) dx du
  refine h1.congr_of_eventuallyEq (Filter.Eventually.of_forall fun t => ?_)
  exact lagrangian_spec P x u ⟨lam0, lam⟩ v _ _

theorem feas_add {P : Prob nx nu N} {H : Hess nx nu N} (hL : Spec.IsLQE P H) {y ex : ∀ i, Fin (nx i) → ℝ}
    {w eu : ∀ i, Fin (nu i) → ℝ} (hf : Spec.Feasible P y w) :
    Spec.Feasible P (fun i => y i + ex i) (fun i => w i + eu i) ↔ P.hx (y 0) *ᵥ ex 0 = 0 ∧
      ∀ i, i < N → P.fx i (y i) (w i) *ᵥ ex i + P.fu i (y i) (w i) *ᵥ eu i = ex (i + 1) := by
  have h0 : P.h (y 0 + ex 0) = P.h (y 0) + P.hx (y 0) *ᵥ ex 0 := hL.free.h _ _
  have h1 : ∀ i, P.f i (y i + ex i) (w i + eu i) = P.f i (y i) (w i) + (P.fx i (y i) (w i) *ᵥ ex i + P.fu i (y i) (w i) *ᵥ eu i) :=
    fun i => hL.free.f i _ _ _ _
  rw [hf.init, zero_add] at h0
  constructor
  · intro h
    refine ⟨h0.symm.trans h.init, fun i hi => ?_⟩
    have : P.f i (y i + ex i) (w i + eu i) = y (i + 1) + ex (i + 1) := h.dynamics i hi
    rw [h1, hf.dynamics i hi] at this
    exact add_left_cancel this
  · rintro ⟨a, b⟩
    refine ⟨h0.trans a, fun i hi => ?_⟩
    show P.f i (y i + ex i) (w i + eu i) = y (i + 1) + ex (i + 1)
    rw [h1, hf.dynamics i hi, b i hi]

theorem drop_zero {a b c d : ℝ} (h : a = b + c + d) (h0 : b = 0) : a = c + d := by rw [h, h0, zero_add]

/-- **C77** An error bound holds if and only if trajectory and multipliers of the path constraints are unique: for every
linear-quadratic problem with equality path constraints, convex or not. -/
theorem C77_error_bound {P : Prob nx nu N} {H : Hess nx nu N} (hL : Spec.IsLQE P H) {fixed : Prop} {y : ∀ i, Fin (nx i) → ℝ}
    {w : ∀ i, Fin (nu i) → ℝ} {lam0 : Fin P.nc0 → ℝ} {lam : ∀ i, Fin (nx (i + 1)) → ℝ} {vb : ℕ → List ℝ}
    (hk : Spec.KKTPoint P fixed y w lam0 lam vb) :
    Spec.UniqueKKT P fixed y w vb ↔ ∃ K : ℝ, 0 ≤ K ∧ Spec.ErrorBound P fixed K y w vb := by
  have hsb := kkt_shape hk
  constructor
  · intro hu
    have hz : ∀ g, ((0 : Ix P → ℝ), g) ∈ linRel P H fixed y w → g = 0 := by
      rintro g ⟨c, rx, ru, ev, ex, eu, ⟨f0, f1, f2, l0, l, f3⟩, he⟩
      have he1 : enc P c rx ru = 0 := (congrArg Prod.fst he).symm
      have he2 : g = enc P ev ex eu := congrArg Prod.snd he
      have zc : ∀ i, i ≤ N → ∀ k, k < P.nc i → c i k = 0 := fun i hi k hk => congrFun he1 (.inl ⟨⟨i, by omega⟩, ⟨k, hk⟩⟩)
      have zx : ∀ i, i ≤ N → rx i = 0 := fun i hi => funext fun k => congrFun he1 (.inr (.inl ⟨⟨i, by omega⟩, k⟩))
      have zu : ∀ i, i < N → ru i = 0 := fun i hi => funext fun k => congrFun he1 (.inr (.inr ⟨⟨i, hi⟩, k⟩))
      have zi : ∀ dx du, inner2 N rx ru dx du = 0 := by
        intro dx du
        unfold inner2
        rw [Finset.sum_eq_zero fun i hi => ?_, Finset.sum_eq_zero fun i hi => ?_, add_zero]
        · rw [zu i (Finset.mem_range.1 hi), zero_dotProduct]
        · rw [zx i (Nat.lt_succ_iff.1 (Finset.mem_range.1 hi)), zero_dotProduct]
      set v : ℕ → List ℝ := fun i => List.ofFn fun k : Fin (P.nc i) => (vb i).getD k 0 + ev i k with hvd
      have hv : Shape P v := fun i _ => by simp [hvd]
      have hvk : ∀ i k, k < P.nc i → (v i).getD k 0 = (vb i).getD k 0 + ev i k := by
        intro i k hk
        rw [List.getD_eq_getElem _ _ (by simpa [hvd] using hk)]
        simp [hvd]
      obtain ⟨u1, u2, u3⟩ := hu (fun i => y i + ex i) (fun i => w i + eu i) (lam0 + l0) (fun i => lam i + l i) v
        { feasible := (feas_add hL hk.feasible).2 ⟨f0, f1⟩
          constraints := fun i hi a ha => by
            obtain ⟨k, hk', rfl⟩ := List.getElem_of_mem ha
            have hk2 := hk'
            rw [cstr_length'] at hk2
            rw [← List.getD_eq_getElem _ 0 hk', cstr_add hL, getD_zero (hk.constraints i hi), zero_add, f2 i hi k hk2, zc i hi k hk2]
          sizes := fun i hi => (hv i hi).trans (cstr_length' P _ _ i).symm
          stationary := fun dx du hf => by
            refine (lag_deriv hL _ _ _ _ hv dx du).congr_deriv ?_
            refine (drop_zero (pair_diff hL y ex dx w eu du ⟨lam0 + l0, fun i => lam i + l i⟩ ⟨lam0, lam⟩ v vb hv hsb)
              (kkt_pair hL hk dx du hf)).trans (Eq.trans ?_ ((f3 dx du hf).trans (zi dx du)))
            congr 1
            unfold mpart
            simp only [add_sub_cancel_left]
            congr 1
            refine Finset.sum_congr rfl fun i _ => Finset.sum_congr rfl fun k hk => ?_
            rw [hvk i k (Finset.mem_range.1 hk), add_sub_cancel_left] }
      rw [he2]
      funext j
      rcases j with ⟨i, k⟩ | ⟨i, k⟩ | ⟨i, k⟩
      · have h1 := hvk i k k.2
        rw [u3 i (Nat.lt_succ_iff.1 i.2)] at h1
        show ev i k = 0
        linarith
      · have h1 := congrFun (u1 i (Nat.lt_succ_iff.1 i.2)) k
        have h2 : y i k + ex i k = y i k := h1
        show ex i k = 0
        linarith
      · have h1 := congrFun (u2 i i.2) k
        have h2 : w i k + eu i k = w i k := h1
        show eu i k = 0
        linarith
    obtain ⟨K, hK, hb⟩ := rel_bound (linRel P H fixed y w) hz
    refine ⟨K, hK, fun x u l0 l v rx ru hfe hsz _ hst => ?_⟩
    have hv : Shape P v := fun i hi => (hsz i hi).trans (cstr_length' P x u i)
    have ex : (fun i => y i + (x i - y i)) = x := by funext i; simp
    have eu : (fun i => w i + (u i - w i)) = u := by funext i; simp
    have hnc : (fun i => (Spec.cstr P x u i).length) = P.nc := funext fun i => cstr_length' P x u i
    have hR : LinRel P H fixed y w (fun i k => (Spec.cstr P x u i).getD k 0) rx ru
        (fun i k => (v i).getD k 0 - (vb i).getD k 0) (fun i => x i - y i) (fun i => u i - w i) := by
      obtain ⟨f0, f1⟩ := (feas_add hL (ex := fun i => x i - y i) (eu := fun i => u i - w i) hk.feasible).1 (by rw [ex, eu]; exact hfe)
      refine ⟨f0, f1, fun i hi k _ => ?_, l0 - lam0, fun i => l i - lam i, fun dx du hf => ?_⟩
      · have := cstr_add hL y (fun i => x i - y i) w (fun i => u i - w i) i k
        rw [ex, eu, getD_zero (hk.constraints i hi), zero_add] at this
        exact this.symm
      · have h1 := pair_diff hL y (fun i => x i - y i) dx w (fun i => u i - w i) du ⟨l0, l⟩ ⟨lam0, lam⟩ v vb hv hsb
        rw [ex, eu] at h1
        have h2 := (lag_deriv hL x u l0 l hv dx du).unique (hst dx du hf)
        exact (drop_zero h1 (kkt_pair hL hk dx du hf)).symm.trans h2
    have := hb _ _ ⟨_, _, _, _, _, _, hR, rfl⟩
    rw [enc_sq, enc_sq] at this
    rw [hnc]
    unfold Spec.dist2 Spec.vdist2
    simp only [List.getD_nil, sub_zero, Pi.zero_apply]
    refine le_trans (le_of_eq ?_) this
    rw [add_comm]
    rfl
  · rintro ⟨K, hK, hE⟩ x u l0 l v hk'
    have hnc : (fun i => (Spec.cstr P x u i).length) = P.nc := funext fun i => cstr_length' P x u i
    have h := hE x u l0 l v 0 0 hk'.feasible hk'.sizes (fun _ => rfl) fun dx du hf => by simpa using hk'.stationary dx du hf
    rw [hnc] at h
    have z1 : Spec.vdist2 N P.nc (Spec.cstr P x u) (fun _ => []) = 0 := by
      unfold Spec.vdist2
      refine Finset.sum_eq_zero fun i hi => Finset.sum_eq_zero fun k _ => ?_
      rw [getD_zero (hk'.constraints i (Nat.lt_succ_iff.1 (Finset.mem_range.1 hi)))]
      simp
    have z2 : Spec.dist2 N (0 : ∀ i, Fin (nx i) → ℝ) (0 : ∀ i, Fin (nu i) → ℝ) 0 0 = 0 := by simp [Spec.dist2]
    rw [z1, z2, add_zero, mul_zero] at h
    have n1 := dist2_nonneg (N := N) x u y w
    have n2 := vdist2_nonneg (N := N) P.nc v vb
    have d0 : Spec.dist2 N x u y w = 0 := by linarith
    have d1 : Spec.vdist2 N P.nc v vb = 0 := by linarith
    unfold Spec.dist2 at d0
    have m1 : ∀ i ∈ Finset.range (N + 1), 0 ≤ ∑ k, (x i k - y i k) ^ 2 := fun _ _ => Finset.sum_nonneg fun _ _ => sq_nonneg _
    have m2 : ∀ i ∈ Finset.range N, 0 ≤ ∑ k, (u i k - w i k) ^ 2 := fun _ _ => Finset.sum_nonneg fun _ _ => sq_nonneg _
    have q1 := (add_eq_zero_iff_of_nonneg (Finset.sum_nonneg m1) (Finset.sum_nonneg m2)).1 d0
    have sq0 : ∀ {n : ℕ} (a b : Fin n → ℝ), ∑ k, (a k - b k) ^ 2 = 0 → a = b := by
      intro n a b hab
      funext k
      have := (Finset.sum_eq_zero_iff_of_nonneg fun k _ => sq_nonneg (a k - b k)).1 hab k (Finset.mem_univ k)
      have := pow_eq_zero_iff (two_ne_zero) |>.1 this
      linarith
    refine ⟨fun i hi => sq0 _ _ ((Finset.sum_eq_zero_iff_of_nonneg m1).1 q1.1 i (Finset.mem_range.2 (by omega))),
      fun i hi => sq0 _ _ ((Finset.sum_eq_zero_iff_of_nonneg m2).1 q1.2 i (Finset.mem_range.2 hi)), fun i hi => ?_⟩
    have l1 : (v i).length = P.nc i := kkt_shape hk' i hi
    have l2 : (vb i).length = P.nc i := hsb i hi
    refine List.ext_getElem (l1.trans l2.symm) fun k h1 h2 => ?_
    unfold Spec.vdist2 at d1
    have a1 := (Finset.sum_eq_zero_iff_of_nonneg fun i _ => Finset.sum_nonneg fun k _ => sq_nonneg _).1 d1 i
      (Finset.mem_range.2 (by omega))
    have a2 := (Finset.sum_eq_zero_iff_of_nonneg fun k _ => sq_nonneg _).1 a1 k (Finset.mem_range.2 (by omega))
    have a3 := pow_eq_zero_iff (two_ne_zero) |>.1 a2
    rw [List.getD_eq_getElem _ _ h1, List.getD_eq_getElem _ _ h2] at a3
    linarith

/-- **C77** On every convex problem with a unique first-order point there is a constant `K`, of the problem alone, with which every
full step contracts the weighted squared distance to that point by `K ρ² / (1 + K ρ²)`; with small enough penalty parameter and
regularisation, by any factor wanted. -/
theorem C77_contraction_unique {P : Prob nx nu N} {H : Hess nx nu N} (hL : Spec.IsLQE P H) (hC : Spec.Convex N H) {S : Setup}
    (hS : EqSets P S) {y : ∀ i, Fin (nx i) → ℝ} {w : ∀ i, Fin (nu i) → ℝ} {lam0 : Fin P.nc0 → ℝ}
    {lam : ∀ i, Fin (nx (i + 1)) → ℝ} {vb : ℕ → List ℝ} (hk : Spec.KKTPoint P (S.force = true) y w lam0 lam vb)
    (hu : Spec.UniqueKKT P (S.force = true) y w vb) (q : ℝ) (hq : 0 < q) :
    ∃ rho : ℝ, 0 < rho ∧ ∀ (exact : Bool) (s : SSt P) (d : Dir nx nu P.nc0), 0 < s.mu → 0 ≤ s.preg → s.mu ≤ rho → s.preg ≤ rho →
      Shape P s.prevV → Shape P s.x.vs → Solves P S exact H s d → GoodStart P S.force (s.x.x 0) →
      s.preg * Spec.dist2 N (linearStep s.x (d.forced S.force) 1).x (linearStep s.x (d.forced S.force) 1).u y w +
        s.mu * Spec.vdist2 N P.nc (linearStep s.x (d.forced S.force) 1).vs vb ≤
      q * (s.preg * Spec.dist2 N s.x.x s.x.u y w + s.mu * Spec.vdist2 N P.nc s.prevV vb) := by
  obtain ⟨K, hK, hE⟩ := (C77_error_bound hL hk).1 hu
  refine ⟨min 1 (q / (K + 1)), lt_min one_pos (by positivity), fun exact s d hmu hpr h1 h2 hv hvs hs hG => ?_⟩
  set rho := min 1 (q / (K + 1)) with hrho
  have hr0 : 0 < rho := lt_min one_pos (by positivity)
  have h := C77_contraction hL hC hS hmu hpr hv hvs hs hG rfl hk hK hE h1 h2
  set A := s.preg * Spec.dist2 N (linearStep s.x (d.forced S.force) 1).x (linearStep s.x (d.forced S.force) 1).u y w +
        s.mu * Spec.vdist2 N P.nc (linearStep s.x (d.forced S.force) 1).vs vb
  set B := s.preg * Spec.dist2 N s.x.x s.x.u y w + s.mu * Spec.vdist2 N P.nc s.prevV vb
  have hA : 0 ≤ A := add_nonneg (mul_nonneg hpr (dist2_nonneg _ _ _ _)) (mul_nonneg hmu.le (vdist2_nonneg _ _ _))
  have hB : 0 ≤ B := add_nonneg (mul_nonneg hpr (dist2_nonneg _ _ _ _)) (mul_nonneg hmu.le (vdist2_nonneg _ _ _))
  have hK2 : K * rho ^ 2 ≤ q := by
    have e1 : rho ≤ 1 := min_le_left _ _
    have e2 : rho ≤ q / (K + 1) := min_le_right _ _
    have e3 : rho ^ 2 ≤ q / (K + 1) := by nlinarith
    have e4 : (K + 1) * (q / (K + 1)) = q := by field_simp
    have e5 : K * rho ^ 2 ≤ (K + 1) * (q / (K + 1)) := by
      have : 0 ≤ q / (K + 1) := by positivity
      nlinarith
    linarith
  have hk0 : 0 ≤ K * rho ^ 2 * A := by positivity
  have : K * rho ^ 2 * B ≤ q * B := mul_le_mul_of_nonneg_right hK2 hB
  linarith

/-! ### Examples -/

/-- the concrete problem has a unique first-order point -/
theorem wit_unique : Spec.UniqueKKT wit (eqSetup.force = true) (fun _ => 0) (fun _ => 0) eqVb :=
  (C77_error_bound wit_isLQE wit_kkt).2 ⟨3, by norm_num, wit_error⟩

example : ∃ K : ℝ, 0 ≤ K ∧ Spec.ErrorBound wit (eqSetup.force = true) K (fun _ => 0) (fun _ => 0) eqVb :=
  (C77_error_bound wit_isLQE wit_kkt).1 wit_unique

example := C77_contraction_unique wit_isLQE wit_convex eqw_sets wit_kkt wit_unique 0.5 (by norm_num)

/-- a step to which the contraction applies -/
example (rho : ℝ) (h : 0 < rho) : ∃ (s : SSt wit) (d : Dir (fun _ => 1) (fun _ => 1) 1), 0 < s.mu ∧ 0 ≤ s.preg ∧ s.mu ≤ rho ∧ s.preg ≤ rho ∧
    Shape wit s.prevV ∧ Shape wit s.x.vs ∧ Solves wit eqSetup true witHess s d ∧ GoodStart wit eqSetup.force (s.x.x 0) ∧
    s.x.u 0 0 = 1 := by
  let s : SSt wit := { witSt with mu := rho, preg := rho, prevV := eqV0 }
  have hE : EqAt s 1 (-0.7) 0 := ⟨rfl, rfl, rfl, rfl, rfl, rfl, rfl, h, h.le⟩
  obtain ⟨d, hd⟩ := eqw_solvable hE true
  exact ⟨s, d, h, h.le, le_rfl, le_rfl, hE.shapes.1, hE.shapes.2, hd, wit_goodStart _ rfl _, rfl⟩

end Aligator.Link
