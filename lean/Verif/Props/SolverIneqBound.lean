import Verif.Props.SolverEqBound
import Verif.Props.SolverIneqRunWit
import Mathlib.Topology.Algebra.Order.Field
import Mathlib.Topology.Order.OrderClosed

/-!
# The error bound of C79 and the region in which the active constraints can be told, from uniqueness and strict complementarity
-/

namespace Aligator.Link

open Matrix CSets Lag LQ Topology

variable {nx nu : ℕ → ℕ} {N : ℕ}

/-- The linearised first-order conditions with the rows that are held. -/
def LinRelOn (P : Prob nx nu N) (H : Hess nx nu N) (fixed : Prop) (hd : ℕ → ℕ → Prop) (y : ∀ i, Fin (nx i) → ℝ) (w : ∀ i, Fin (nu i) → ℝ)
    (c : ℕ → ℕ → ℝ) (rx : ∀ i, Fin (nx i) → ℝ) (ru : ∀ i, Fin (nu i) → ℝ)
    (ev : ℕ → ℕ → ℝ) (ex : ∀ i, Fin (nx i) → ℝ) (eu : ∀ i, Fin (nu i) → ℝ) : Prop :=
  ∃ c', LinRel P H fixed y w c' rx ru ev ex eu ∧ ∀ i, i ≤ N → ∀ k, k < P.nc i → (hd i k → c i k = c' i k) ∧ (¬ hd i k → c i k = 0 ∧ ev i k = 0)

theorem LinRelOn.lin {P : Prob nx nu N} {H : Hess nx nu N} {fixed : Prop} {hd : ℕ → ℕ → Prop} {y : ∀ i, Fin (nx i) → ℝ}
    {w : ∀ i, Fin (nu i) → ℝ}
    {c c' : ℕ → ℕ → ℝ} {rx rx' : ∀ i, Fin (nx i) → ℝ} {ru ru' : ∀ i, Fin (nu i) → ℝ}
    {ev ev' : ℕ → ℕ → ℝ} {ex ex' : ∀ i, Fin (nx i) → ℝ} {eu eu' : ∀ i, Fin (nu i) → ℝ}
    (h : LinRelOn P H fixed hd y w c rx ru ev ex eu) (h' : LinRelOn P H fixed hd y w c' rx' ru' ev' ex' eu') (a : ℝ) :
    LinRelOn P H fixed hd y w (fun i k => a * c i k + c' i k) (fun i => a • rx i + rx' i) (fun i => a • ru i + ru' i)
      (fun i k => a * ev i k + ev' i k) (fun i => a • ex i + ex' i) (fun i => a • eu i + eu' i) := by
  obtain ⟨b, h1, h2⟩ := h
  obtain ⟨b', h1', h2'⟩ := h'
  refine ⟨_, h1.lin h1' a, fun i hi k hk => ⟨fun hh => ?_, fun hh => ?_⟩⟩
  · dsimp only
    rw [(h2 i hi k hk).1 hh, (h2' i hi k hk).1 hh]
  · obtain ⟨e1, e2⟩ := (h2 i hi k hk).2 hh
    obtain ⟨e1', e2'⟩ := (h2' i hi k hk).2 hh
    dsimp only
    rw [e1, e2, e1', e2']
    simp

theorem cdir_zero (P : Prob nx nu N) (y : ∀ i, Fin (nx i) → ℝ) (w : ∀ i, Fin (nu i) → ℝ) (i k : ℕ) :
    (cdir P y w 0 0 i).getD k 0 = 0 := by
  have := cdir_lin P y w (-1) (0 : ∀ i, Fin (nx i) → ℝ) 0 (0 : ∀ i, Fin (nu i) → ℝ) 0 i k
  have e1 : (fun i => (-1 : ℝ) • (0 : ∀ i, Fin (nx i) → ℝ) i + (0 : ∀ i, Fin (nx i) → ℝ) i) = 0 := by funext i; simp
  have e2 : (fun i => (-1 : ℝ) • (0 : ∀ i, Fin (nu i) → ℝ) i + (0 : ∀ i, Fin (nu i) → ℝ) i) = 0 := by funext i; simp
  rw [e1, e2] at this
  linarith

/-- The relation on entries. -/
def linRelOn (P : Prob nx nu N) (H : Hess nx nu N) (fixed : Prop) (hd : ℕ → ℕ → Prop) (y : ∀ i, Fin (nx i) → ℝ)
    (w : ∀ i, Fin (nu i) → ℝ) : Submodule ℝ ((Ix P → ℝ) × (Ix P → ℝ)) where
  carrier := { p | ∃ c rx ru ev ex eu, LinRelOn P H fixed hd y w c rx ru ev ex eu ∧ p = (enc P c rx ru, enc P ev ex eu) }
  zero_mem' := by
    refine ⟨0, 0, 0, 0, 0, 0, ⟨0, ⟨by simp, fun i hi => by simp, fun i hi k hk => cdir_zero P y w i k, 0, 0, fun dx du hf => ?_⟩,
      fun i hi k hk => ⟨fun _ => rfl, fun _ => ⟨rfl, rfl⟩⟩⟩, ?_⟩
    · simp [bil, mpart, inner2]
    · refine Prod.ext ?_ ?_ <;>
      · funext j
        rcases j with j | j | j <;> rfl
  add_mem' := by
    rintro _ _ ⟨c, rx, ru, ev, ex, eu, h, rfl⟩ ⟨c', rx', ru', ev', ex', eu', h', rfl⟩
    refine ⟨_, _, _, _, _, _, h.lin h' 1, ?_⟩
    rw [enc_lin, enc_lin, one_smul, one_smul]
    rfl
  smul_mem' := by
    rintro a _ ⟨c, rx, ru, ev, ex, eu, h, rfl⟩
    refine ⟨_, _, _, _, _, _, h.lin h (a - 1), ?_⟩
    rw [enc_lin, enc_lin, sub_smul, sub_smul, one_smul, one_smul, sub_add_cancel, sub_add_cancel]
    rfl

/-- A constraint that holds with room holds nearby. -/
theorem inside_near (K : Spec.SetKind) (hK : K ≠ .eq) {c : ℝ} (h : K.Inside c) : ∃ r : ℝ, 0 < r ∧ ∀ e : ℝ, |e| < r → c + e ∈ K.set := by
  cases K with
  | eq => exact absurd rfl hK
  | nonpos =>
    have h' : c < 0 := h
    refine ⟨-c, by linarith, fun e he => ?_⟩
    show c + e ≤ 0
    linarith [(abs_lt.1 he).2]
  | box l u =>
    obtain ⟨h1, h2⟩ := h
    refine ⟨min (c - l) (u - c), lt_min (by linarith) (by linarith), fun e he => ?_⟩
    have a1 := (abs_lt.1 (he.trans_le (min_le_left _ _))).1
    have a2 := (abs_lt.1 (he.trans_le (min_le_right _ _))).2
    exact ⟨by linarith, by linarith⟩

/-- A finite number of strict conditions on a small positive number. -/
theorem small_number (P : Prob nx nu N) (C : ℕ → ℕ → ℝ → Prop)
    (h : ∀ i, i ≤ N → ∀ k, k < P.nc i → ∃ r : ℝ, 0 < r ∧ ∀ t, 0 < t → t < r → C i k t) :
    ∃ t : ℝ, 0 < t ∧ ∀ i, i ≤ N → ∀ k, k < P.nc i → C i k t := by
  have h1 : ∀ᶠ t in 𝓝[>] (0 : ℝ), ∀ i ∈ Finset.range (N + 1), ∀ k ∈ Finset.range (P.nc i), C i k t := by
    refine (Filter.eventually_all_finset _).2 fun i hi => (Filter.eventually_all_finset _).2 fun k hk => ?_
    obtain ⟨r, hr, hC⟩ := h i (Nat.lt_succ_iff.1 (Finset.mem_range.1 hi)) k (Finset.mem_range.1 hk)
    have h2 : ∀ᶠ t in 𝓝[>] (0 : ℝ), t < r := eventually_nhdsWithin_of_eventually_nhds (eventually_lt_nhds hr)
    filter_upwards [h2, self_mem_nhdsWithin] with t ht ht0
    exact hC t ht0 ht
  obtain ⟨t, ht, ht0⟩ := (h1.and self_mem_nhdsWithin).exists
  exact ⟨t, ht0, fun i hi k hk => ht i (Finset.mem_range.2 (by omega)) k (Finset.mem_range.2 hk)⟩

/-- Small changes of the multipliers of held rows and of the values of the others keep the multipliers in the normal cones. -/
theorem normal_near (K : Spec.SetKind) {c v : ℝ} (hn : Spec.Normal K.set c v) (hs : v = 0 → K.Inside c) (e f : ℝ)
    (h1 : K.Held v → e = 0) (h2 : ¬ K.Held v → f = 0) :
    ∃ r : ℝ, 0 < r ∧ ∀ t, 0 < t → t < r → Spec.Normal K.set (c + t * e) (v + t * f) := by
  by_cases hK : K = .eq
  · subst hK
    have he : e = 0 := h1 trivial
    have hc : c = 0 := hn.1
    refine ⟨1, one_pos, fun t _ _ => ⟨?_, fun z hz => ?_⟩⟩
    · show c + t * e = 0
      rw [he, hc]; ring
    · have hz' : z = 0 := hz
      rw [hz', he, hc]
      simp
  · have hheld : K.Held v ↔ v ≠ 0 := by
      cases K with
      | eq => exact absurd rfl hK
      | nonpos => rfl
      | box l u => rfl
    by_cases hv : v = 0
    · have hf : f = 0 := h2 fun hh => hheld.1 hh hv
      obtain ⟨r, hr, hin⟩ := inside_near K hK (hs hv)
      refine ⟨r / (|e| + 1), by positivity, fun t ht0 ht => ⟨hin _ ?_, fun z _ => ?_⟩⟩
      · rw [abs_mul, abs_of_pos ht0]
        rw [lt_div_iff₀ (by positivity)] at ht
        nlinarith [abs_nonneg e]
      · rw [hv, hf]
        simp
    · have he : e = 0 := h1 (hheld.2 hv)
      refine ⟨|v| / (|f| + 1), by positivity, fun t ht0 ht => ?_⟩
      rw [he, mul_zero, add_zero]
      rw [lt_div_iff₀ (by positivity)] at ht
      have htf : |t * f| < |v| := by
        rw [abs_mul, abs_of_pos ht0]
        nlinarith [abs_nonneg f]
      obtain ⟨b1, b2⟩ := abs_lt.1 htf
      refine normal_sign K hn (fun _ hp => ?_) (fun _ hn' => ?_) fun _ h0 => absurd h0 hv
      · rw [abs_of_pos hp] at b1
        linarith
      · rw [abs_of_neg hn'] at b2
        linarith

theorem held_eq (sk : ℕ → List Spec.SetKind) (vb : ℕ → List ℝ) (i k : ℕ) :
    Spec.held sk vb i k = ((sk i).getD k .eq).Held ((vb i).getD k 0) := rfl

/-- **C79** The error bound comes from uniqueness: if a first-order optimal point of a linear-quadratic problem with equality, one-sided
and two-sided path constraints, convex or not, is strictly complementary and no other trajectory and multipliers are first-order
optimal, then an error bound over the constraints it holds is valid. -/
theorem C79_error_bound {P : Prob nx nu N} {H : Hess nx nu N} (hL : Spec.IsLQE P H) {sk : ℕ → List Spec.SetKind} {fixed : Prop}
    {y : ∀ i, Fin (nx i) → ℝ} {w : ∀ i, Fin (nu i) → ℝ} {lam0 : Fin P.nc0 → ℝ} {lam : ∀ i, Fin (nx (i + 1)) → ℝ} {vb : ℕ → List ℝ}
    (hk : Spec.KKTPointI P sk fixed y w lam0 lam vb) (hs : Spec.StrictlyComplementary P sk y w vb)
    (hu : Spec.UniqueKKTI P sk fixed y w vb) :
    ∃ K : ℝ, 0 ≤ K ∧ Spec.ErrorBoundOn P fixed (Spec.held sk vb) K y w vb := by
  have hsb := kktI_shape hk
  have hpair : ∀ (dx : ∀ i, Fin (nx i) → ℝ) (du : ∀ i, Fin (nu i) → ℝ), (fixed → dx 0 = 0) →
      pair (compute (pdata (P.spec y w)) (some ⟨lam0, lam⟩) vb) N dx du = 0 :=
    fun dx du hf => (lag_deriv hL y w lam0 lam hsb dx du).unique (hk.stationary dx du hf)
  have hz : ∀ g, ((0 : Ix P → ℝ), g) ∈ linRelOn P H fixed (Spec.held sk vb) y w → g = 0 := by
    rintro g ⟨c, rx, ru, ev, ex, eu, ⟨c', ⟨f0, f1, f2, l0, l, f3⟩, f4⟩, he⟩
    have he1 : enc P c rx ru = 0 := (congrArg Prod.fst he).symm
    have he2 : g = enc P ev ex eu := congrArg Prod.snd he
    have zc : ∀ i, i ≤ N → ∀ k, k < P.nc i → c i k = 0 := fun i hi k hk => congrFun he1 (.inl ⟨⟨i, by omega⟩, ⟨k, hk⟩⟩)
    have zx : ∀ i, i ≤ N → rx i = 0 := fun i hi => funext fun k => congrFun he1 (.inr (.inl ⟨⟨i, by omega⟩, k⟩))
    have zu : ∀ i, i < N → ru i = 0 := fun i hi => funext fun k => congrFun he1 (.inr (.inr ⟨⟨i, hi⟩, k⟩))
    have zi : ∀ dx du, inner2 N rx ru dx du = 0 := by
      intro dx du
      unfold inner2
      rw [Finset.sum_eq_zero fun i hi => ?_, Finset.sum_eq_zero fun i hi => ?_, add_zero]
      · rw [zu i (Finset.mem_range.1 hi), zero_dotProduct]
      · rw [zx i (Nat.lt_succ_iff.1 (Finset.mem_range.1 hi)), zero_dotProduct]
    obtain ⟨t, ht, hn⟩ := small_number P (fun i k t => Spec.Normal ((sk i).getD k .eq).set
      ((Spec.cstr P y w i).getD k 0 + t * (cdir P y w ex eu i).getD k 0) ((vb i).getD k 0 + t * ev i k)) fun i hi k hk' => by
        refine normal_near _ (hk.normal i hi k (by rw [cstr_length']; exact hk')) (hs i hi k (by rw [cstr_length']; exact hk')) _ _
          (fun hh => ?_) fun hh => ((f4 i hi k hk').2 hh).2
        rw [f2 i hi k hk', ← (f4 i hi k hk').1 hh, zc i hi k hk']
    set v : ℕ → List ℝ := fun i => List.ofFn fun k : Fin (P.nc i) => (vb i).getD k 0 + t * ev i k with hvd
    have hv : Shape P v := fun i _ => by simp [hvd]
    have hvk : ∀ i k, k < P.nc i → (v i).getD k 0 = (vb i).getD k 0 + t * ev i k := by
      intro i k hk
      rw [List.getD_eq_getElem _ _ (by simpa [hvd] using hk)]
      simp [hvd]
    have hcd : ∀ i k, (cdir P y w (fun i => t • ex i) (fun i => t • eu i) i).getD k 0 = t * (cdir P y w ex eu i).getD k 0 := by
      intro i k
      have := cdir_lin P y w t ex 0 eu 0 i k
      rw [cdir_zero, add_zero] at this
      rw [← this]
      congr 2 <;> funext i <;> simp
    obtain ⟨u1, u2, u3⟩ := hu (fun i => y i + t • ex i) (fun i => w i + t • eu i) (lam0 + t • l0) (fun i => lam i + t • l i) v
      { feasible := (feas_add hL hk.feasible).2 ⟨by rw [mulVec_smul, f0, smul_zero], fun i hi => by
          show _ = t • ex (i + 1)
          rw [mulVec_smul, mulVec_smul, ← smul_add, f1 i hi]⟩
        sizes := fun i hi => (hv i hi).trans (cstr_length' P _ _ i).symm
        normal := fun i hi k hk' => by
          rw [cstr_length'] at hk'
          rw [cstr_add hL, hcd, hvk i k hk']
          exact hn i hi k hk'
        stationary := fun dx du hf => by
          refine (lag_deriv hL _ _ _ _ hv dx du).congr_deriv ?_
          refine (drop_zero (pair_diff hL y (fun i => t • ex i) dx w (fun i => t • eu i) du ⟨lam0 + t • l0, fun i => lam i + t • l i⟩
            ⟨lam0, lam⟩ v vb hv hsb) (hpair dx du hf)).trans ?_
          have e1 : mpart P y w (lam0 + t • l0 - lam0) (fun i => lam i + t • l i - lam i)
              (fun i k => (v i).getD k 0 - (vb i).getD k 0) dx du = t * mpart P y w l0 l ev dx du := by
            rw [← mpart_smul]
            unfold mpart
            simp only [add_sub_cancel_left]
            congr 1
            refine Finset.sum_congr rfl fun i _ => Finset.sum_congr rfl fun k hk => ?_
            rw [hvk i k (Finset.mem_range.1 hk), add_sub_cancel_left]
          refine (congrArg₂ (· + ·) (bil_smul H t ex eu dx du) e1).trans ?_
          show t * bil H ex eu dx du + t * mpart P y w l0 l ev dx du = 0
          rw [← mul_add, f3 dx du hf, zi, mul_zero] }
    rw [he2]
    funext j
    rcases j with ⟨i, k⟩ | ⟨i, k⟩ | ⟨i, k⟩
    · have h1 := hvk i k k.2
      rw [u3 i (Nat.lt_succ_iff.1 i.2)] at h1
      have h2 : t * ev i k = 0 := by linarith
      exact (mul_eq_zero.1 h2).resolve_left ht.ne'
    · have h1 := congrFun (u1 i (Nat.lt_succ_iff.1 i.2)) k
      have h2 : y i k + t * ex i k = y i k := h1
      have h3 : t * ex i k = 0 := by linarith
      exact (mul_eq_zero.1 h3).resolve_left ht.ne'
    · have h1 := congrFun (u2 i i.2) k
      have h2 : w i k + t * eu i k = w i k := h1
      have h3 : t * eu i k = 0 := by linarith
      exact (mul_eq_zero.1 h3).resolve_left ht.ne'
  obtain ⟨K, hK, hb⟩ := rel_bound (linRelOn P H fixed (Spec.held sk vb) y w) hz
  refine ⟨K, hK, fun x u l0 l v rx ru hfe hsz hfr _ hst => ?_⟩
  have hv : Shape P v := fun i hi => (hsz i hi).trans (cstr_length' P x u i)
  have ex : (fun i => y i + (x i - y i)) = x := by funext i; simp
  have eu : (fun i => w i + (u i - w i)) = u := by funext i; simp
  have hnc : (fun i => (Spec.cstr P x u i).length) = P.nc := funext fun i => cstr_length' P x u i
  have hcd : ∀ i k, (cdir P y w (fun i => x i - y i) (fun i => u i - w i) i).getD k 0 =
      (Spec.cstr P x u i).getD k 0 - (Spec.cstr P y w i).getD k 0 := by
    intro i k
    have := cstr_add hL y (fun i => x i - y i) w (fun i => u i - w i) i k
    rw [ex, eu] at this
    linarith
  have hR : LinRelOn P H fixed (Spec.held sk vb) y w (fun i k => (Spec.devs P (Spec.held sk vb) y w x u i).getD k 0) rx ru
      (fun i k => (v i).getD k 0 - (vb i).getD k 0) (fun i => x i - y i) (fun i => u i - w i) := by
    obtain ⟨f0, f1⟩ := (feas_add hL (ex := fun i => x i - y i) (eu := fun i => u i - w i) hk.feasible).1 (by rw [ex, eu]; exact hfe)
    refine ⟨fun i k => (Spec.cstr P x u i).getD k 0 - (Spec.cstr P y w i).getD k 0, ⟨f0, f1, fun i hi k _ => hcd i k, l0 - lam0,
      fun i => l i - lam i, fun dx du hf => ?_⟩, fun i hi k hk' => ⟨fun hh => devs_held y w x u hk' hh, fun hh => ⟨devs_free y w x u hh, ?_⟩⟩⟩
    · have h1 := pair_diff hL y (fun i => x i - y i) dx w (fun i => u i - w i) du ⟨l0, l⟩ ⟨lam0, lam⟩ v vb hv hsb
      rw [ex, eu] at h1
      have h2 := (lag_deriv hL x u l0 l hv dx du).unique (hst dx du hf)
      exact (drop_zero h1 (hpair dx du hf)).symm.trans h2
    · have h1 := hfr i hi k (by rw [cstr_length']; exact hk') hh
      have h2 : (vb i).getD k 0 = 0 := by
        by_contra hne
        exact hh ((held_iff _ _ _ _).2 (Or.inr hne))
      show (v i).getD k 0 - (vb i).getD k 0 = 0
      rw [h1, h2, sub_zero]
  have := hb _ _ ⟨_, _, _, _, _, _, hR, rfl⟩
  rw [enc_sq, enc_sq] at this
  rw [hnc]
  unfold Spec.dist2 Spec.vdist2
  simp only [List.getD_nil, sub_zero, Pi.zero_apply]
  refine le_trans (le_of_eq ?_) this
  rw [add_comm]
  rfl

/-- The relation of directions and changes of the constraint values. -/
def dirRel (P : Prob nx nu N) (y : ∀ i, Fin (nx i) → ℝ) (w : ∀ i, Fin (nu i) → ℝ) : Submodule ℝ ((Ix P → ℝ) × (Ix P → ℝ)) where
  carrier := { p | ∃ ex eu, p = (enc P 0 ex eu, enc P (fun i k => (cdir P y w ex eu i).getD k 0) 0 0) }
  zero_mem' := by
    refine ⟨0, 0, ?_⟩
    refine Prod.ext ?_ ?_
    · funext j
      rcases j with j | j | j <;> rfl
    · funext j
      rcases j with j | j | j
      · exact (cdir_zero P y w _ _).symm
      · rfl
      · rfl
  add_mem' := by
    rintro _ _ ⟨ex, eu, rfl⟩ ⟨ex', eu', rfl⟩
    refine ⟨fun i => (1 : ℝ) • ex i + ex' i, fun i => (1 : ℝ) • eu i + eu' i, Prod.ext ?_ ?_⟩
    · funext j
      rcases j with j | j | j <;> simp [enc]
    · funext j
      rcases j with j | j | j
      · show _ = (cdir P y w _ _ _).getD _ 0
        rw [cdir_lin, one_mul]
        rfl
      · simp [enc]
      · simp [enc]
  smul_mem' := by
    rintro a _ ⟨ex, eu, rfl⟩
    refine ⟨fun i => a • ex i + 0, fun i => a • eu i + 0, Prod.ext ?_ ?_⟩
    · funext j
      rcases j with j | j | j <;> simp [enc]
    · funext j
      rcases j with j | j | j
      · show _ = (cdir P y w _ _ _).getD _ 0
        have := cdir_lin P y w a ex 0 eu 0 j.1 j.2
        rw [cdir_zero, add_zero] at this
        exact this.symm
      · simp [enc]
      · simp [enc]

/-- The constraint values change at most in proportion to the distance. -/
theorem cstr_lipschitz {P : Prob nx nu N} {H : Hess nx nu N} (hL : Spec.IsLQE P H) (y : ∀ i, Fin (nx i) → ℝ) (w : ∀ i, Fin (nu i) → ℝ) :
    ∃ L : ℝ, 0 ≤ L ∧ ∀ (x : ∀ i, Fin (nx i) → ℝ) (u : ∀ i, Fin (nu i) → ℝ), ∀ i, i ≤ N → ∀ k, k < P.nc i →
      ((Spec.cstr P x u i).getD k 0 - (Spec.cstr P y w i).getD k 0) ^ 2 ≤ L * Spec.dist2 N x u y w := by
  have hz : ∀ g, ((0 : Ix P → ℝ), g) ∈ dirRel P y w → g = 0 := by
    rintro g ⟨ex, eu, he⟩
    have he1 : enc P 0 ex eu = 0 := (congrArg Prod.fst he).symm
    have he2 : g = _ := congrArg Prod.snd he
    have zx : ∀ i, i ≤ N → ex i = 0 := fun i hi => funext fun k => congrFun he1 (.inr (.inl ⟨⟨i, by omega⟩, k⟩))
    have zu : ∀ i, i < N → eu i = 0 := fun i hi => funext fun k => congrFun he1 (.inr (.inr ⟨⟨i, hi⟩, k⟩))
    rw [he2]
    funext j
    rcases j with j | j | j
    · refine Eq.trans ?_ (cdir_zero P y w j.1 j.2)
      show (cdir P y w ex eu j.1).getD j.2 0 = _
      congr 1
      unfold cdir
      split
      · rename_i h
        rw [zx _ h.le, zu _ h]
        rfl
      · rw [zx N le_rfl]
        rfl
    · rfl
    · rfl
  obtain ⟨L, hL0, hb⟩ := rel_bound (dirRel P y w) hz
  refine ⟨L, hL0, fun x u i hi k hk => ?_⟩
  have h := hb _ _ ⟨fun i => x i - y i, fun i => u i - w i, rfl⟩
  have hcd : (cdir P y w (fun i => x i - y i) (fun i => u i - w i) i).getD k 0 =
      (Spec.cstr P x u i).getD k 0 - (Spec.cstr P y w i).getD k 0 := by
    have := cstr_add hL y (fun i => x i - y i) w (fun i => u i - w i) i k
    rw [show (fun i => y i + (x i - y i)) = x by funext i; simp, show (fun i => w i + (u i - w i)) = u by funext i; simp] at this
    linarith
  have h1 := Finset.single_le_sum (f := fun j => enc P (fun i k => (cdir P y w (fun i => x i - y i) (fun i => u i - w i) i).getD k 0) 0 0 j ^ 2)
    (fun _ _ => sq_nonneg _) (Finset.mem_univ (.inl ⟨⟨i, Nat.lt_succ_iff.2 hi⟩, ⟨k, hk⟩⟩ : Ix P))
  have h2 : ((cdir P y w (fun i => x i - y i) (fun i => u i - w i) i).getD k 0) ^ 2 ≤ _ := h1.trans h
  rw [hcd] at h2
  refine h2.trans (le_of_eq ?_)
  rw [enc_sq]
  simp [Spec.dist2]

/-- **C79** A strictly complementary solution of a linear-quadratic problem has a neighbourhood in which the active constraints can be
told, for every factor of the penalty parameter. -/
theorem C79_told {P : Prob nx nu N} {H : Hess nx nu N} (hL : Spec.IsLQE P H) {sk : ℕ → List Spec.SetKind} {y : ∀ i, Fin (nx i) → ℝ}
    {w : ∀ i, Fin (nu i) → ℝ} {vb : ℕ → List ℝ} (hs : Spec.StrictlyComplementary P sk y w vb) (theta : ℝ) (ht : 0 < theta) :
    ∃ D : ℝ, 0 < D ∧ Spec.Told P sk theta D y w vb := by
  obtain ⟨L, hL0, hlip⟩ := cstr_lipschitz hL y w
  obtain ⟨t, ht0, hC⟩ := small_number P (fun i k t =>
    (¬ Spec.held sk vb i k → ∀ e : ℝ, e ^ 2 ≤ L * t ^ 2 → (Spec.cstr P y w i).getD k 0 + e ∈ ((sk i).getD k .eq).set) ∧
    ((vb i).getD k 0 ≠ 0 → (2 + theta) * t < theta * |(vb i).getD k 0|)) fun i hi k hk => by
      by_cases hv : (vb i).getD k 0 = 0
      · by_cases hK : (sk i).getD k .eq = .eq
        · exact ⟨1, one_pos, fun t _ _ => ⟨fun hh => absurd ((held_iff _ _ _ _).2 (Or.inl hK)) hh, fun h => absurd hv h⟩⟩
        · obtain ⟨r, hr, hin⟩ := inside_near _ hK (hs i hi k (by rw [cstr_length']; exact hk) hv)
          refine ⟨r / (L + 1), by positivity, fun t t0 t1 => ⟨fun _ e he => hin e ?_, fun h => absurd hv h⟩⟩
          rw [lt_div_iff₀ (by positivity)] at t1
          have h1 : e ^ 2 ≤ (t * (L + 1)) ^ 2 := by nlinarith [sq_nonneg t, mul_nonneg hL0 (sq_nonneg t), mul_nonneg hL0 hL0, mul_nonneg (mul_nonneg hL0 hL0) (sq_nonneg t)]
          exact (abs_le_of_sq_le_sq h1 (by positivity)).trans_lt t1
      · refine ⟨theta * |(vb i).getD k 0| / (2 + theta), by positivity, fun t t0 t1 =>
          ⟨fun hh => absurd ((held_iff _ _ _ _).2 (Or.inr hv)) hh, fun _ => ?_⟩⟩
        rw [lt_div_iff₀ (by positivity)] at t1
        linarith
  refine ⟨t ^ 2, by positivity, ⟨fun x u hd i hi k hk hh => ?_, fun i hi k hk _ hv => ?_⟩⟩
  · rw [cstr_length'] at hk
    have h1 := (hC i hi k hk).1 hh _ ((hlip x u i hi k hk).trans (mul_le_mul_of_nonneg_left hd hL0))
    rwa [add_sub_cancel] at h1
  · rw [cstr_length'] at hk
    rw [Real.sqrt_sq ht0.le]
    exact (hC i hi k hk).2 hv

/-- **C79** On every convex problem with a unique, strictly complementary first-order point there are constants of the problem alone
with which every full step from a state on the sides of that point contracts the weighted squared distance by any factor wanted,
whenever penalty parameter and regularisation are small enough. -/
theorem C79_contraction_unique {P : Prob nx nu N} {H : Hess nx nu N} (hL : Spec.IsLQE P H) (hC : Spec.Convex N H) {S : Setup}
    {sk : ℕ → List Spec.SetKind} (hS : LibSets P S fun i => (sk i).map Spec.SetKind.kind) {y : ∀ i, Fin (nx i) → ℝ}
    {w : ∀ i, Fin (nu i) → ℝ} {lam0 : Fin P.nc0 → ℝ}
    {lam : ∀ i, Fin (nx (i + 1)) → ℝ} {vb : ℕ → List ℝ} (hk : Spec.KKTPointI P sk (S.force = true) y w lam0 lam vb)
    (hsc : Spec.StrictlyComplementary P sk y w vb) (hu : Spec.UniqueKKTI P sk (S.force = true) y w vb) (q : ℝ) (hq : 0 < q) :
    ∃ rho : ℝ, 0 < rho ∧ ∀ (exact : Bool) (s : SSt P) (d : Dir nx nu P.nc0), 0 < s.mu → 0 ≤ s.preg → s.mu ≤ rho → s.preg ≤ rho →
      Shape P s.prevV → Shape P s.x.vs → OnSides P sk vb s.mu s.prevV s.x.x s.x.u → FreeZero P sk vb s.prevV →
      Solves P S exact H s d → GoodStart P S.force (s.x.x 0) →
      s.preg * Spec.dist2 N (linearStep s.x (d.forced S.force) 1).x (linearStep s.x (d.forced S.force) 1).u y w +
        s.mu * Spec.vdist2 N P.nc (linearStep s.x (d.forced S.force) 1).vs vb ≤
      q * (s.preg * Spec.dist2 N s.x.x s.x.u y w + s.mu * Spec.vdist2 N P.nc s.prevV vb) := by
  obtain ⟨K, hK, hE⟩ := C79_error_bound hL hk hsc hu
  refine ⟨min 1 (q / (K + 1)), lt_min one_pos (by positivity), fun exact s d hmu hpr h1 h2 hv hvs hside hz hs hG => ?_⟩
  set rho := min 1 (q / (K + 1)) with hrho
  have hr0 : 0 < rho := lt_min one_pos (by positivity)
  have h := C79_contraction hL hC hS hmu hpr hv hvs hs hG rfl hk hside hz hK hE h1 h2
  set A := s.preg * Spec.dist2 N (linearStep s.x (d.forced S.force) 1).x (linearStep s.x (d.forced S.force) 1).u y w +
        s.mu * Spec.vdist2 N P.nc (linearStep s.x (d.forced S.force) 1).vs vb
  set B := s.preg * Spec.dist2 N s.x.x s.x.u y w + s.mu * Spec.vdist2 N P.nc s.prevV vb
  have hA : 0 ≤ A := add_nonneg (mul_nonneg hpr (dist2_nonneg _ _ _ _)) (mul_nonneg hmu.le (vdist2_nonneg _ _ _))
  have hB : 0 ≤ B := add_nonneg (mul_nonneg hpr (dist2_nonneg _ _ _ _)) (mul_nonneg hmu.le (vdist2_nonneg _ _ _))
  have hK2 : K * rho ^ 2 ≤ q := by
    have e1 : rho ≤ 1 := min_le_left _ _
    have e2 : rho ≤ q / (K + 1) := min_le_right _ _
    have e3 : rho ^ 2 ≤ q / (K + 1) := by nlinarith
    have e4 : (K + 1) * (q / (K + 1)) = q := by field_simp
    have e5 : K * rho ^ 2 ≤ (K + 1) * (q / (K + 1)) := by
      have : 0 ≤ q / (K + 1) := by positivity
      nlinarith
    linarith
  have hk0 : 0 ≤ K * rho ^ 2 * A := by positivity
  have : K * rho ^ 2 * B ≤ q * B := mul_le_mul_of_nonneg_right hK2 hB
  linarith


/-! ### Examples -/

theorem bw_strict : Spec.StrictlyComplementary wit (bwKinds 0) (fun _ => 0) (fun _ => 0) eqVb := by
  intro i hi k hk hv
  interval_cases i
  · have hk0 : k = 0 := by
      have : k < 1 := by simpa [Spec.cstr, wit] using hk
      omega
    subst hk0
    norm_num [eqVb] at hv
  · simp [Spec.cstr, wit] at hk

/-- the solution `u = 0` with the multiplier `-1` is the only one -/
theorem bw_unique : Spec.UniqueKKTI wit (bwKinds 0) ((bwSetup 0).force = true) (fun _ => 0) (fun _ => 0) eqVb := by
  intro x u l0 l v h
  obtain ⟨x0, x1⟩ := wit_feasible h.feasible
  have c0 : Spec.cstr wit x u 0 = [u 0 0] := by simp [Spec.cstr, wit]
  have c1 : Spec.cstr wit x u 1 = [] := by simp [Spec.cstr, wit]
  obtain ⟨b, hb⟩ := List.length_eq_one_iff.1 (show (v 0).length = 1 by rw [h.sizes 0 (by omega), c0]; rfl)
  have hb1 : v 1 = [] := List.length_eq_zero_iff.1 (by rw [h.sizes 1 le_rfl, c1]; rfl)
  have d1 := h.stationary (fun _ => 0) (fun _ _ => 1) (fun _ => rfl)
  have e := d1.unique (wit_deriv l0 l v b hb hb1 x u (fun _ => 0) (fun _ _ => 1))
  simp at e
  have hn := h.normal 0 (by omega) 0 (by rw [c0]; simp)
  rw [c0, hb] at hn
  obtain ⟨⟨n1, n2⟩, n3⟩ : (u 0 0 ∈ Set.Icc (0 : ℝ) 2) ∧ ∀ z ∈ Set.Icc (0 : ℝ) 2, b * (z - u 0 0) ≤ 0 := hn
  have hz := n3 0 ⟨le_rfl, by norm_num⟩
  have hu : u 0 0 = 0 := by nlinarith
  have hb0 : b = -1 := by linarith
  refine ⟨fun i hi => ?_, fun i hi => ?_, fun i hi => ?_⟩
  · interval_cases i
    · exact x0
    · exact x1
  · interval_cases i
    funext k
    rw [Subsingleton.elim k 0]
    exact hu
  · interval_cases i
    · rw [hb, hb0]; rfl
    · rw [hb1]; rfl

example : ∃ K : ℝ, 0 ≤ K ∧ Spec.ErrorBoundOn wit ((bwSetup 0).force = true) (Spec.held (bwKinds 0) eqVb) K (fun _ => 0) (fun _ => 0) eqVb :=
  C79_error_bound wit_isLQE bw_kkt bw_strict bw_unique

example : ∃ D : ℝ, 0 < D ∧ Spec.Told wit (bwKinds 0) 0.01 D (fun _ => 0) (fun _ => 0) eqVb :=
  C79_told wit_isLQE bw_strict 0.01 (by norm_num)

/-- with no active bound: `-3 ≤ u ≤ 2`, solution `u = -1` -/
example : ∃ D : ℝ, 0 < D ∧ Spec.Told wit (bwKinds (-3)) 0.01 D (fun _ => 0) (fun _ _ => -1) ineVb := by
  refine C79_told wit_isLQE (fun i hi k hk hv => ?_) 0.01 (by norm_num)
  interval_cases i
  · have hk0 : k = 0 := by
      have : k < 1 := by simpa [Spec.cstr, wit] using hk
      omega
    subst hk0
    norm_num [bwKinds, Spec.SetKind.Inside, Spec.cstr, wit]
  · simp [Spec.cstr, wit] at hk

example := C79_contraction_unique wit_isLQE wit_convex (bw_sets 0) bw_kkt bw_strict bw_unique 0.5 (by norm_num)

/-- a step to which the contraction applies -/
example (rho : ℝ) (h : 0 < rho) : ∃ (s : SSt wit) (d : Dir (fun _ => 1) (fun _ => 1) 1), 0 < s.mu ∧ 0 ≤ s.preg ∧ s.mu ≤ rho ∧ s.preg ≤ rho ∧
    Shape wit s.prevV ∧ Shape wit s.x.vs ∧ OnSides wit (bwKinds 0) eqVb s.mu s.prevV s.x.x s.x.u ∧ FreeZero wit (bwKinds 0) eqVb s.prevV ∧
    Solves wit (bwSetup 0) true witHess s d ∧ GoodStart wit (bwSetup 0).force (s.x.x 0) ∧ s.x.u 0 0 = -1 := by
  let s : SSt wit := { witSt with x := { witIter with u := fun _ _ => -1 }, mu := rho, preg := rho, prevV := eqV0 }
  have hE : EqAt s (-1) (-0.7) 0 := ⟨rfl, rfl, rfl, rfl, rfl, rfl, rfl, h, h.le⟩
  obtain ⟨d, hd⟩ := bw_solvable 0 hE true
  refine ⟨s, d, h, h.le, le_rfl, le_rfl, hE.shapes.1, hE.shapes.2, fun i hi k hk => ?_, fun i hi k hk hn => ?_, hd, wit_goodStart _ rfl _, rfl⟩
  · interval_cases i
    · have : k = 0 := Nat.lt_one_iff.1 hk
      subst this
      have c0 : Spec.cstr wit s.x.x s.x.u 0 = [-1] := by simp [Spec.cstr, wit, s]
      have p0 : s.prevV 0 = [-0.7] := rfl
      have m : s.mu = rho := rfl
      unfold shiftV
      rw [c0, p0, m]
      refine ⟨fun h => ?_, fun _ => ?_, fun h => ?_⟩
      · norm_num [eqVb] at h
      · show (-1 : ℝ) + rho * (-0.7) < 0
        nlinarith
      · norm_num [eqVb] at h
    · exact absurd hk (Nat.not_lt_zero _)
  · interval_cases i
    · have : k = 0 := Nat.lt_one_iff.1 hk
      subst this
      exact absurd bw_heldRow hn
    · exact absurd hk (Nat.not_lt_zero _)

example {s : SSt wit} {w a b : ℝ} (h : EqAt s w a b) {exact : Bool} {d} (hd : Solves wit (bwSetup 0) exact witHess s d)
    (hside : OnSides wit (bwKinds 0) eqVb s.mu s.prevV s.x.x s.x.u) (hf : FreeZero wit (bwKinds 0) eqVb s.prevV) :=
  C79_closer wit_isLQE wit_convex (bw_sets 0) h.mu h.shapes.1 h.shapes.2 hd (wit_goodStart _ h.x0 _) rfl bw_kkt hside hf

end Aligator.Link
