import Verif.Spec.SolverIneqRun
import Verif.Props.SolverIneq

/-!
# Runs of ProxDDP on linear-quadratic problems with inequality path constraints (C79)
-/

namespace Aligator.Link

open Matrix CSets Lag LQ

variable {nx nu : ℕ → ℕ} {N : ℕ}

/-! ### The sides -/

/-- On the right side the projection is that of an equality, or nothing. -/
theorem onSide_cone (K : Spec.SetKind) {c v z : ℝ} (hn : Spec.Normal K.set c v) (hz : K.OnSide v z) :
    (K.Held v → K.kind.cone z = z - c ∧ K.kind.flag z = true) ∧ (¬ K.Held v → K.kind.cone z = 0 ∧ K.kind.flag z = false) := by
  obtain ⟨hc, hm⟩ := hn
  cases K with
  | eq =>
    have hc' : c = 0 := hc
    refine ⟨fun _ => ?_, fun h => absurd trivial h⟩
    rw [hc']
    exact ⟨(sub_zero z).symm, rfl⟩
  | nonpos =>
    obtain ⟨h1, h2⟩ := hz
    have hc' : c ≤ 0 := hc
    refine ⟨fun h => ?_, fun h => ?_⟩
    · have hz0 := h1 h
      have hv : v ≠ 0 := h
      have m0 := hm 0 (by simp [Spec.SetKind.set])
      have m1 := hm (c - 1) (by show c - 1 ≤ 0; linarith)
      have hv0 : 0 < v := lt_of_le_of_ne (by nlinarith) hv.symm
      have : c = 0 := by nlinarith
      subst this
      exact ⟨by show max z 0 = _; rw [max_eq_left hz0.le, sub_zero], by show decide (z > 0) = true; simpa using hz0⟩
    · have hz0 := h2 (not_not.1 h)
      exact ⟨max_eq_right hz0, by show decide (z > 0) = false; simpa using hz0⟩
  | box l u =>
    obtain ⟨h1, h2, h3⟩ := hz
    obtain ⟨hl, hu⟩ : l ≤ c ∧ c ≤ u := hc
    refine ⟨fun h => ?_, fun h => ?_⟩
    · have hv : v ≠ 0 := h
      rcases lt_or_gt_of_ne hv with hv | hv
      · have hz0 := h2 hv
        have m0 := hm l ⟨le_rfl, hl.trans hu⟩
        have : c = l := by nlinarith
        subst this
        refine ⟨?_, ?_⟩
        · show z - max (min z u) c = z - c
          rw [max_eq_right ((min_le_left _ _).trans hz0.le)]
        · show (decide (z > u) || decide (z < c)) = true
          simp [hz0]
      · have hz0 := h1 hv
        have m0 := hm u ⟨hl.trans hu, le_rfl⟩
        have : c = u := by nlinarith
        subst this
        refine ⟨?_, ?_⟩
        · show z - max (min z c) l = z - c
          rw [min_eq_right hz0.le, max_eq_left hl]
        · show (decide (z > c) || decide (z < l)) = true
          simp [hz0]
    · obtain ⟨z1, z2⟩ := h3 (not_not.1 h)
      refine ⟨?_, ?_⟩
      · show z - max (min z u) l = 0
        rw [min_eq_left z2, max_eq_left z1, sub_self]
      · show (decide (z > u) || decide (z < l)) = false
        simp [z1, z2]

/-- The values allowed are on the side of a zero multiplier. -/
theorem onSide_zero (K : Spec.SetKind) {z : ℝ} (h : z ∈ K.set) : K.OnSide 0 z := by
  cases K with
  | eq => exact trivial
  | nonpos => exact ⟨fun h => absurd rfl h, fun _ => h⟩
  | box l u => exact ⟨fun h => absurd h (lt_irrefl _), fun h => absurd h (lt_irrefl _), fun _ => h⟩

/-- Beyond the value of a held inequality in the direction of its multiplier. -/
theorem onSide_held (K : Spec.SetKind) {c v z : ℝ} (hn : Spec.Normal K.set c v) (hK : K.Held v)
    (h1 : K ≠ .eq → 0 < v → c < z) (h2 : K ≠ .eq → v < 0 → z < c) : K.OnSide v z := by
  obtain ⟨hc, hm⟩ := hn
  cases K with
  | eq => exact trivial
  | nonpos =>
    have hv : v ≠ 0 := hK
    have hc' : c ≤ 0 := hc
    have m0 := hm 0 (by simp [Spec.SetKind.set])
    have m1 := hm (c - 1) (by show c - 1 ≤ 0; linarith)
    have hv0 : 0 < v := lt_of_le_of_ne (by nlinarith) hv.symm
    have : c = 0 := by nlinarith
    subst this
    exact ⟨fun _ => h1 (by simp) hv0, fun h => absurd h hv⟩
  | box l u =>
    have hv : v ≠ 0 := hK
    obtain ⟨hl, hu⟩ : l ≤ c ∧ c ≤ u := hc
    refine ⟨fun h => ?_, fun h => ?_, fun h => absurd h hv⟩
    · have m0 := hm u ⟨hl.trans hu, le_rfl⟩
      have : c = u := by nlinarith
      subst this
      exact h1 (by simp) h
    · have m0 := hm l ⟨le_rfl, hl.trans hu⟩
      have : c = l := by nlinarith
      subst this
      exact h2 (by simp) h

/-- A multiplier with the sign of that of the solution is in the normal cone at its value. -/
theorem normal_sign (K : Spec.SetKind) {c v v' : ℝ} (hn : Spec.Normal K.set c v) (h1 : K ≠ .eq → 0 < v → 0 ≤ v')
    (h2 : K ≠ .eq → v < 0 → v' ≤ 0) (h3 : K ≠ .eq → v = 0 → v' = 0) : Spec.Normal K.set c v' := by
  obtain ⟨hc, hm⟩ := hn
  refine ⟨hc, fun z hz => ?_⟩
  by_cases hK : K = .eq
  · subst hK
    have hz' : z = 0 := hz
    have hc' : c = 0 := hc
    simp [hz', hc']
  · have := hm z hz
    rcases lt_trichotomy v 0 with h | h | h
    · have h' := h2 hK h
      have : 0 ≤ z - c := by
        by_contra hn
        nlinarith
      nlinarith
    · rw [h3 hK h, zero_mul]
    · have h' := h1 hK h
      have : z - c ≤ 0 := by
        by_contra hn
        nlinarith
      nlinarith

/-! ### Iterates on the sides of a solution -/

/-- The shifted value of every row is on the side of the solution's multipliers. -/
def OnSides (P : Prob nx nu N) (sk : ℕ → List Spec.SetKind) (vb : ℕ → List ℝ) (mu : ℝ) (v : ℕ → List ℝ)
    (x : ∀ i, Fin (nx i) → ℝ) (u : ∀ i, Fin (nu i) → ℝ) : Prop :=
  ∀ i, i ≤ N → ∀ k, k < P.nc i → ((sk i).getD k .eq).OnSide ((vb i).getD k 0) (shiftV P mu v x u i k)

/-- Zero on the rows that are not held. -/
def FreeZero (P : Prob nx nu N) (sk : ℕ → List Spec.SetKind) (vb v : ℕ → List ℝ) : Prop :=
  ∀ i, i ≤ N → ∀ k, k < P.nc i → ¬ Spec.held sk vb i k → (v i).getD k 0 = 0

/-- The deviations are `mu` times the difference of the multipliers to `v`. -/
def RelI (P : Prob nx nu N) (hd : ℕ → ℕ → Prop) (y : ∀ i, Fin (nx i) → ℝ) (w : ∀ i, Fin (nu i) → ℝ) (mu : ℝ) (v : ℕ → List ℝ)
    (it : Iter nx nu P.nc0) : Prop :=
  ∀ i, i ≤ N → ∀ k, (Spec.devs P hd y w it.x it.u i).getD k 0 = mu * ((it.vs i).getD k 0 - (v i).getD k 0)

theorem devs_length (P : Prob nx nu N) (hd : ℕ → ℕ → Prop) (y : ∀ i, Fin (nx i) → ℝ) (w : ∀ i, Fin (nu i) → ℝ)
    (x : ∀ i, Fin (nx i) → ℝ) (u : ∀ i, Fin (nu i) → ℝ) (i : ℕ) : (Spec.devs P hd y w x u i).length = P.nc i := by
  simp [Spec.devs, cstr_length']

theorem devs_held {P : Prob nx nu N} {hd : ℕ → ℕ → Prop} (y : ∀ i, Fin (nx i) → ℝ) (w : ∀ i, Fin (nu i) → ℝ)
    (x : ∀ i, Fin (nx i) → ℝ) (u : ∀ i, Fin (nu i) → ℝ) {i k : ℕ} (hk : k < P.nc i) (h : hd i k) :
    (Spec.devs P hd y w x u i).getD k 0 = (Spec.cstr P x u i).getD k 0 - (Spec.cstr P y w i).getD k 0 := by
  rw [List.getD_eq_getElem _ _ (by rw [devs_length]; exact hk)]
  simp [Spec.devs, h]

theorem devs_free {P : Prob nx nu N} {hd : ℕ → ℕ → Prop} (y : ∀ i, Fin (nx i) → ℝ) (w : ∀ i, Fin (nu i) → ℝ)
    (x : ∀ i, Fin (nx i) → ℝ) (u : ∀ i, Fin (nu i) → ℝ) {i k : ℕ} (h : ¬ hd i k) :
    (Spec.devs P hd y w x u i).getD k 0 = 0 := by
  by_cases hk : k < P.nc i
  · rw [List.getD_eq_getElem _ _ (by rw [devs_length]; exact hk)]
    simp [Spec.devs, h]
  · rw [List.getD_eq_default _ _ (by rw [devs_length]; exact not_lt.1 hk)]

/-- A full step from the sides of a solution treats the held rows as equalities and drops the others. -/
theorem step_held {P : Prob nx nu N} {sk : ℕ → List Spec.SetKind} {force : Bool} {s : SSt P} {d : Dir nx nu P.nc0}
    {it : Iter nx nu P.nc0} (hmu : 0 < s.mu) (hv : Shape P s.prevV)
    (hF : StepI P (fun i => (sk i).map Spec.SetKind.kind) force s d it) {fixed : Prop} {y : ∀ i, Fin (nx i) → ℝ}
    {w : ∀ i, Fin (nu i) → ℝ} {lam0 : Fin P.nc0 → ℝ} {lam : ∀ i, Fin (nx (i + 1)) → ℝ} {vb : ℕ → List ℝ}
    (hk : Spec.KKTPointI P sk fixed y w lam0 lam vb) (hside : OnSides P sk vb s.mu s.prevV s.x.x s.x.u)
    (hz : FreeZero P sk vb s.prevV) : FreeZero P sk vb it.vs ∧ RelI P (Spec.held sk vb) y w s.mu s.prevV it := by
  have key : ∀ i, i ≤ N → ∀ k, k < P.nc i → (Spec.held sk vb i k → s.mu * (it.vs i).getD k 0 =
      shiftV P s.mu s.prevV it.x it.u i k - (Spec.cstr P y w i).getD k 0) ∧ (¬ Spec.held sk vb i k → (it.vs i).getD k 0 = 0) := by
    intro i hi k hk'
    have hn := hk.normal i hi k (by rw [cstr_length']; exact hk')
    obtain ⟨c1, c2⟩ := onSide_cone _ hn (hside i hi k hk')
    have hr := hF.row i hi k hk'
    rw [kindAt_map] at hr
    refine ⟨fun h => ?_, fun h => ?_⟩
    · obtain ⟨e1, e2⟩ := c1 h
      rw [e1, e2, if_pos rfl] at hr
      rw [hr]
      ring
    · obtain ⟨e1, e2⟩ := c2 h
      rw [e1, e2] at hr
      simp only [Bool.false_eq_true, if_false, add_zero] at hr
      exact (mul_eq_zero.1 hr).resolve_left hmu.ne'
  refine ⟨fun i hi k hk' h => (key i hi k hk').2 h, fun i hi k => ?_⟩
  by_cases hk' : k < P.nc i
  · by_cases h : Spec.held sk vb i k
    · rw [devs_held y w it.x it.u hk' h]
      have := (key i hi k hk').1 h
      unfold shiftV at this
      linarith
    · rw [devs_free y w it.x it.u h, (key i hi k hk').2 h, hz i hi k hk' h, sub_self, mul_zero]
  · rw [List.getD_eq_default _ _ (by rw [devs_length]; exact not_lt.1 hk'),
      List.getD_eq_default _ _ (by rw [hF.shape i hi]; exact not_lt.1 hk'),
      List.getD_eq_default _ _ (by rw [hv i hi]; exact not_lt.1 hk'), sub_self, mul_zero]

/-- Sum of squares of the deviations. -/
noncomputable def dev2 (P : Prob nx nu N) (hd : ℕ → ℕ → Prop) (y : ∀ i, Fin (nx i) → ℝ) (w : ∀ i, Fin (nu i) → ℝ)
    (x : ∀ i, Fin (nx i) → ℝ) (u : ∀ i, Fin (nu i) → ℝ) : ℝ :=
  Spec.vdist2 N P.nc (Spec.devs P hd y w x u) fun _ => []

theorem dev2_rel {P : Prob nx nu N} {hd : ℕ → ℕ → Prop} {y : ∀ i, Fin (nx i) → ℝ} {w : ∀ i, Fin (nu i) → ℝ} {mu : ℝ}
    {v : ℕ → List ℝ} {it : Iter nx nu P.nc0} (h : RelI P hd y w mu v it) :
    dev2 P hd y w it.x it.u = mu ^ 2 * Spec.vdist2 N P.nc it.vs v := by
  unfold dev2 Spec.vdist2
  rw [Finset.mul_sum]
  refine Finset.sum_congr rfl fun i hi => ?_
  rw [Finset.mul_sum]
  refine Finset.sum_congr rfl fun k _ => ?_
  rw [h i (Nat.lt_succ_iff.1 (Finset.mem_range.1 hi)) k]
  simp
  ring

/-- **C79** From the sides of a solution, a full step on a convex problem never increases the weighted squared distance of
trajectory and multipliers to this solution, wherever it leads: no condition on the sides after the step. -/
theorem C79_closer {P : Prob nx nu N} {H : Hess nx nu N} (hL : Spec.IsLQE P H) (hC : Spec.Convex N H) {S : Setup}
    {sk : ℕ → List Spec.SetKind} (hS : LibSets P S fun i => (sk i).map Spec.SetKind.kind) {exact : Bool} {s : SSt P}
    {d : Dir nx nu P.nc0} (hmu : 0 < s.mu) (hv : Shape P s.prevV) (hvs : Shape P s.x.vs) (hs : Solves P S exact H s d)
    (hG : GoodStart P S.force (s.x.x 0)) {it : Iter nx nu P.nc0} (hit : it = linearStep s.x (d.forced S.force) 1)
    {y : ∀ i, Fin (nx i) → ℝ} {w : ∀ i, Fin (nu i) → ℝ} {lam0 : Fin P.nc0 → ℝ} {lam : ∀ i, Fin (nx (i + 1)) → ℝ} {vb : ℕ → List ℝ}
    (hk : Spec.KKTPointI P sk (S.force = true) y w lam0 lam vb) (hside : OnSides P sk vb s.mu s.prevV s.x.x s.x.u)
    (hz : FreeZero P sk vb s.prevV) :
    s.preg * Spec.dist2 N it.x it.u y w + s.mu * Spec.vdist2 N P.nc it.vs vb +
      (s.preg * Spec.dist2 N it.x it.u s.x.x s.x.u + dev2 P (Spec.held sk vb) y w it.x it.u / s.mu) ≤
      s.preg * Spec.dist2 N s.x.x s.x.u y w + s.mu * Spec.vdist2 N P.nc s.prevV vb := by
  have hF := C78_full_step hL hS hmu hv hvs hs hG
  rw [← hit] at hF
  obtain ⟨hfree, hrel⟩ := step_held hmu hv hF hk hside hz
  have ex0 : S.force = true → it.x 0 - y 0 = 0 := start_zero hL hG hF.feasible.init hk.feasible.init
  have k1 := pair_to_solution hL hF.shape hF.feasible hk ex0
  rw [stepI_pair hF _ _ ex0] at k1
  have hvb : FreeZero P sk vb vb := by
    intro i _ k _ h
    unfold Spec.held Spec.SetKind.Held at h
    split at h
    · exact absurd trivial h
    · exact not_not.1 h
  have hcr : ∑ i ∈ Finset.range (N + 1), ∑ k ∈ Finset.range (P.nc i),
        ((it.vs i).getD k 0 - (vb i).getD k 0) * ((Spec.cstr P it.x it.u i).getD k 0 - (Spec.cstr P y w i).getD k 0) =
      s.mu * ∑ i ∈ Finset.range (N + 1), ∑ k ∈ Finset.range (P.nc i),
        ((it.vs i).getD k 0 - (vb i).getD k 0) * ((it.vs i).getD k 0 - (s.prevV i).getD k 0) := by
    rw [Finset.mul_sum]
    refine Finset.sum_congr rfl fun i hi => ?_
    rw [Finset.mul_sum]
    refine Finset.sum_congr rfl fun k hk' => ?_
    have hi := Nat.lt_succ_iff.1 (Finset.mem_range.1 hi)
    have hk' := Finset.mem_range.1 hk'
    by_cases h : Spec.held sk vb i k
    · rw [← devs_held y w it.x it.u hk' h, hrel i hi k]
      ring
    · rw [hfree i hi k hk' h, hvb i hi k hk' h]
      ring
  have hcc := vdist2_cross (N := N) P.nc it.vs vb s.prevV
  have hd2 := dev2_rel hrel
  have hx2 := dist2_add (N := N) s.x.x d.dx y s.x.u d.du w
  rw [← hF.x, ← hF.u] at hx2
  have ei : inner2 N d.dx d.du (fun i => s.x.x i + d.dx i - y i) (fun i => s.x.u i + d.du i - w i) =
      inner2 N d.dx d.du (fun i => it.x i - y i) (fun i => it.u i - w i) := by
    congr 1
    · funext i; rw [hF.x]
    · funext i; rw [hF.u]
  rw [ei] at hx2
  set I := inner2 N d.dx d.du (fun i => it.x i - y i) (fun i => it.u i - w i)
  have m1 : s.preg * (Spec.dist2 N it.x it.u y w + Spec.dist2 N it.x it.u s.x.x s.x.u - Spec.dist2 N s.x.x s.x.u y w) =
    s.preg * (2 * I) := by rw [hx2]
  have hq := quad_nonneg hC (fun i => it.x i - y i) (fun i => it.u i - w i)
  have e2 : dev2 P (Spec.held sk vb) y w it.x it.u / s.mu = s.mu * Spec.vdist2 N P.nc it.vs s.prevV := by
    rw [hd2]
    field_simp
  rw [e2]
  rw [hcr] at k1
  have m2 : s.mu * (Spec.vdist2 N P.nc it.vs vb + Spec.vdist2 N P.nc it.vs s.prevV - Spec.vdist2 N P.nc s.prevV vb) =
    s.mu * (2 * ∑ i ∈ Finset.range (N + 1), ∑ k ∈ Finset.range (P.nc i),
      ((it.vs i).getD k 0 - (vb i).getD k 0) * ((it.vs i).getD k 0 - (s.prevV i).getD k 0)) := by rw [hcc]
  linarith

theorem step_errorI {P : Prob nx nu N} {H : Hess nx nu N} (hL : Spec.IsLQE P H) {ks : ℕ → List Kind} {force : Bool} {s : SSt P}
    {d : Dir nx nu P.nc0} {it : Iter nx nu P.nc0} (hF : StepI P ks force s d it) (h0 : force = true → d.dx 0 = 0) {K : ℝ}
    {y : ∀ i, Fin (nx i) → ℝ} {w : ∀ i, Fin (nu i) → ℝ} {sk : ℕ → List Spec.SetKind} {vb : ℕ → List ℝ}
    (hz : FreeZero P sk vb it.vs) (hE : Spec.ErrorBoundOn P (force = true) (Spec.held sk vb) K y w vb) :
    Spec.dist2 N it.x it.u y w + Spec.vdist2 N P.nc it.vs vb ≤
      K * (dev2 P (Spec.held sk vb) y w it.x it.u + s.preg ^ 2 * Spec.dist2 N it.x it.u s.x.x s.x.u) := by
  have hnc : (fun i => (Spec.cstr P it.x it.u i).length) = P.nc := funext fun i => cstr_length' P it.x it.u i
  have h := hE it.x it.u it.lam.init it.lam.dyn it.vs (fun i => -(s.preg • d.dx i)) (fun i => -(s.preg • d.du i)) hF.feasible
    (fun i hi => (hF.shape i hi).trans (cstr_length' P it.x it.u i).symm)
    (fun i hi k hk h => hz i hi k (by rw [cstr_length'] at hk; exact hk) h) (fun hf => by rw [h0 hf]; simp) ?_
  · rw [hnc] at h
    refine h.trans (le_of_eq ?_)
    congr 2
    unfold Spec.dist2
    rw [hF.x, hF.u, mul_add, Finset.mul_sum, Finset.mul_sum]
    congr 1
    · refine Finset.sum_congr rfl fun i _ => ?_
      rw [Finset.mul_sum]
      refine Finset.sum_congr rfl fun k _ => ?_
      simp only [Pi.neg_apply, Pi.smul_apply, smul_eq_mul, Pi.zero_apply, Pi.add_apply]
      ring
    · refine Finset.sum_congr rfl fun i _ => ?_
      rw [Finset.mul_sum]
      refine Finset.sum_congr rfl fun k _ => ?_
      simp only [Pi.neg_apply, Pi.smul_apply, smul_eq_mul, Pi.zero_apply, Pi.add_apply]
      ring
  · intro ex eu hf
    have h1 := C27_lagrangian_gradient (P.spec it.x it.u) it.x it.u (IsLQE_right hL it.x it.u) it.lam it.vs
      (hF.shape.vShape it.x it.u) ex eu
    have h2 : pair (compute (pdata (P.spec it.x it.u)) (some it.lam) it.vs) N ex eu =
        (∑ i ∈ Finset.range (N + 1), (fun i => -(s.preg • d.dx i)) i ⬝ᵥ ex i) +
          ∑ i ∈ Finset.range N, (fun i => -(s.preg • d.du i)) i ⬝ᵥ eu i := by
      rw [stepI_pair hF ex eu hf]
      unfold inner2
      simp only [neg_dotProduct, smul_dotProduct, smul_eq_mul, Finset.sum_neg_distrib, ← Finset.mul_sum]
      ring
    refine HasDerivAt.congr_deriv ?_ h2
    refine h1.congr_of_eventuallyEq (Filter.Eventually.of_forall fun t => ?_)
    exact lagrangian_spec P it.x it.u it.lam it.vs _ _

/-- **C79** From the sides of a solution with an error bound, every full step contracts the weighted squared distance to it by the
factor `K ρ² / (1 + K ρ²)`, where `ρ` bounds the penalty parameter and the regularisation. -/
theorem C79_contraction {P : Prob nx nu N} {H : Hess nx nu N} (hL : Spec.IsLQE P H) (hC : Spec.Convex N H) {S : Setup}
    {sk : ℕ → List Spec.SetKind} (hS : LibSets P S fun i => (sk i).map Spec.SetKind.kind) {exact : Bool} {s : SSt P}
    {d : Dir nx nu P.nc0} (hmu : 0 < s.mu) (hpr : 0 ≤ s.preg) (hv : Shape P s.prevV) (hvs : Shape P s.x.vs)
    (hs : Solves P S exact H s d) (hG : GoodStart P S.force (s.x.x 0)) {it : Iter nx nu P.nc0}
    (hit : it = linearStep s.x (d.forced S.force) 1) {y : ∀ i, Fin (nx i) → ℝ} {w : ∀ i, Fin (nu i) → ℝ} {lam0 : Fin P.nc0 → ℝ}
    {lam : ∀ i, Fin (nx (i + 1)) → ℝ} {vb : ℕ → List ℝ} (hk : Spec.KKTPointI P sk (S.force = true) y w lam0 lam vb)
    (hside : OnSides P sk vb s.mu s.prevV s.x.x s.x.u) (hz : FreeZero P sk vb s.prevV) {K rho : ℝ} (hK : 0 ≤ K)
    (hE : Spec.ErrorBoundOn P (S.force = true) (Spec.held sk vb) K y w vb) (h1 : s.mu ≤ rho) (h2 : s.preg ≤ rho) :
    (1 + K * rho ^ 2) * (s.preg * Spec.dist2 N it.x it.u y w + s.mu * Spec.vdist2 N P.nc it.vs vb) ≤
      K * rho ^ 2 * (s.preg * Spec.dist2 N s.x.x s.x.u y w + s.mu * Spec.vdist2 N P.nc s.prevV vb) := by
  have hF := C78_full_step hL hS hmu hv hvs hs hG
  rw [← hit] at hF
  have he := step_errorI hL hF (lib_dx0 hL hS hmu hv hvs hs hG) (step_held hmu hv hF hk hside hz).1 hE
  have hc := C79_closer hL hC hS hmu hv hvs hs hG hit hk hside hz
  have n1 := dist2_nonneg (N := N) it.x it.u y w
  have n2 := vdist2_nonneg (N := N) P.nc it.vs vb
  have n3 := dist2_nonneg (N := N) it.x it.u s.x.x s.x.u
  have n4 : 0 ≤ dev2 P (Spec.held sk vb) y w it.x it.u := vdist2_nonneg _ _ _
  set a := Spec.dist2 N it.x it.u y w
  set b := Spec.vdist2 N P.nc it.vs vb
  set c := Spec.dist2 N it.x it.u s.x.x s.x.u
  set v := dev2 P (Spec.held sk vb) y w it.x it.u
  have hr : 0 ≤ rho := hmu.le.trans h1
  have m1 : s.preg * a ≤ rho * a := mul_le_mul_of_nonneg_right h2 n1
  have m2 : s.mu * b ≤ rho * b := mul_le_mul_of_nonneg_right h1 n2
  have m3 : rho * (a + b) ≤ rho * (K * (v + s.preg ^ 2 * c)) := mul_le_mul_of_nonneg_left he hr
  have m4 : v + s.preg ^ 2 * c ≤ rho * (s.preg * c + v / s.mu) := by
    have e1 : v = s.mu * (v / s.mu) := by field_simp
    have e2 : s.mu * (v / s.mu) ≤ rho * (v / s.mu) := mul_le_mul_of_nonneg_right h1 (div_nonneg n4 hmu.le)
    have e3 : s.preg * (s.preg * c) ≤ rho * (s.preg * c) := mul_le_mul_of_nonneg_right h2 (mul_nonneg hpr n3)
    calc v + s.preg ^ 2 * c = s.mu * (v / s.mu) + s.preg * (s.preg * c) := by rw [← e1]; ring
      _ ≤ rho * (v / s.mu) + rho * (s.preg * c) := add_le_add e2 e3
      _ = _ := by ring
  have m5 : rho * K * (v + s.preg ^ 2 * c) ≤ rho * K * (rho * (s.preg * c + v / s.mu)) := mul_le_mul_of_nonneg_left m4 (mul_nonneg hr hK)
  have m6 : K * rho ^ 2 * (s.preg * c + v / s.mu) ≤ K * rho ^ 2 * (s.preg * Spec.dist2 N s.x.x s.x.u y w +
      s.mu * Spec.vdist2 N P.nc s.prevV vb - (s.preg * a + s.mu * b)) :=
    mul_le_mul_of_nonneg_left (by linarith) (mul_nonneg hK (sq_nonneg _))
  nlinarith

/-! ### What the solver sees on the sides of a solution -/

/-- The largest absolute deviation. -/
noncomputable def violI (P : Prob nx nu N) (hd : ℕ → ℕ → Prop) (y : ∀ i, Fin (nx i) → ℝ) (w : ∀ i, Fin (nu i) → ℝ)
    (x : ∀ i, Fin (nx i) → ℝ) (u : ∀ i, Fin (nu i) → ℝ) : ℝ :=
  infNorm ((List.range (N + 1)).map fun i => infNorm (Spec.devs P hd y w x u i))

theorem violI_nonneg (P : Prob nx nu N) (hd : ℕ → ℕ → Prop) (y : ∀ i, Fin (nx i) → ℝ) (w : ∀ i, Fin (nu i) → ℝ)
    (x : ∀ i, Fin (nx i) → ℝ) (u : ∀ i, Fin (nu i) → ℝ) : 0 ≤ violI P hd y w x u := infNorm_nonneg _

theorem le_violI (P : Prob nx nu N) (hd : ℕ → ℕ → Prop) (y : ∀ i, Fin (nx i) → ℝ) (w : ∀ i, Fin (nu i) → ℝ)
    (x : ∀ i, Fin (nx i) → ℝ) (u : ∀ i, Fin (nu i) → ℝ) {i : ℕ} (hi : i ≤ N) (k : ℕ) :
    |(Spec.devs P hd y w x u i).getD k 0| ≤ violI P hd y w x u :=
  (getD_le_infNorm _ k).trans (infNorm_range (f := fun i => infNorm (Spec.devs P hd y w x u i)) (by omega))

theorem violI_le {P : Prob nx nu N} {hd : ℕ → ℕ → Prop} {y : ∀ i, Fin (nx i) → ℝ} {w : ∀ i, Fin (nu i) → ℝ}
    {x : ∀ i, Fin (nx i) → ℝ} {u : ∀ i, Fin (nu i) → ℝ} {b : ℝ} (hb : 0 ≤ b)
    (h : ∀ i, i ≤ N → ∀ k, |(Spec.devs P hd y w x u i).getD k 0| ≤ b) : violI P hd y w x u ≤ b := by
  refine infNorm_le hb fun a ha => ?_
  obtain ⟨i, hi, rfl⟩ := List.mem_map.1 ha
  rw [abs_of_nonneg (infNorm_nonneg _)]
  exact infNorm_le_getD hb (h i (Nat.lt_succ_iff.1 (List.mem_range.1 hi)))

theorem violI_sq (P : Prob nx nu N) (hd : ℕ → ℕ → Prop) (y : ∀ i, Fin (nx i) → ℝ) (w : ∀ i, Fin (nu i) → ℝ)
    (x : ∀ i, Fin (nx i) → ℝ) (u : ∀ i, Fin (nu i) → ℝ) : violI P hd y w x u ^ 2 ≤ dev2 P hd y w x u := by
  have n4 : 0 ≤ dev2 P hd y w x u := vdist2_nonneg _ _ _
  have h : violI P hd y w x u ≤ Real.sqrt (dev2 P hd y w x u) := by
    refine violI_le (Real.sqrt_nonneg _) fun i hi k => ?_
    by_cases hk : k < P.nc i
    · refine Real.abs_le_sqrt ?_
      have h1 : ((Spec.devs P hd y w x u i).getD k 0) ^ 2 ≤
          ∑ k ∈ Finset.range (P.nc i), ((Spec.devs P hd y w x u i).getD k 0 - ([] : List ℝ).getD k 0) ^ 2 := by
        have := Finset.single_le_sum (f := fun k => ((Spec.devs P hd y w x u i).getD k 0 - ([] : List ℝ).getD k 0) ^ 2)
          (fun _ _ => sq_nonneg _) (Finset.mem_range.2 hk)
        refine le_trans (le_of_eq ?_) this
        simp
      exact h1.trans (Finset.single_le_sum (f := fun i => ∑ k ∈ Finset.range (P.nc i),
        ((Spec.devs P hd y w x u i).getD k 0 - ([] : List ℝ).getD k 0) ^ 2)
        (fun _ _ => Finset.sum_nonneg fun _ _ => sq_nonneg _) (Finset.mem_range.2 (Nat.lt_succ_iff.2 hi)))
    · rw [List.getD_eq_default _ _ (by rw [devs_length]; exact not_lt.1 hk), abs_zero]
      exact Real.sqrt_nonneg _
  calc violI P hd y w x u ^ 2 ≤ Real.sqrt (dev2 P hd y w x u) ^ 2 := pow_le_pow_left₀ (violI_nonneg _ _ _ _ _ _) h 2
    _ = _ := Real.sq_sqrt n4

/-- The multiplier step of all rows. -/
theorem sides_ms {P : Prob nx nu N} {S : Setup} {sk : ℕ → List Spec.SetKind} (hS : LibSets P S fun i => (sk i).map Spec.SetKind.kind)
    {fixed : Prop} {y : ∀ i, Fin (nx i) → ℝ} {w : ∀ i, Fin (nu i) → ℝ} {lam0 : Fin P.nc0 → ℝ} {lam : ∀ i, Fin (nx (i + 1)) → ℝ}
    {vb : ℕ → List ℝ} (hk : Spec.KKTPointI P sk fixed y w lam0 lam vb) {mu : ℝ} (hmu : 0 < mu) {v : ℕ → List ℝ}
    {it : Iter nx nu P.nc0} (hv : Shape P v) (hvs : Shape P it.vs) (hz : FreeZero P sk vb v) (hzs : FreeZero P sk vb it.vs)
    (hside : OnSides P sk vb mu v it.x it.u) {i : ℕ} (hi : i ≤ N) :
    ((mult P S mu v it).1.ms i).infeas = Spec.devs P (Spec.held sk vb) y w it.x it.u i ∧
    ∀ k, (((mult P S mu v it).1.ms i).Lvs).getD k 0 =
      (Spec.devs P (Spec.held sk vb) y w it.x it.u i).getD k 0 + mu * (v i).getD k 0 - mu * (it.vs i).getD k 0 := by
  have row : ∀ k, k < P.nc i → (kindAt (fun i => (sk i).map Spec.SetKind.kind) i k).cone (shiftV P mu v it.x it.u i k) - mu * (v i).getD k 0 =
      (Spec.devs P (Spec.held sk vb) y w it.x it.u i).getD k 0 := by
    intro k hk'
    obtain ⟨c1, c2⟩ := onSide_cone _ (hk.normal i hi k (by rw [cstr_length']; exact hk')) (hside i hi k hk')
    rw [kindAt_map]
    by_cases h : Spec.held sk vb i k
    · rw [(c1 h).1, devs_held y w it.x it.u hk' h, shiftV]
      ring
    · rw [(c2 h).1, devs_free y w it.x it.u h, hz i hi k hk' h]
      ring
  have e1 : ((mult P S mu v it).1.ms i) = multiplierStep (S.op i) mu (Spec.cstr P it.x it.u i) (v i) (it.vs i) (S.out i) [] := rfl
  refine ⟨?_, fun k => ?_⟩
  · have hlen : (((mult P S mu v it).1.ms i).infeas).length = P.nc i := by
      by_cases h0 : 0 < P.nc i
      · exact (lib_ms hS hmu hv hvs hi h0).1
      · have : (((mult P S mu v it).1.ms i).infeas).length ≤ P.nc i := by
          rw [e1]
          unfold multiplierStep
          simp [hv i hi]
        omega
    refine List.ext_getElem (hlen.trans (devs_length ..).symm) fun k h1 h2 => ?_
    rw [← List.getD_eq_getElem _ 0 h1, ← List.getD_eq_getElem _ 0 h2, (lib_ms hS hmu hv hvs hi (hlen ▸ h1)).2.2.1]
    exact row k (hlen ▸ h1)
  · by_cases hk' : k < P.nc i
    · rw [(lib_ms hS hmu hv hvs hi hk').2.2.2, ← row k hk']
      ring
    · have : (((mult P S mu v it).1.ms i).Lvs).length ≤ P.nc i := by
        rw [e1]
        unfold multiplierStep
        simp [hvs i hi]
      rw [List.getD_eq_default _ _ (this.trans (not_lt.1 hk')), List.getD_eq_default _ _ (by rw [devs_length]; exact not_lt.1 hk'),
        List.getD_eq_default _ _ (by rw [hv i hi]; exact not_lt.1 hk'), List.getD_eq_default _ _ (by rw [hvs i hi]; exact not_lt.1 hk')]
      ring

/-- The reported primal infeasibility. -/
theorem sides_prim {P : Prob nx nu N} {S : Setup} {sk : ℕ → List Spec.SetKind} (hS : LibSets P S fun i => (sk i).map Spec.SetKind.kind)
    {fixed : Prop} {y : ∀ i, Fin (nx i) → ℝ} {w : ∀ i, Fin (nu i) → ℝ} {lam0 : Fin P.nc0 → ℝ} {lam : ∀ i, Fin (nx (i + 1)) → ℝ}
    {vb : ℕ → List ℝ} (hk : Spec.KKTPointI P sk fixed y w lam0 lam vb) {mu : ℝ} (hmu : 0 < mu) {v : ℕ → List ℝ}
    {it : Iter nx nu P.nc0} (hv : Shape P v) (hvs : Shape P it.vs) (hz : FreeZero P sk vb v) (hzs : FreeZero P sk vb it.vs)
    (hside : OnSides P sk vb mu v it.x it.u) (hF : Spec.Feasible P it.x it.u) :
    (mult P S mu v it).2 = some (violI P (Spec.held sk vb) y w it.x it.u) := by
  show some (primInfeas N (fun i => ((mult P S mu v it).1.ms i).infeas) (slacks (P.values it.x it.u))) = _
  congr 1
  unfold primInfeas
  have e1 : (List.range (N + 1)).map (fun i => infNorm ((mult P S mu v it).1.ms i).infeas) =
      (List.range (N + 1)).map fun i => infNorm (Spec.devs P (Spec.held sk vb) y w it.x it.u i) :=
    List.map_congr_left fun i hi => by
      rw [(sides_ms hS hk hmu hv hvs hz hzs hside (Nat.lt_succ_iff.1 (List.mem_range.1 hi))).1]
  rw [e1]
  refine max_eq_left ((infNorm_le le_rfl fun a ha => ?_).trans (infNorm_nonneg _))
  obtain ⟨i, hi, rfl⟩ := List.mem_map.1 ha
  rw [abs_of_nonneg (infNorm_nonneg _)]
  exact slacks_feasible hF (Nat.lt_succ_iff.1 (List.mem_range.1 hi))

/-! ### Runs -/

/-- Multipliers at an update: zero on the rows that are not held, and not far beyond those of the solution. -/
structure OkI (P : Prob nx nu N) (sk : ℕ → List Spec.SetKind) (theta D : ℝ) (vb v : ℕ → List ℝ) : Prop where
  shape : Shape P v
  free : FreeZero P sk vb v
  low : ∀ i, i ≤ N → ∀ k, k < P.nc i → (sk i).getD k .eq ≠ .eq →
    (0 < (vb i).getD k 0 → (v i).getD k 0 < (1 + theta) * ((vb i).getD k 0 - Real.sqrt D)) ∧
    ((vb i).getD k 0 < 0 → (1 + theta) * ((vb i).getD k 0 + Real.sqrt D) < (v i).getD k 0)

/-- Iterates near the solution. -/
structure NearI (P : Prob nx nu N) (sk : ℕ → List Spec.SetKind) (force : Bool) (g0 D : ℝ) (y : ∀ i, Fin (nx i) → ℝ)
    (w : ∀ i, Fin (nu i) → ℝ) (vb : ℕ → List ℝ) (it : Iter nx nu P.nc0) : Prop where
  feasible : Spec.Feasible P it.x it.u
  shape : Shape P it.vs
  grad : SmallGrad P force it g0
  dist : Spec.dist2 N it.x it.u y w ≤ D
  start : GoodStart P force (it.x 0)
  free : FreeZero P sk vb it.vs
  vdist : Spec.vdist2 N P.nc it.vs vb ≤ D

/-- With its own multipliers every held inequality is beyond its bound. -/
def FineI (P : Prob nx nu N) (sk : ℕ → List Spec.SetKind) (y : ∀ i, Fin (nx i) → ℝ) (w : ∀ i, Fin (nu i) → ℝ) (vb : ℕ → List ℝ)
    (mu : ℝ) (it : Iter nx nu P.nc0) : Prop :=
  ∀ i, i ≤ N → ∀ k, k < P.nc i → (sk i).getD k .eq ≠ .eq →
    (0 < (vb i).getD k 0 → (Spec.cstr P y w i).getD k 0 < (Spec.cstr P it.x it.u i).getD k 0 + mu * (it.vs i).getD k 0) ∧
    ((vb i).getD k 0 < 0 → (Spec.cstr P it.x it.u i).getD k 0 + mu * (it.vs i).getD k 0 < (Spec.cstr P y w i).getD k 0)

theorem NearI.close {P : Prob nx nu N} {sk : ℕ → List Spec.SetKind} {force : Bool} {g0 D : ℝ} {y : ∀ i, Fin (nx i) → ℝ}
    {w : ∀ i, Fin (nu i) → ℝ} {vb : ℕ → List ℝ} {it : Iter nx nu P.nc0} (h : NearI P sk force g0 D y w vb it) {i : ℕ} (hi : i ≤ N)
    {k : ℕ} (hk : k < P.nc i) : |(it.vs i).getD k 0 - (vb i).getD k 0| ≤ Real.sqrt D := by
  refine Real.abs_le_sqrt (le_trans ?_ h.vdist)
  refine (Finset.single_le_sum (f := fun k => ((it.vs i).getD k 0 - (vb i).getD k 0) ^ 2)
    (fun _ _ => sq_nonneg _) (Finset.mem_range.2 hk)).trans ?_
  exact Finset.single_le_sum (f := fun i => ∑ k ∈ Finset.range (P.nc i), ((it.vs i).getD k 0 - (vb i).getD k 0) ^ 2)
    (fun _ _ => Finset.sum_nonneg fun _ _ => sq_nonneg _) (Finset.mem_range.2 (Nat.lt_succ_iff.2 hi))

theorem held_iff (sk : ℕ → List Spec.SetKind) (vb : ℕ → List ℝ) (i k : ℕ) :
    Spec.held sk vb i k ↔ (sk i).getD k .eq = .eq ∨ (vb i).getD k 0 ≠ 0 := by
  unfold Spec.held
  cases h : (sk i).getD k Spec.SetKind.eq <;> simp [Spec.SetKind.Held]

/-- The multipliers of an iterate near the solution have the signs of its multipliers. -/
theorem NearI.signs {P : Prob nx nu N} {sk : ℕ → List Spec.SetKind} {force : Bool} {g0 D theta : ℝ} {y : ∀ i, Fin (nx i) → ℝ}
    {w : ∀ i, Fin (nu i) → ℝ} {vb : ℕ → List ℝ} {it : Iter nx nu P.nc0} (h : NearI P sk force g0 D y w vb it)
    (ht : Spec.Told P sk theta D y w vb) (h0 : 0 < theta) (h1 : theta ≤ 1) {i : ℕ} (hi : i ≤ N) {k : ℕ} (hk : k < P.nc i)
    (hK : (sk i).getD k .eq ≠ .eq) :
    (0 < (vb i).getD k 0 → 0 < (vb i).getD k 0 - Real.sqrt D ∧ (vb i).getD k 0 - Real.sqrt D ≤ (it.vs i).getD k 0 ∧
      (it.vs i).getD k 0 < (1 + theta) * ((vb i).getD k 0 - Real.sqrt D)) ∧
    ((vb i).getD k 0 < 0 → (vb i).getD k 0 + Real.sqrt D < 0 ∧ (it.vs i).getD k 0 ≤ (vb i).getD k 0 + Real.sqrt D ∧
      (1 + theta) * ((vb i).getD k 0 + Real.sqrt D) < (it.vs i).getD k 0) := by
  have hc := abs_le.1 (h.close hi hk)
  have ha := ht.active i hi k (by rw [cstr_length']; exact hk) hK
  have hs := Real.sqrt_nonneg D
  refine ⟨fun hv => ?_, fun hv => ?_⟩
  · have ha := ha hv.ne'
    rw [abs_of_pos hv] at ha
    refine ⟨by nlinarith, by linarith [hc.1], by nlinarith [hc.2]⟩
  · have ha := ha hv.ne
    rw [abs_of_neg hv] at ha
    refine ⟨by nlinarith, by linarith [hc.2], by nlinarith [hc.1]⟩

theorem NearI.ok {P : Prob nx nu N} {sk : ℕ → List Spec.SetKind} {force : Bool} {g0 D theta : ℝ} {y : ∀ i, Fin (nx i) → ℝ}
    {w : ∀ i, Fin (nu i) → ℝ} {vb : ℕ → List ℝ} {it : Iter nx nu P.nc0} (h : NearI P sk force g0 D y w vb it)
    (ht : Spec.Told P sk theta D y w vb) (h0 : 0 < theta) (h1 : theta ≤ 1) : OkI P sk theta D vb it.vs :=
  ⟨h.shape, h.free, fun i hi k hk hK => by
    obtain ⟨s1, s2⟩ := h.signs ht h0 h1 hi hk hK
    exact ⟨fun hv => (s1 hv).2.2, fun hv => (s2 hv).2.2⟩⟩

/-- After a step the held inequalities are beyond their bounds, also with the smaller penalty parameter. -/
theorem fine_of_rel {P : Prob nx nu N} {sk : ℕ → List Spec.SetKind} {force : Bool} {g0 D theta : ℝ} {y : ∀ i, Fin (nx i) → ℝ}
    {w : ∀ i, Fin (nu i) → ℝ} {vb : ℕ → List ℝ} {it : Iter nx nu P.nc0} (h : NearI P sk force g0 D y w vb it)
    (ht : Spec.Told P sk theta D y w vb) (h0 : 0 < theta) (h1 : theta ≤ 1) {mu : ℝ} (hmu : 0 < mu) {v : ℕ → List ℝ}
    (hv : OkI P sk theta D vb v) (hr : RelI P (Spec.held sk vb) y w mu v it) :
    FineI P sk y w vb mu it ∧ FineI P sk y w vb (mu * theta) it := by
  have key : ∀ i, i ≤ N → ∀ k, k < P.nc i → (sk i).getD k .eq ≠ .eq → (vb i).getD k 0 ≠ 0 →
      (Spec.cstr P it.x it.u i).getD k 0 - (Spec.cstr P y w i).getD k 0 = mu * ((it.vs i).getD k 0 - (v i).getD k 0) := by
    intro i hi k hk hK hne
    rw [← hr i hi k, devs_held y w it.x it.u hk ((held_iff _ _ _ _).2 (Or.inr hne))]
  have aux : ∀ t, theta ≤ t → FineI P sk y w vb (mu * t) it := by
    intro t h2 i hi k hk hK
    obtain ⟨s1, s2⟩ := h.signs ht h0 h1 hi hk hK
    obtain ⟨l1, l2⟩ := hv.low i hi k hk hK
    refine ⟨fun hp => ?_, fun hn => ?_⟩
    · obtain ⟨a1, a2, -⟩ := s1 hp
      have a4 := l1 hp
      have a5 := key i hi k hk hK hp.ne'
      have : 0 < mu * ((1 + t) * (it.vs i).getD k 0 - (v i).getD k 0) := by
        refine mul_pos hmu ?_
        have e1 : (1 + theta) * ((vb i).getD k 0 - Real.sqrt D) ≤ (1 + t) * (it.vs i).getD k 0 :=
          mul_le_mul (by linarith) a2 a1.le (by linarith)
        linarith
      nlinarith
    · obtain ⟨a1, a2, -⟩ := s2 hn
      have a4 := l2 hn
      have a5 := key i hi k hk hK hn.ne
      have : 0 < mu * ((v i).getD k 0 - (1 + t) * (it.vs i).getD k 0) := by
        refine mul_pos hmu ?_
        have e1 : (1 + theta) * (-((vb i).getD k 0 + Real.sqrt D)) ≤ (1 + t) * (-(it.vs i).getD k 0) :=
          mul_le_mul (by linarith) (by linarith) (by linarith) (by linarith)
        linarith
      nlinarith
  refine ⟨?_, aux theta le_rfl⟩
  have := aux 1 h1
  rwa [mul_one] at this

/-- The iterates of a run are on the sides of the solution. -/
theorem sides_of {P : Prob nx nu N} {sk : ℕ → List Spec.SetKind} {force : Bool} {g0 D theta : ℝ} {fixed : Prop}
    {y : ∀ i, Fin (nx i) → ℝ} {w : ∀ i, Fin (nu i) → ℝ} {lam0 : Fin P.nc0 → ℝ} {lam : ∀ i, Fin (nx (i + 1)) → ℝ} {vb : ℕ → List ℝ}
    (hkk : Spec.KKTPointI P sk fixed y w lam0 lam vb) {it : Iter nx nu P.nc0}
    (h : NearI P sk force g0 D y w vb it) (ht : Spec.Told P sk theta D y w vb) (h0 : 0 < theta) (h1 : theta < 1) {mu : ℝ} (hmu : 0 < mu)
    {v : ℕ → List ℝ} (hv : FreeZero P sk vb v)
    (hr : RelI P (Spec.held sk vb) y w mu v it ∨
      (FineI P sk y w vb mu it ∧ (v = it.vs ∨ RelI P (Spec.held sk vb) y w (mu / theta) v it))) :
    OnSides P sk vb mu v it.x it.u := by
  intro i hi k hk
  by_cases hh : Spec.held sk vb i k
  · refine onSide_held _ (hkk.normal i hi k (by rw [cstr_length']; exact hk)) hh (fun hK hp => ?_) fun hK hn => ?_
    · obtain ⟨a1, a2, -⟩ := (h.signs ht h0 h1.le hi hk hK).1 hp
      have hmv : 0 < mu * (it.vs i).getD k 0 := mul_pos hmu (a1.trans_le a2)
      unfold shiftV
      rcases hr with hr | ⟨hf, rfl | hr⟩
      · have e := hr i hi k
        rw [devs_held y w it.x it.u hk hh] at e
        linarith
      · exact (hf i hi k hk hK).1 hp
      · have e := hr i hi k
        have f := (hf i hi k hk hK).1 hp
        rw [devs_held y w it.x it.u hk hh] at e
        have e' : theta * ((Spec.cstr P it.x it.u i).getD k 0 - (Spec.cstr P y w i).getD k 0) =
            mu * ((it.vs i).getD k 0 - (v i).getD k 0) := by
          rw [e]
          field_simp
        have f1 : 0 < (1 - theta) * ((Spec.cstr P it.x it.u i).getD k 0 + mu * (it.vs i).getD k 0 - (Spec.cstr P y w i).getD k 0) :=
          mul_pos (by linarith) (by linarith)
        have f2 : 0 < theta * (mu * (it.vs i).getD k 0) := mul_pos h0 hmv
        linarith
    · obtain ⟨a1, a2, -⟩ := (h.signs ht h0 h1.le hi hk hK).2 hn
      have hmv : mu * (it.vs i).getD k 0 < 0 := mul_neg_of_pos_of_neg hmu (a2.trans_lt a1)
      unfold shiftV
      rcases hr with hr | ⟨hf, rfl | hr⟩
      · have e := hr i hi k
        rw [devs_held y w it.x it.u hk hh] at e
        linarith
      · exact (hf i hi k hk hK).2 hn
      · have e := hr i hi k
        have f := (hf i hi k hk hK).2 hn
        rw [devs_held y w it.x it.u hk hh] at e
        have e' : theta * ((Spec.cstr P it.x it.u i).getD k 0 - (Spec.cstr P y w i).getD k 0) =
            mu * ((it.vs i).getD k 0 - (v i).getD k 0) := by
          rw [e]
          field_simp
        have f1 : (1 - theta) * ((Spec.cstr P it.x it.u i).getD k 0 + mu * (it.vs i).getD k 0 - (Spec.cstr P y w i).getD k 0) < 0 :=
          mul_neg_of_pos_of_neg (by linarith) (by linarith)
        have f2 : theta * (mu * (it.vs i).getD k 0) < 0 := mul_neg_of_pos_of_neg h0 hmv
        linarith
  · have hz : (vb i).getD k 0 = 0 := by
      by_contra hne
      exact hh ((held_iff _ _ _ _).2 (Or.inr hne))
    rw [hz]
    refine onSide_zero _ ?_
    unfold shiftV
    rw [hv i hi k hk hh, mul_zero, add_zero]
    exact ht.inactive it.x it.u h.dist i hi k (by rw [cstr_length']; exact hk) hh

/-- The iterates as the abstract argument sees them. -/
noncomputable def ctxI (P : Prob nx nu N) (sk : ℕ → List Spec.SetKind) (force : Bool) (g0 theta D : ℝ) (y : ∀ i, Fin (nx i) → ℝ)
    (w : ∀ i, Fin (nu i) → ℝ) (vb : ℕ → List ℝ) : ProxDDP.Ctx (Iter nx nu P.nc0) (ℕ → List ℝ) where
  viol it := violI P (Spec.held sk vb) y w it.x it.u
  eX it := Spec.dist2 N it.x it.u y w
  eV v := Spec.vdist2 N P.nc v vb
  vs it := it.vs
  Near it := NearI P sk force g0 D y w vb it
  Ok v := OkI P sk theta D vb v
  Rel mu v it := RelI P (Spec.held sk vb) y w mu v it
  Fine mu it := FineI P sk y w vb mu it

/-- The constants of a run: solution whose active constraints can be told, error bound, energy, size of the iterates, contraction. -/
structure ConstsI (p : ProxDDP.Params) (P : Prob nx nu N) (sk : ℕ → List Spec.SetKind) (force : Bool) (K B0 D q : ℝ)
    (y : ∀ i, Fin (nx i) → ℝ) (w : ∀ i, Fin (nu i) → ℝ) (lam0 : Fin P.nc0 → ℝ) (lam : ∀ i, Fin (nx (i + 1)) → ℝ) (vb : ℕ → List ℝ) :
    Prop where
  kkt : Spec.KKTPointI P sk (force = true) y w lam0 lam vb
  told : Spec.Told P sk p.muFactor D y w vb
  K0 : 0 ≤ K
  error : Spec.ErrorBoundOn P (force = true) (Spec.held sk vb) K y w vb
  size : K * ((max p.muInit p.muLb + max p.regInit p.regMin) * B0) ≤ D
  grad : 4 * (max p.regInit p.regMin) ^ 2 * D ≤ (0.01 * p.targetDual) ^ 2
  q0 : 0 ≤ q
  q1 : q ≤ 1
  rate : K * (max (max p.muInit p.muLb) (max p.regInit p.regMin)) ^ 2 * (1 - q) ≤ q

/-- The states from which the run takes a step once the initial condition and the dynamics hold: near the solution, the constraint
values on the sides of the solution, the multipliers just updated or the penalty parameter just decreased. -/
structure AtWorkI (p : ProxDDP.Params) (P : Prob nx nu N) (sk : ℕ → List Spec.SetKind) (S : Setup) (M : ℕ) (D : ℝ)
    (y : ∀ i, Fin (nx i) → ℝ) (w : ∀ i, Fin (nu i) → ℝ) (vb : ℕ → List ℝ) (st : SSt P) : Prop where
  near : NearI P sk S.force (0.01 * p.targetDual) D y w vb st.x
  far : p.targetTol < violI P (Spec.held sk vb) y w st.x.x st.x.u
  ok : OkI P sk p.muFactor D vb st.prevV
  sides : OnSides P sk vb st.mu st.prevV st.x.x st.x.u
  mu : ∃ j, j ≤ M ∧ st.mu = p.muFactor ^ j * max p.muInit p.muLb
  preg : 0 < st.preg ∧ st.preg ≤ max p.regInit p.regMin
  kind : st.prevV = st.x.vs ∨ RelI P (Spec.held sk vb) y w (st.mu / p.muFactor) st.prevV st.x
  ws : st.ws = (mult P S st.mu st.prevV st.x).1

theorem step1I_of {p : ProxDDP.Params} (hp : p.Valid) (hth : 0 ≤ p.dphiThresh) (ham : p.alphaMin < 1)
    (hth0 : 0 < p.muFactor) (hth1 : p.muFactor < 1)
    {P : Prob nx nu N} {H : Hess nx nu N} (hL : Spec.IsLQE P H) (hC : Spec.Convex N H) {S : Setup} {sk : ℕ → List Spec.SetKind}
    (hS : LibSets P S fun i => (sk i).map Spec.SetKind.kind)
    {search : SSt P → Search} {c1 : ℝ} (hse : ∀ s, AcceptsFullStep c1 p.dphiThresh (search s))
    {solve : SSt P → Option (Dir nx nu P.nc0)} {exact : Bool} {K B0 D q : ℝ} {y : ∀ i, Fin (nx i) → ℝ} {w : ∀ i, Fin (nu i) → ℝ}
    {lam0 : Fin P.nc0 → ℝ} {lam : ∀ i, Fin (nx (i + 1)) → ℝ} {vb : ℕ → List ℝ} (hc : ConstsI p P sk S.force K B0 D q y w lam0 lam vb)
    {st : SSt P} (hvs : Shape P st.x.vs) (hv : Shape P st.prevV) (hz : FreeZero P sk vb st.prevV)
    (hside : OnSides P sk vb st.mu st.prevV st.x.x st.x.u) (hmu0 : 0 < st.mu) (hmu1 : st.mu ≤ max p.muInit p.muLb)
    (hpr0 : 0 < st.preg) (hpr1 : st.preg ≤ max p.regInit p.regMin) (hG : GoodStart P S.force (st.x.x 0))
    (hD : Spec.dist2 N st.x.x st.x.u y w ≤ D)
    (hen : st.preg * Spec.dist2 N st.x.x st.x.u y w + st.mu * Spec.vdist2 N P.nc st.prevV vb ≤ B0)
    (hfull : FullStep p P S exact H c1 solve st) :
    ∃ x1, ProxDDP.Step1 (ctxI P sk S.force (0.01 * p.targetDual) p.muFactor D y w vb) p (env P S (oracle P S search solve)) q st x1 := by
  obtain ⟨d, hd, hs, hdesc, harm⟩ := hfull
  set it := linearStep st.x (d.forced S.force) 1 with hit
  have hF := C78_full_step hL hS hmu0 hv hvs hs hG
  rw [← hit] at hF
  have h0 := lib_dx0 hL hS hmu0 hv hvs hs hG
  obtain ⟨hfree, hrel⟩ := step_held hmu0 hv hF hc.kkt hside hz
  have hcl := C79_closer hL hC hS hmu0 hv hvs hs hG hit hc.kkt hside hz
  have hcon := C79_contraction hL hC hS hmu0 hpr0.le hv hvs hs hG hit hc.kkt hside hz hc.K0 hc.error
    (hmu1.trans (le_max_left _ (max p.regInit p.regMin))) (hpr1.trans (le_max_right (max p.muInit p.muLb) _))
  have herr := step_errorI hL hF h0 hfree hc.error
  have n1 := dist2_nonneg (N := N) it.x it.u y w
  have n2 := vdist2_nonneg (N := N) P.nc it.vs vb
  have n3 := dist2_nonneg (N := N) it.x it.u st.x.x st.x.u
  have n4 : 0 ≤ dev2 P (Spec.held sk vb) y w it.x it.u := vdist2_nonneg _ _ _
  have n5 := dist2_nonneg (N := N) st.x.x st.x.u y w
  have n6 := vdist2_nonneg (N := N) P.nc st.prevV vb
  have htri := dist2_tri (N := N) it.x st.x.x y it.u st.x.u w
  set E0 := st.preg * Spec.dist2 N st.x.x st.x.u y w + st.mu * Spec.vdist2 N P.nc st.prevV vb with hE0
  set a := Spec.dist2 N it.x it.u y w with ha
  set c := Spec.dist2 N it.x it.u st.x.x st.x.u with hcdef
  have hE00 : 0 ≤ E0 := add_nonneg (mul_nonneg hpr0.le n5) (mul_nonneg hmu0.le n6)
  have hgood : 0 ≤ 0.01 * p.targetDual := by have := hp.targetDual; linarith
  have q1 : st.preg * c ≤ E0 := by
    have : 0 ≤ dev2 P (Spec.held sk vb) y w it.x it.u / st.mu := div_nonneg n4 hmu0.le
    have := mul_nonneg hpr0.le n1
    have := mul_nonneg hmu0.le n2
    linarith
  have q2 : dev2 P (Spec.held sk vb) y w it.x it.u ≤ st.mu * E0 := by
    have h1 : dev2 P (Spec.held sk vb) y w it.x it.u / st.mu ≤ E0 := by
      have := mul_nonneg hpr0.le n1
      have := mul_nonneg hmu0.le n2
      have := mul_nonneg hpr0.le n3
      linarith
    have := mul_le_mul_of_nonneg_left h1 hmu0.le
    rwa [mul_div_cancel₀ _ hmu0.ne'] at this
  have hB0 : 0 ≤ B0 := hE00.trans hen
  have hp0 : 0 ≤ max p.regInit p.regMin := hpr0.le.trans hpr1
  -- the size of the new iterate
  have haD : a ≤ D ∧ Spec.vdist2 N P.nc it.vs vb ≤ D := by
    have e1 : dev2 P (Spec.held sk vb) y w it.x it.u ≤ max p.muInit p.muLb * B0 := q2.trans (mul_le_mul hmu1 hen hE00 (hmu0.le.trans hmu1))
    have e2 : st.preg ^ 2 * c ≤ max p.regInit p.regMin * B0 := by
      calc st.preg ^ 2 * c = st.preg * (st.preg * c) := by ring
        _ ≤ _ := mul_le_mul hpr1 (q1.trans hen) (mul_nonneg hpr0.le n3) hp0
    have e3 : K * (dev2 P (Spec.held sk vb) y w it.x it.u + st.preg ^ 2 * c) ≤ K * ((max p.muInit p.muLb + max p.regInit p.regMin) * B0) :=
      mul_le_mul_of_nonneg_left (by linarith) hc.K0
    have := hc.size
    exact ⟨by linarith, by linarith⟩
  have hst0 : GoodStart P S.force (it.x 0) := by
    intro hf
    obtain ⟨h1, h2⟩ := hG hf
    have : it.x 0 = st.x.x 0 := by rw [hF.x]; simp [h0 hf]
    rw [this]
    exact ⟨h1, h2⟩
  -- the gradient
  have hcc : st.preg ^ 2 * c ≤ (0.01 * p.targetDual) ^ 2 := by
    have e1 : c ≤ 4 * D := by linarith [haD.1]
    have e2 : st.preg ^ 2 ≤ (max p.regInit p.regMin) ^ 2 := pow_le_pow_left₀ hpr0.le hpr1 2
    have e3 : st.preg ^ 2 * c ≤ (max p.regInit p.regMin) ^ 2 * (4 * D) := mul_le_mul e2 e1 n3 (sq_nonneg _)
    have := hc.grad
    linarith
  have hsq : ∀ b : ℝ, b ^ 2 ≤ c → |-(st.preg * b)| ≤ 0.01 * p.targetDual := by
    intro b hb
    refine abs_le_of_sq_le_sq ?_ hgood
    have := mul_le_mul_of_nonneg_left hb (sq_nonneg st.preg)
    nlinarith
  obtain ⟨s1, s2⟩ := sq_le_dist2 (N := N) it.x st.x.x it.u st.x.u
  have hgx : ∀ i, i ≤ N → ∀ k, |(gradAt P S.force it).Lxs i k| ≤ 0.01 * p.targetDual := by
    intro i hi k
    rw [hF.Lx i hi]
    refine hsq (d.dx i k) ?_
    have := s1 i hi k
    rw [hF.x] at this
    simpa [hcdef, hF.x] using this
  have hgu : ∀ i, i < N → ∀ k, |(gradAt P S.force it).Lus i k| ≤ 0.01 * p.targetDual := by
    intro i hi k
    rw [hF.Lu i hi]
    refine hsq (d.du i k) ?_
    have := s2 i hi k
    rw [hF.u] at this
    simpa [hcdef, hF.u] using this
  have hnear : NearI P sk S.force (0.01 * p.targetDual) D y w vb it := ⟨hF.feasible, hF.shape, ⟨hgx, hgu⟩, haD.1, hst0, hfree, haD.2⟩
  have hnear0 : OnSides P sk vb st.mu st.prevV it.x it.u := sides_of hc.kkt hnear hc.told hth0 hth1 hmu0 hz (Or.inl hrel)
  have hLvs : ∀ i, i ≤ N → infNorm ((mult P S st.mu st.prevV it).1.ms i).Lvs ≤ 0 := by
    intro i hi
    refine infNorm_le_getD le_rfl fun k => ?_
    rw [(sides_ms hS hc.kkt hmu0 hv hF.shape hz hfree hnear0 hi).2 k, hrel i hi k]
    refine le_of_eq ?_
    rw [abs_eq_zero]
    ring
  have hne : (∃ i, i ≤ N ∧ ∃ k, d.dx i k ≠ 0) ∨ ∃ i, i < N ∧ ∃ k, d.du i k ≠ 0 := by
    by_contra hcn
    rw [not_or] at hcn
    obtain ⟨n1, n2⟩ := hcn
    push Not at n1 n2
    have hz := forced_dx h0
    have : slope P st (d.forced S.force) = 0 := slope_zero st _ (fun i hi => by rw [hz.1]; exact funext (n1 i hi))
      fun i hi => by rw [hz.2.1]; exact funext (n2 i hi)
    rw [this] at hdesc
    linarith
  refine ⟨it, ⟨slope P st (d.forced S.force), [], 1, ?_, ?_, not_le.2 ham⟩, hnear, hrel, ?_, ?_, ?_, ?_⟩
  · have hacc := hse st (merit P S st.mu st.prevV st.x) (slope P st (d.forced S.force))
      (fun a => merit P S st.mu st.prevV (linearStep st.x (d.forced S.force) a)) hdesc harm
    show oracle P S search solve st = _
    unfold oracle
    rw [hd]
    dsimp only
    have hse' : search st (merit P S st.mu st.prevV st.x) (directionalDerivative (P.data st.x.x st.x.u)
        (lamsPlus st.mu (0.1 * st.mu) st.x.lam st.ws.V) (fun i => (st.ws.ms i).vsPlus) (d.forced S.force).dx (d.forced S.force).du)
        (fun a => merit P S st.mu st.prevV (linearStep st.x (d.forced S.force) a)) = some (1, [1]) := hacc
    rw [hse']
    rfl
  · rw [abs_of_neg (by linarith)]
    exact not_le.2 (by linarith)
  · have g := inner_ge (N := N) (g := gradAt P S.force it) (sl := slacks (mult P S st.mu st.prevV it).1.V)
      (Lv := fun i => ((mult P S st.mu st.prevV it).1.ms i).Lvs)
    rcases hne with ⟨i, hi, k, hk⟩ | ⟨i, hi, k, hk⟩
    · refine lt_of_lt_of_le ?_ (g.1 i hi k)
      rw [hF.Lx i hi]
      show 0 < |-(st.preg * d.dx i k)|
      rw [abs_neg, abs_mul]
      exact mul_pos (abs_pos.2 hpr0.ne') (abs_pos.2 hk)
    · refine lt_of_lt_of_le ?_ (g.2 i hi k)
      rw [hF.Lu i hi]
      show 0 < |-(st.preg * d.du i k)|
      rw [abs_neg, abs_mul]
      exact mul_pos (abs_pos.2 hpr0.ne') (abs_pos.2 hk)
  · exact inner_le (sl := slacks (mult P S st.mu st.prevV it).1.V) (Lv := fun i => ((mult P S st.mu st.prevV it).1.ms i).Lvs) hgood hgx hgu
      (fun i hi => (slacks_feasible hF.feasible hi.le).trans hgood) fun i hi => (hLvs i hi).trans hgood
  · exact (violI_sq P (Spec.held sk vb) y w it.x it.u).trans q2
  · show st.preg * a + st.mu * Spec.vdist2 N P.nc it.vs vb ≤ q * E0
    have hr := hc.rate
    have hq1 := hc.q1
    have hq0 := hc.q0
    set kr := K * (max (max p.muInit p.muLb) (max p.regInit p.regMin)) ^ 2 with hkr
    set E1 := st.preg * a + st.mu * Spec.vdist2 N P.nc it.vs vb with hE1
    have hE1n : 0 ≤ E1 := add_nonneg (mul_nonneg hpr0.le n1) (mul_nonneg hmu0.le n2)
    have hle : E1 ≤ E0 := by
      have := mul_nonneg hpr0.le n3
      have : 0 ≤ dev2 P (Spec.held sk vb) y w it.x it.u / st.mu := div_nonneg n4 hmu0.le
      linarith
    -- `E1 ≤ kr (E0 - E1)`
    have h1 : E1 ≤ kr * (E0 - E1) := by linarith
    have h2 : (1 - q) * E1 ≤ (1 - q) * (kr * (E0 - E1)) := mul_le_mul_of_nonneg_left h1 (by linarith)
    have h3 : kr * (1 - q) * (E0 - E1) ≤ q * (E0 - E1) := mul_le_mul_of_nonneg_right hr (by linarith)
    nlinarith


theorem near_normal {P : Prob nx nu N} {sk : ℕ → List Spec.SetKind} {force : Bool} {g0 D theta : ℝ} {fixed : Prop}
    {y : ∀ i, Fin (nx i) → ℝ} {w : ∀ i, Fin (nu i) → ℝ} {lam0 : Fin P.nc0 → ℝ} {lam : ∀ i, Fin (nx (i + 1)) → ℝ} {vb : ℕ → List ℝ}
    (hkk : Spec.KKTPointI P sk fixed y w lam0 lam vb) {it : Iter nx nu P.nc0}
    (h : NearI P sk force g0 D y w vb it) (ht : Spec.Told P sk theta D y w vb) (h0 : 0 < theta) (h1 : theta ≤ 1) {b : ℝ} (hb : 0 ≤ b)
    (hviol : violI P (Spec.held sk vb) y w it.x it.u ≤ b) : Spec.NearNormal P sk b it.x it.u it.vs := by
  intro i hi k hk
  rw [cstr_length'] at hk
  by_cases hh : Spec.held sk vb i k
  · refine ⟨(Spec.cstr P y w i).getD k 0, normal_sign _ (hkk.normal i hi k (by rw [cstr_length']; exact hk)) ?_ ?_ ?_, ?_⟩
    · intro hK hp
      obtain ⟨a1, a2, -⟩ := (h.signs ht h0 h1 hi hk hK).1 hp
      linarith
    · intro hK hn
      obtain ⟨a1, a2, -⟩ := (h.signs ht h0 h1 hi hk hK).2 hn
      linarith
    · intro hK hz
      rcases (held_iff _ _ _ _).1 hh with h | h
      · exact absurd h hK
      · exact absurd hz h
    · have := (le_violI P (Spec.held sk vb) y w it.x it.u hi k).trans hviol
      rwa [devs_held y w it.x it.u hk hh] at this
  · refine ⟨(Spec.cstr P it.x it.u i).getD k 0, ⟨ht.inactive it.x it.u h.dist i hi k (by rw [cstr_length']; exact hk) hh, fun z _ => ?_⟩, ?_⟩
    · rw [h.free i hi k hk hh]
      simp
    · simpa using hb

theorem ineq_facts {p : ProxDDP.Params} (hp : p.Valid) (hth : 0 ≤ p.dphiThresh) (ham : p.alphaMin < 1)
    {P : Prob nx nu N} {H : Hess nx nu N} (hL : Spec.IsLQE P H) (hC : Spec.Convex N H) {S : Setup} {sk : ℕ → List Spec.SetKind}
    (hS : LibSets P S fun i => (sk i).map Spec.SetKind.kind)
    (hmode : S.mode = .newton) {search : SSt P → Search} {c1 : ℝ} (hse : ∀ s, AcceptsFullStep c1 p.dphiThresh (search s))
    {solve : SSt P → Option (Dir nx nu P.nc0)} {exact : Bool} {K B0 D r : ℝ} {q : ℝ} {M : ℕ} {y : ∀ i, Fin (nx i) → ℝ}
    {w : ∀ i, Fin (nu i) → ℝ} {lam0 : Fin P.nc0 → ℝ} {lam : ∀ i, Fin (nx (i + 1)) → ℝ} {vb : ℕ → List ℝ}
    (hc : ConstsI p P sk S.force K B0 D q y w lam0 lam vb) (hq : (ProxDDP.Plan.mk (max p.muInit p.muLb) B0 M q r).Fits p)
    (hwork : ∀ st, AtWorkI p P sk S M D y w vb st → FullStep p P S exact H c1 solve st) :
    ProxDDP.Facts (ctxI P sk S.force (0.01 * p.targetDual) p.muFactor D y w vb) p (env P S (oracle P S search solve))
      ⟨max p.muInit p.muLb, B0, M, q, r⟩ := by
  have hgood : 0 ≤ 0.01 * p.targetDual := by have := hp.targetDual; linarith
  have th0 := hq.theta0
  have th1 := hq.theta2
  refine ⟨fun it => violI_nonneg P (Spec.held sk vb) y w it.x it.u, fun it => dist2_nonneg _ _ _ _, fun v => vdist2_nonneg _ _ _, fun it ws => ?_,
    fun it h => h.ok hc.told th0 th1.le, fun mu v it hmu hv h hr => sides_prim hS hc.kkt hmu hv.shape h.shape hv.free h.free
      (sides_of hc.kkt h hc.told th0 th1 hmu hv.free hr) h.feasible,
    fun mu v it hmu hv h hr => fine_of_rel h hc.told th0 th1.le hmu hv hr, fun it h => ?_,
    fun mu it hmu h hf => ?_, fun mu v it hmu hv h hf hrel => ?_, fun st hW => ?_⟩
  · show nextV S it ws = it.vs
    unfold nextV
    rw [hmode]
  · exact dual_le (sl := fun _ => []) (Lv := fun _ => []) hgood h.grad.1 h.grad.2
  · have hin : 0 ≤ (env P S (oracle P S search solve)).innerCrit it (mult P S mu it.vs it).1 := infNorm_nonneg _
    refine violI_le hin fun i hi k => ?_
    · have h1 := inner_bounds (N := N) (g := gradAt P S.force it) (sl := slacks (mult P S mu it.vs it).1.V)
        (Lv := fun i => ((mult P S mu it.vs it).1.ms i).Lvs) i hi
      refine le_trans ?_ h1
      have h2 := getD_le_infNorm (((mult P S mu it.vs it).1.ms i).Lvs) k
      rw [(sides_ms hS hc.kkt hmu h.shape h.shape h.free h.free
        (sides_of hc.kkt h hc.told th0 th1 hmu h.free (Or.inr ⟨hf, Or.inl rfl⟩)) hi).2 k] at h2
      simpa using h2
  · have hL2 : ∀ i, i ≤ N → ∀ k, (((mult P S mu v it).1.ms i).Lvs).getD k 0 =
        (1 - p.muFactor) * (Spec.devs P (Spec.held sk vb) y w it.x it.u i).getD k 0 := by
      intro i hi k
      rw [(sides_ms hS hc.kkt hmu hv.shape h.shape hv.free h.free
        (sides_of hc.kkt h hc.told th0 th1 hmu hv.free (Or.inr ⟨hf, Or.inr hrel⟩)) hi).2 k]
      have h3 := hrel i hi k
      have h4 : p.muFactor * (Spec.devs P (Spec.held sk vb) y w it.x it.u i).getD k 0 = mu * ((it.vs i).getD k 0 - (v i).getD k 0) := by
        rw [h3]
        field_simp
      linarith
    have h1t : 0 < 1 - p.muFactor := by linarith
    refine ⟨?_, ?_⟩
    · rw [← le_div_iff₀' h1t]
      have hin : 0 ≤ (env P S (oracle P S search solve)).innerCrit it (mult P S mu v it).1 := infNorm_nonneg _
      refine violI_le (div_nonneg hin h1t.le) fun i hi k => ?_
      rw [le_div_iff₀' h1t]
      have h1 := inner_bounds (N := N) (g := gradAt P S.force it) (sl := slacks (mult P S mu v it).1.V)
        (Lv := fun i => ((mult P S mu v it).1.ms i).Lvs) i hi
      have h2 := getD_le_infNorm (((mult P S mu v it).1.ms i).Lvs) k
      rw [hL2 i hi k, abs_mul, abs_of_pos h1t] at h2
      exact h2.trans h1
    · refine inner_le (sl := slacks (mult P S mu v it).1.V) (Lv := fun i => ((mult P S mu v it).1.ms i).Lvs)
        (hgood.trans (le_max_left _ _)) (fun i hi k => (h.grad.1 i hi k).trans (le_max_left _ _))
        (fun i hi k => (h.grad.2 i hi k).trans (le_max_left _ _))
        (fun i hi => (slacks_feasible h.feasible hi.le).trans (hgood.trans (le_max_left _ _))) fun i hi => ?_
      refine le_trans ?_ (le_max_right _ _)
      refine infNorm_le_getD (mul_nonneg h1t.le (violI_nonneg P (Spec.held sk vb) y w it.x it.u)) fun k => ?_
      rw [hL2 i hi k, abs_mul, abs_of_pos h1t]
      exact mul_le_mul_of_nonneg_left (le_violI P (Spec.held sk vb) y w it.x it.u hi k) h1t.le
  · obtain ⟨j, hj, hmu⟩ := hW.mu
    have hmu0 : 0 < max p.muInit p.muLb := hq.mu0
    have hmu1 : 0 < st.mu := by rw [hmu]; exact mul_pos (pow_pos th0 _) hmu0
    have hmu2 : st.mu ≤ max p.muInit p.muLb := by
      rw [hmu]
      have := mul_le_mul_of_nonneg_right (pow_le_one₀ th0.le th1.le : p.muFactor ^ j ≤ 1) hmu0.le
      rwa [one_mul] at this
    have hsd := sides_of hc.kkt hW.near hc.told th0 th1 hmu1 hW.ok.free (Or.inr ⟨hW.fine, hW.kind⟩)
    have hA : AtWorkI p P sk S M D y w vb st :=
      ⟨hW.near, hW.far, hW.ok, hsd, ⟨j, hj, hmu⟩, ⟨hW.preg0, hW.preg1⟩, hW.kind, hW.ws⟩
    exact step1I_of hp hth ham th0 th1 hL hC hS hse hc hW.near.shape hW.ok.shape hW.ok.free hsd hmu1 hmu2 hW.preg0 hW.preg1 hW.near.start hW.near.dist
      hW.energy (hwork st hA)

/-- **C79** (partial)  ProxDDP on a convex linear-quadratic problem with equality, one-sided and two-sided path constraints, for every
horizon, dimensions, choice of constraint sets, Newton update of the multipliers, near a solution at which the active constraints can
be told: if the guess is not accepted at once, its constraint values (shifted by the multipliers) are on the sides of the solution, and
the full steps pass the line search, then no constraint changes sides and the run reports convergence after at most `M + 1` iterations,
where `M` is logarithmic in the initial error; the final trajectory satisfies the initial condition and the dynamics exactly, every
constraint value is within the tolerance of a value allowed at which its final multiplier is in the normal cone, multipliers of
constraints inactive at the solution are exactly zero, and the final multipliers of held inequalities have the signs of the solution.
What is missing: the guess must be on the sides of the solution (runs that first have to find them are not covered), the acceptance of
full steps is assumed, the penalty parameter must not reach its lower bound within `M` decreases. -/
theorem C79_run_converges_partial {p : ProxDDP.Params} (hp : p.Valid) (hb : 0 < p.dualBeta) (hth : 0 ≤ p.dphiThresh)
    (ham : p.alphaMin < 1) (htt : 0 ≤ p.targetTol) (hth0 : 0 < p.muFactor) (hth1 : p.muFactor < 1)
    (htols : 0.01 * p.targetDual ≤ (1 - p.muFactor) * p.targetTol)
    {P : Prob nx nu N} {H : Hess nx nu N} (hL : Spec.IsLQE P H) (hC : Spec.Convex N H) {S : Setup} {sk : ℕ → List Spec.SetKind}
    (hS : LibSets P S fun i => (sk i).map Spec.SetKind.kind)
    (hmode : S.mode = .newton) (search : SSt P → Search) (c1 : ℝ) (hse : ∀ s, AcceptsFullStep c1 p.dphiThresh (search s))
    (solve : SSt P → Option (Dir nx nu P.nc0)) {exact : Bool} (v0 : ℕ → List ℝ) (s0 : SSt P) 
    (hvs : Shape P s0.x.vs) (hG : GoodStart P S.force (s0.x.x 0))
    -- a solution with an error bound, the initial error, the rate
    {K B0 D q r : ℝ} {y : ∀ i, Fin (nx i) → ℝ} {w : ∀ i, Fin (nu i) → ℝ} {lam0 : Fin P.nc0 → ℝ} {lam : ∀ i, Fin (nx (i + 1)) → ℝ}
    {vb : ℕ → List ℝ} (hc : ConstsI p P sk S.force K B0 D q y w lam0 lam vb)
    (hv0 : OkI P sk p.muFactor D vb v0) (hside : OnSides P sk vb (max p.muInit p.muLb) v0 s0.x.x s0.x.u)
    (hB0 : max p.regInit p.regMin * Spec.dist2 N s0.x.x s0.x.u y w + max p.muInit p.muLb * Spec.vdist2 N P.nc v0 vb ≤ B0)
    (hD0 : Spec.dist2 N s0.x.x s0.x.u y w ≤ D) (hq1 : q + p.muFactor ≤ 1) (hqr : q ≤ r) (htr : p.muFactor * (q + p.muFactor) ≤ r)
    {M : ℕ} (hlast : r ^ M * (max p.muInit p.muLb * B0) ≤ p.targetTol ^ 2)
    -- tolerances and penalty parameters of the first `M` decreases
    (hsched : ∀ j, j ≤ M → p.innerTol0 * (min (p.muFactor ^ j * max p.muInit p.muLb) 0.99) ^ p.dualAlpha ≤
      (1 - p.muFactor) * (p.primTol0 * (min (p.muFactor ^ j * max p.muInit p.muLb) 0.99) ^ p.primAlpha))
    (hlb : ∀ j, 1 ≤ j → j ≤ M → p.muLb ≤ p.muFactor ^ j * max p.muInit p.muLb ∧
      ProxDDP.scalarClose p.closeEps (p.muFactor ^ j * max p.muInit p.muLb) p.muLb = false)
    (hit : M + 2 ≤ p.maxIters) (hal : 2 * M + 1 ≤ p.maxAlIters)
    -- the steps
    (hfar : ∃ i, i < N ∧ ∃ k, max (p.innerTol0 * (min (max p.muInit p.muLb) 0.99) ^ p.dualAlpha) p.targetDual <
      |(gradAt P S.force s0.x).Lus i k|)
    (hfirst : FullStep p P S exact H c1 solve (firstSt p P S search solve v0 s0))
    (hwork : ∀ st, AtWorkI p P sk S M D y w vb st → FullStep p P S exact H c1 solve st) :
    ∃ F, ∀ fuel, F ≤ fuel → ∃ s, ProxDDP.run p (env P S (oracle P S search solve)) fuel v0 s0 = .done true s ∧
      s.numIters ≤ M + 1 ∧ Spec.Feasible P s.x.x s.x.u ∧ Spec.NearNormal P sk p.targetTol s.x.x s.x.u s.x.vs ∧
      FreeZero P sk vb s.x.vs ∧ SmallGrad P S.force s.x (0.01 * p.targetDual) ∧ Spec.dist2 N s.x.x s.x.u y w ≤ D ∧ Spec.vdist2 N P.nc s.x.vs vb ≤ D := by
  obtain ⟨t1, t2, t3, t4, t5⟩ := firstSt_eq p P S search solve v0 s0
  set mu := max p.muInit p.muLb with hmu
  have hmu0 : 0 < mu := hp.muLb.trans_le (le_max_right _ _)
  have hpreg : 0 < max p.regInit p.regMin := hp.regMin.trans_le (le_max_right _ _)
  have hB00 : 0 ≤ B0 := le_trans (add_nonneg (mul_nonneg hpreg.le (dist2_nonneg _ _ _ _)) (mul_nonneg hmu0.le (vdist2_nonneg _ _ _))) hB0
  have hq : (ProxDDP.Plan.mk mu B0 M q r).Fits p :=
    ⟨hmu0, hB00, hth0, hc.q0, hq1, hth1, hqr, htr, htt, hp.targetDual, htols, hsched, hlast, hlb, hp.regMin, hp.regDec1⟩
  have hF := ineq_facts hp hth ham hL hC hS hmode hse hc hq hwork
  set e := env P S (oracle P S search solve) with he
  set C := ctxI P sk S.force (0.01 * p.targetDual) p.muFactor D y w vb with hCtx
  -- the first step
  obtain ⟨x1, hst⟩ := step1I_of hp hth ham hth0 hth1 hL hC hS hse hc (st := firstSt p P S search solve v0 s0) (by rw [t1]; exact hvs)
    (by rw [t2]; exact hv0.shape) (by rw [t2]; exact hv0.free) (by rw [t1, t2, t3]; exact hside) (by rw [t3]; exact hmu0) (by rw [t3]) (by rw [t4]; exact hpreg) (by rw [t4]) (by rw [t1]; exact hG)
    (by rw [t1]; exact hD0) (by rw [t1, t2, t3, t4]; exact hB0) hfirst
  obtain ⟨ws, hw⟩ : ∃ ws, mult P S mu v0 s0.x = (ws, (mult P S mu v0 s0.x).2) := ⟨_, rfl⟩
  obtain ⟨pr, hpr⟩ : ∃ pr, (mult P S mu v0 s0.x).2 = some pr := ⟨_, rfl⟩
  rw [hpr] at hw
  have hit0 : (ProxDDP.initRun p v0 s0).innerTol = max (p.innerTol0 * (min mu 0.99) ^ p.dualAlpha) p.targetDual := rfl
  obtain ⟨i0, hi0, k0, big⟩ := hfar
  have hgo : ¬ (e.innerCrit s0.x ws ≤ (ProxDDP.initRun p v0 s0).innerTol ∨ (e.dualInf s0.x ≤ p.targetDual ∧ pr ≤ p.targetTol)) := by
    rintro (h | ⟨h, -⟩)
    · have := (inner_ge (N := N) (g := gradAt P S.force s0.x) (sl := slacks ws.V) (Lv := fun i => (ws.ms i).Lvs)).2 i0 hi0 k0
      rw [hit0] at h
      exact absurd (this.trans h) (not_le.2 big)
    · have := (dual_bounds (N := N) (g := gradAt P S.force s0.x) (sl := fun _ => []) (Lv := fun _ => [])).2 i0 hi0 k0
      exact absurd (this.trans h) (not_le.2 ((le_max_right _ _).trans_lt big))
  have hnp : ProxDDP.nextPreg p (ProxDDP.initRun p v0 s0).pregLast = max p.regInit p.regMin := if_pos rfl
  obtain ⟨n, hn⟩ : ∃ n, p.maxAlIters = n + 1 := ⟨p.maxAlIters - 1, by omega⟩
  have hends : ProxDDP.Ends C p e (n + 1) M (ProxDDP.initRun p v0 s0) := by
    refine ProxDDP.ends_step (q := ⟨mu, B0, M, q, r⟩) hq hb hF (k := 0) (j := 0) (B := B0) ?_ hv0 (Nat.zero_add M) le_rfl ?_ le_rfl ?_ ?_ ?_ hw hgo hst ?_ ?_
      (by omega) (by show 0 + M + 2 ≤ _; omega)
    · intro m' s' _ hH hk hn' hit'
      refine ProxDDP.ends_head hq hb hF n m' s' hH ?_ hit'
      rcases hk with h | h
      · exact Or.inl ⟨h, by omega⟩
      · exact Or.inr ⟨h, by omega⟩
    · show mu = p.muFactor ^ 0 * mu
      rw [pow_zero, one_mul]
    · show mu * B0 ≤ r ^ 0 * (mu * B0)
      rw [pow_zero, one_mul]
    · rw [hit0]
      refine le_trans ?_ (le_max_right _ _)
      have := hp.targetDual
      linarith
    · exact le_max_right _ _
    · rw [hnp]
      exact hB0
    · rw [hnp]
      exact ⟨le_max_right _ _, le_rfl⟩
  obtain ⟨F, hFu⟩ := hends
  refine ⟨F, fun fuel hf => ?_⟩
  obtain ⟨s, r1, r2, r3, r4, -, -⟩ := hFu fuel hf
  refine ⟨s, ?_, ?_, r2.feasible, near_normal hc.kkt r2 hc.told hth0 hth1.le htt r3, r2.free, r2.grad, r2.dist, r2.vdist⟩
  · show ProxDDP.outer p e fuel p.maxAlIters _ = _
    rw [hn]
    exact r1
  · have : s.numIters ≤ 0 + M + 1 := r4
    omega

end Aligator.Link
