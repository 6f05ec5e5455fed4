import Verif.Props.SolverIneq

/-!
# Concrete cases for C78

Minimise `(u + 1)² / 2` subject to `x₁ = x₀`, `x₀ = 0`, `u ≤ 0`.
-/

namespace Aligator.Link

open Matrix Lag LQ CSets

/-- `u ≤ 0` -/
def ineKinds (i : ℕ) : List Spec.SetKind := if i = 0 then [.nonpos] else []

theorem ine_sets : LibSets wit witSetup fun i => (ineKinds i).map Spec.SetKind.kind := by
  refine ⟨fun i hi => ?_, fun i hi => ?_, fun i hi => ?_⟩
  · interval_cases i
    · exact wit_library.1
    · exact wit_library.2
  · interval_cases i <;> rfl
  · interval_cases i <;> rfl

/-- the multiplier `0` of the solution `u = -1` -/
def ineVb (i : ℕ) : List ℝ := if i = 0 then [0] else []

theorem ine_kkt : Spec.KKTPointI wit ineKinds (witSetup.force = true) (fun _ => 0) (fun _ _ => -1) 0 (fun _ => 0) ineVb where
  feasible := ⟨rfl, fun i hi => rfl⟩
  sizes i hi := by
    interval_cases i <;> simp [Spec.cstr, wit, ineVb]
  normal i hi k hk := by
    interval_cases i
    · have hk0 : k = 0 := by
        have : k < 1 := by simpa [Spec.cstr, wit] using hk
        omega
      subst hk0
      simp [Spec.Normal, Spec.cstr, wit, ineVb, ineKinds, Spec.SetKind.set]
    · simp [Spec.cstr, wit] at hk
  stationary ex eu _ := (wit_deriv 0 (fun _ => 0) ineVb 0 rfl rfl _ _ ex eu).congr_deriv (by simp)

/-- What a full step does on this problem. -/
theorem ine_step {s : SSt wit} {w a b : ℝ} (h : EqAt s w a b) {exact : Bool} {d : Dir (fun _ => 1) (fun _ => 1) wit.nc0}
    (hs : Solves wit witSetup exact witHess s d) {it : Iter (fun _ => 1) (fun _ => 1) wit.nc0}
    (hit : it = linearStep s.x (d.forced witSetup.force) 1) :
    ∃ al be : ℝ, it.x 0 = 0 ∧ it.x 1 = 0 ∧ (it.u 0 = fun _ => w + al) ∧ it.vs 0 = [be] ∧ it.vs 1 = [] ∧
      s.mu * be = max (w + s.mu * a) 0 + (if 0 < w + s.mu * a then al else 0) ∧ w + al + 1 + be = -(s.preg * al) := by
  obtain ⟨hv, hvs⟩ := h.shapes
  have hmu := h.mu
  have hF := C78_full_step wit_isLQE ine_sets hmu hv hvs hs (wit_goodStart _ h.x0 _)
  rw [← hit] at hF
  obtain ⟨y0, y1⟩ := wit_feasible hF.feasible
  have hdu : it.u 0 = fun _ => w + d.du 0 0 := by
    rw [hF.u]
    funext k
    show s.x.u 0 k + d.du 0 k = _
    rw [h.u, Subsingleton.elim k 0]
  obtain ⟨be, hbe⟩ := List.length_eq_one_iff.1 (show (it.vs 0).length = 1 from hF.shape 0 (by omega))
  have hb1 : it.vs 1 = [] := List.length_eq_zero_iff.1 (show (it.vs 1).length = 0 from hF.shape 1 le_rfl)
  refine ⟨d.du 0 0, be, y0, y1, hdu, hbe, hb1, ?_, ?_⟩
  · have e := hF.row 0 (by omega) 0 (show 0 < 1 by omega)
    have c0 : Spec.cstr wit it.x it.u 0 = [w + d.du 0 0] := by simp [Spec.cstr, wit, hdu]
    have c1 : Spec.cstr wit s.x.x s.x.u 0 = [w] := by simp [Spec.cstr, wit, h.u]
    have z0 : shiftV wit s.mu s.prevV s.x.x s.x.u 0 0 = w + s.mu * a := by simp [shiftV, c1, h.p0]
    have z1 : shiftV wit s.mu s.prevV it.x it.u 0 0 = w + d.du 0 0 + s.mu * a := by simp [shiftV, c0, h.p0]
    have hkd : kindAt (fun i => (ineKinds i).map Spec.SetKind.kind) 0 0 = .orth := rfl
    rw [hkd, z0, z1, hbe] at e
    simp only [Kind.cone, Kind.flag, decide_eq_true_eq, gt_iff_lt, List.getD_cons_zero] at e
    rw [e]
    congr 1
    split <;> ring
  · have e : (gradAt wit true it).Lus 0 = -(s.preg • d.du 0) := hF.Lu 0 one_pos
    rw [gradAt_Lus it _ be hdu hbe] at e
    exact congrFun e 0

theorem ine_solvable {s : SSt wit} {w a b : ℝ} (h : EqAt s w a b) (exact : Bool) : ∃ d, Solves wit witSetup exact witHess s d := by
  have hmu := h.mu
  have hpr := h.preg
  obtain ⟨al, be, hbe, hal⟩ : ∃ al be : ℝ, s.mu * be = max (w + s.mu * a) 0 + (if 0 < w + s.mu * a then al else 0) ∧
      w + al + 1 + be = -(s.preg * al) := by
    by_cases hz : 0 < w + s.mu * a
    · have hden : 0 < 1 + s.preg + 1 / s.mu := by positivity
      refine ⟨-(w + 1 + (w + s.mu * a) / s.mu) / (1 + s.preg + 1 / s.mu),
        (w + s.mu * a + -(w + 1 + (w + s.mu * a) / s.mu) / (1 + s.preg + 1 / s.mu)) / s.mu, ?_, ?_⟩
      · rw [if_pos hz, max_eq_left hz.le, mul_div_cancel₀ _ hmu.ne']
      · set q := -(w + 1 + (w + s.mu * a) / s.mu) / (1 + s.preg + 1 / s.mu) with hq
        have : (1 + s.preg + 1 / s.mu) * q = -(w + 1 + (w + s.mu * a) / s.mu) := by rw [hq, mul_div_cancel₀ _ hden.ne']
        have e : (w + s.mu * a + q) / s.mu = (w + s.mu * a) / s.mu + 1 / s.mu * q := by ring
        rw [e]
        linarith
    · refine ⟨-(w + 1) / (1 + s.preg), 0, ?_, ?_⟩
      · rw [if_neg hz, max_eq_right (not_lt.1 hz)]; simp
      · have : (1 + s.preg) * (-(w + 1) / (1 + s.preg)) = -(w + 1) := mul_div_cancel₀ _ (by positivity)
        linarith
  refine ⟨⟨fun _ => 0, fun _ _ => al, ⟨s.x.lam.dyn 0, fun _ => -s.x.lam.dyn 0⟩, fun i => if i = 0 then [be - b] else []⟩, ?_⟩
  set d : Dir (fun _ => 1) (fun _ => 1) wit.nc0 :=
    ⟨fun _ => 0, fun _ _ => al, ⟨s.x.lam.dyn 0, fun _ => -s.x.lam.dyn 0⟩, fun i => if i = 0 then [be - b] else []⟩ with hd
  have hdv : Shape wit d.dv := by
    intro i hi
    interval_cases i <;> rfl
  obtain ⟨hv, hvs⟩ := h.shapes
  refine (solves_iff wit witSetup exact witHess s d).2 ⟨?_, hdv⟩
  have hsh := lib_shapes ine_sets hv hvs hdv s.x.x s.x.u
  let st : LQ.Spec.Step (fun _ => 1) (fun _ => 1) (wit.spec s.x.x s.x.u).nc0 := ⟨d.dx, d.du, d.dlam.init, d.dlam.dyn, d.dv⟩
  refine (kkt_rows (P := wit.spec s.x.x s.x.u) (op := witSetup.op) (ks := fun i => (ineKinds i).map Spec.SetKind.kind) (vPrev := s.prevV)
    (vs := s.x.vs) (out := witSetup.out) (outA := fun i => List.replicate (wit.nc i) false) (s := st) witHess s.mu s.preg exact
    witSetup.force s.x.lam s.x.x s.x.u hmu.ne' hsh).2 ⟨?_, ?_, ?_, ?_, ?_⟩
  · show (1 : Matrix (Fin 1) (Fin 1) ℝ) *ᵥ (0 : Fin 1 → ℝ) + s.x.x 0 = 0
    rw [h.x0]; simp
  · intro i hi
    interval_cases i
    show (1 : Matrix (Fin 1) (Fin 1) ℝ) *ᵥ (0 : Fin 1 → ℝ) + (0 : Matrix (Fin 1) (Fin 1) ℝ) *ᵥ (fun _ => al) + (s.x.x 0 - s.x.x 1) = 0
    rw [h.x0, h.x1]; simp
  · intro i hi k hk
    rw [ncOf_spec] at hk
    interval_cases i
    · have hk0 : k = 0 := Nat.lt_one_iff.1 hk
      subst hk0
      have e1 : shiftedAt (wit.spec s.x.x s.x.u) s.mu s.prevV s.x.x s.x.u 0 = [w + s.mu * a] := by
        show List.zipWith (· + ·) (List.ofFn (s.x.u 0) ++ []) ((s.prevV 0).map (s.mu * ·)) = _
        rw [h.u, h.p0]
        simp
      unfold Row
      rw [e1]
      show (if flagAt [.orth] [w + s.mu * a] 0 then
        ((0 : Matrix (Fin 1) (Fin 1) ℝ) *ᵥ (0 : Fin 1 → ℝ) + (1 : Matrix (Fin 1) (Fin 1) ℝ) *ᵥ (fun _ => al)) 0 else 0) +
        ((witSet.normalConeProjection [w + s.mu * a] [0]).getD 0 0 - s.mu * (s.x.vs 0).getD 0 0) - s.mu * ([be - b] : List ℝ).getD 0 0 = 0
      rw [witSet_cone, h.v0]
      simp [flagAt, Kind.flag]
      linarith
    · exact absurd hk (Nat.not_lt_zero _)
  · intro i hi
    interval_cases i
    obtain ⟨g1, g2, g3⟩ := compute_eq (pdata (wit.spec s.x.x s.x.u)) (some (lamsNext s.x.lam st))
      (fun i => LQ.Spec.ladd (s.x.vs i) (d.dv i))
    constructor
    · have q1 : ∀ li : Fin 1 → ℝ, li = s.x.lam.init → (gradNext (wit.spec s.x.x s.x.u) s.x.lam s.x.vs st).Lxs 0 =
          (1 : Matrix (Fin 1) (Fin 1) ℝ)ᵀ *ᵥ (li + s.x.lam.dyn 0) + (0 + (1 : Matrix (Fin 1) (Fin 1) ℝ)ᵀ *ᵥ
            (s.x.lam.dyn 0 + -s.x.lam.dyn 0) + ((0 : Matrix (Fin 1) (Fin 1) ℝ)ᵀ *ᵥ slice (LQ.Spec.ladd (s.x.vs 0) [be - b]) 0 1 + 0)) := by
        rintro _ rfl
        exact g1 0 one_pos
      have q2 : ∀ li : Fin 1 → ℝ, li = s.x.lam.init → (gradNow (wit.spec s.x.x s.x.u) s.x.lam s.x.vs).Lxs 0 =
          (1 : Matrix (Fin 1) (Fin 1) ℝ)ᵀ *ᵥ li + (0 + (1 : Matrix (Fin 1) (Fin 1) ℝ)ᵀ *ᵥ
            s.x.lam.dyn 0 + ((0 : Matrix (Fin 1) (Fin 1) ℝ)ᵀ *ᵥ slice (s.x.vs 0) 0 1 + 0)) := by
        rintro _ rfl
        exact (compute_eq (pdata (wit.spec s.x.x s.x.u)) (some s.x.lam) s.x.vs).1 0 one_pos
      have q3 : dropped (wit.spec s.x.x s.x.u) witHess witSetup.op s.mu s.preg exact witSetup.force s.x.lam s.prevV s.x.vs witSetup.out
          s.x.x s.x.u 0 = 0 - (gradNow (wit.spec s.x.x s.x.u) s.x.lam s.x.vs).Lxs 0 := by
        unfold dropped
        congr 1
      have q4 : rX (wit.spec s.x.x s.x.u) witHess s.preg exact s.x.lam s.x.vs st 0 =
          (gradNext (wit.spec s.x.x s.x.u) s.x.lam s.x.vs st).Lxs 0 + 0 := by
        unfold rX
        congr 1
        show (curv witHess s.preg exact).Q 0 *ᵥ (0 : Fin 1 → ℝ) + (curv witHess s.preg exact).S 0 *ᵥ (fun _ => al) = 0
        rw [mulVec_zero]
        cases exact <;> simp [curv, witHess]
      obtain ⟨li, hli⟩ : ∃ li : Fin 1 → ℝ, li = s.x.lam.init := ⟨_, rfl⟩
      rw [q3, q4, q1 li hli, q2 li hli]
      simp only [transpose_one, one_mulVec, transpose_zero, zero_mulVec]
      funext k
      simp
    · have q1 : (gradNext (wit.spec s.x.x s.x.u) s.x.lam s.x.vs st).Lus 0 =
          (fun _ => s.x.u 0 0 + 1) + (0 : Matrix (Fin 1) (Fin 1) ℝ)ᵀ *ᵥ (s.x.lam.dyn 0 + -s.x.lam.dyn 0) +
            ((1 : Matrix (Fin 1) (Fin 1) ℝ)ᵀ *ᵥ slice (LQ.Spec.ladd (s.x.vs 0) [be - b]) 0 1 + 0) := g3 0 one_pos
      unfold rU
      rw [q1, h.u, h.v0]
      show _ + (((curv witHess s.preg exact).S 0)ᵀ *ᵥ (0 : Fin 1 → ℝ) + (curv witHess s.preg exact).R 0 *ᵥ (fun _ => al)) = 0
      rw [mulVec_zero]
      funext k
      rw [Subsingleton.elim k 0]
      cases exact <;> simp [curv, witHess, slice, LQ.Spec.ladd, mulVec, dotProduct] <;> linarith
  · have q1 : (gradNext (wit.spec s.x.x s.x.u) s.x.lam s.x.vs st).Lxs 1 = -(s.x.lam.dyn 0 + -s.x.lam.dyn 0) + (0 + 0) :=
      (compute_eq (pdata (wit.spec s.x.x s.x.u)) (some (lamsNext s.x.lam st)) (fun i => LQ.Spec.ladd (s.x.vs i) (d.dv i))).2.1
    have q3 := dropped_pos (P := wit.spec s.x.x s.x.u) (op := witSetup.op) (vPrev := s.prevV) (vs := s.x.vs)
      (out := witSetup.out) witHess s.mu s.preg exact witSetup.force s.x.lam s.x.x s.x.u 1 one_ne_zero
    rw [q3]
    unfold rXN
    rw [q1]
    show _ + (curv witHess s.preg exact).QN *ᵥ (0 : Fin 1 → ℝ) + 0 = 0
    rw [mulVec_zero]
    simp


theorem ine_side {s : SSt wit} {w a b : ℝ} (h : EqAt s w a b) {it : Iter (fun _ => 1) (fun _ => 1) wit.nc0} {w' : ℝ}
    (hu : it.u 0 = fun _ => w') :
    SamePiece wit (fun i => (ineKinds i).map Spec.SetKind.kind) s it ↔
      (0 < w + s.mu * a → 0 ≤ w' + s.mu * a) ∧ (w + s.mu * a ≤ 0 → w' + s.mu * a ≤ 0) := by
  rw [C78_same_side (fun i hi k hk => by
    interval_cases i
    · have : k = 0 := Nat.lt_one_iff.1 hk
      subst this
      exact trivial
    · exact absurd hk (Nat.not_lt_zero _))]
  have c0 : Spec.cstr wit it.x it.u 0 = [w'] := by simp [Spec.cstr, wit, hu]
  have c1 : Spec.cstr wit s.x.x s.x.u 0 = [w] := by simp [Spec.cstr, wit, h.u]
  constructor
  · intro H
    have := H 0 (by omega) 0 (show 0 < 1 by omega)
    rw [c0, c1, h.p0] at this
    exact this
  · intro H i hi k hk
    interval_cases i
    · have : k = 0 := Nat.lt_one_iff.1 hk
      subst this
      rw [c0, c1, h.p0]
      exact H
    · exact absurd hk (Nat.not_lt_zero _)

theorem ine_energy (it : Iter (fun _ => 1) (fun _ => 1) wit.nc0) (w : ℝ) (h0 : it.x 0 = 0) (h1 : it.x 1 = 0) (hu : it.u 0 = fun _ => w)
    (v : ℕ → List ℝ) (a : ℝ) (p0 : v 0 = [a]) (preg mu : ℝ) :
    preg * Spec.dist2 1 it.x it.u (fun _ => (0 : Fin 1 → ℝ)) (fun _ _ => -1) + mu * Spec.vdist2 1 wit.nc v ineVb =
      preg * (w + 1) ^ 2 + mu * a ^ 2 := by
  have n0 : wit.nc 0 = 1 := rfl
  have n1 : wit.nc 1 = 0 := rfl
  simp [Spec.dist2, Spec.vdist2, Finset.sum_range_succ, h0, h1, hu, n0, n1, p0, ineVb]

/-- **C78** The restriction is needed: minimise `(u + 1)² / 2` subject to `u ≤ 0` from a guess `u = w > 0` with the zero multiplier.
For every small penalty parameter and still smaller regularisation the full step ends with `u < 0` and a negative multiplier of the
inequality, which no solution has, and the weighted distance to the solution grows. -/
theorem C78_side_change {s : SSt wit} {w b : ℝ} (h : EqAt s w 0 b) (hw : 0 < w) (hpr : s.preg * (w + 1) ^ 2 < s.mu * (1 / 2) ^ 2)
    (hmu : s.mu * (1 + s.preg) ≤ 1 / 4) (hpw : s.preg * w ≤ 1 / 4) {exact : Bool} {d : Dir (fun _ => 1) (fun _ => 1) wit.nc0}
    (hs : Solves wit witSetup exact witHess s d) {it : Iter (fun _ => 1) (fun _ => 1) wit.nc0}
    (hit : it = linearStep s.x (d.forced witSetup.force) 1) :
    it.u 0 0 < 0 ∧ (it.vs 0).getD 0 0 < 0 ∧
    s.preg * Spec.dist2 1 s.x.x s.x.u (fun _ => (0 : Fin 1 → ℝ)) (fun _ _ => -1) + s.mu * Spec.vdist2 1 wit.nc s.prevV ineVb <
      s.preg * Spec.dist2 1 it.x it.u (fun _ => (0 : Fin 1 → ℝ)) (fun _ _ => -1) + s.mu * Spec.vdist2 1 wit.nc it.vs ineVb := by
  obtain ⟨al, be, y0, y1, hu, hv0, hv1, e1, e2⟩ := ine_step h hs hit
  have hm := h.mu
  have hp := h.preg
  rw [mul_zero, add_zero, if_pos hw, max_eq_left hw.le] at e1
  have e3 : (1 + s.mu * (1 + s.preg)) * be = s.preg * w - 1 := by
    have : al = s.mu * be - w := by linarith
    rw [this] at e2
    linarith
  have hb : be ≤ -(1 / 2) := by
    by_contra hn
    have hn := not_le.1 hn
    have hm0 : 0 ≤ s.mu * (1 + s.preg) := by positivity
    nlinarith [mul_pos (by linarith : 0 < 1 + s.mu * (1 + s.preg)) (by linarith : 0 < be + 1 / 2)]
  have hneg : w + al < 0 := by
    rw [← e1]
    nlinarith
  refine ⟨by rw [hu]; exact hneg, by rw [hv0]; simp; linarith, ?_⟩
  rw [ine_energy s.x w h.x0 h.x1 h.u s.prevV 0 h.p0, ine_energy it _ y0 y1 hu it.vs be hv0]
  have : (1 / 2 : ℝ) ^ 2 ≤ be ^ 2 := by nlinarith
  have h1 := mul_le_mul_of_nonneg_left this hm.le
  have h2 : 0 ≤ s.preg * (w + al + 1) ^ 2 := mul_nonneg hp (sq_nonneg _)
  nlinarith

/-- With a multiplier `a` that is large the constraint stays active, with an iterate inside it stays inactive. -/
theorem ine_stays {s : SSt wit} {w a b : ℝ} (h : EqAt s w a b) {exact : Bool} {d : Dir (fun _ => 1) (fun _ => 1) wit.nc0}
    (hs : Solves wit witSetup exact witHess s d) {it : Iter (fun _ => 1) (fun _ => 1) wit.nc0}
    (hit : it = linearStep s.x (d.forced witSetup.force) 1)
    (hc : (0 < w + s.mu * a ∧ 1 ≤ (1 + s.preg) * (s.mu * a) + s.preg * w) ∨
      (w + s.mu * a ≤ 0 ∧ (1 + s.preg) * (s.mu * a) + s.preg * w ≤ 1)) :
    SamePiece wit (fun i => (ineKinds i).map Spec.SetKind.kind) s it := by
  obtain ⟨al, be, y0, y1, hu, hv0, hv1, e1, e2⟩ := ine_step h hs hit
  have hm := h.mu
  have hp := h.preg
  rw [ine_side h hu]
  rcases hc with ⟨hz, hc⟩ | ⟨hz, hc⟩
  · rw [if_pos hz, max_eq_left hz.le] at e1
    refine ⟨fun _ => ?_, fun h' => absurd hz (not_lt.2 h')⟩
    by_contra hn
    have hn := not_le.1 hn
    have hb : be < 0 := by
      by_contra hb
      have := mul_nonneg hm.le (not_lt.1 hb)
      linarith
    nlinarith
  · rw [if_neg (not_lt.2 hz), max_eq_right hz, add_zero] at e1
    have hb : be = 0 := by
      rcases mul_eq_zero.1 e1 with h' | h'
      · exact absurd h' hm.ne'
      · exact h'
    rw [hb] at e2
    refine ⟨fun h' => absurd h' (not_lt.2 hz), fun _ => ?_⟩
    by_contra hn
    have hn := not_le.1 hn
    nlinarith

/-- A state with `u = w`, the multiplier `b`, the multiplier `a` at the last update. -/
noncomputable def ineSt (w a b mu preg : ℝ) : SSt wit :=
  { witSt with
    x := ⟨fun _ => 0, fun _ _ => w, ⟨0, fun _ => 0⟩, fun i => if i = 0 then [b] else []⟩
    prevV := fun i => if i = 0 then [a] else []
    mu := mu
    preg := preg }

theorem ineSt_at {w a b mu preg : ℝ} (hmu : 0 < mu) (hpr : 0 ≤ preg) : EqAt (ineSt w a b mu preg) w a b :=
  ⟨rfl, rfl, rfl, rfl, rfl, rfl, rfl, hmu, hpr⟩

/-- from `u = 1` with `mu = 1/10`, `rho = 10⁻³` the distance to the solution grows -/
example (exact : Bool) : ∃ d, Solves wit witSetup exact witHess (ineSt 1 0 0 0.1 1e-3) d ∧
    (linearStep (ineSt 1 0 0 0.1 1e-3).x (d.forced witSetup.force) 1).u 0 0 < 0 := by
  obtain ⟨d, hd⟩ := ine_solvable (ineSt_at (w := 1) (a := 0) (b := 0) (mu := 0.1) (preg := 1e-3) (by norm_num) (by norm_num)) exact
  refine ⟨d, hd, ?_⟩
  exact (C78_side_change (ineSt_at (w := 1) (a := 0) (b := 0) (mu := 0.1) (preg := 1e-3) (by norm_num) (by norm_num)) one_pos
    (by norm_num [ineSt]) (by norm_num [ineSt]) (by norm_num [ineSt]) hd rfl).1

/-- a full step with the constraint active before and after it: `u = 0`, multiplier `10`, `mu = rho = 1` -/
example (exact : Bool) : ∃ d, Solves wit witSetup exact witHess (ineSt 0 10 10 1 1) d ∧
    SamePiece wit (fun i => (ineKinds i).map Spec.SetKind.kind) (ineSt 0 10 10 1 1)
      (linearStep (ineSt 0 10 10 1 1).x (d.forced witSetup.force) 1) ∧
    Kind.flag .orth (shiftV wit 1 (ineSt 0 10 10 1 1).prevV (ineSt 0 10 10 1 1).x.x (ineSt 0 10 10 1 1).x.u 0 0) := by
  have h := ineSt_at (w := 0) (a := 10) (b := 10) (mu := 1) (preg := 1) (by norm_num) (by norm_num)
  obtain ⟨d, hd⟩ := ine_solvable h exact
  refine ⟨d, hd, ine_stays h hd rfl (.inl (by norm_num [ineSt])), ?_⟩
  norm_num [shiftV, Spec.cstr, wit, ineSt, Kind.flag]

section
variable {s : SSt wit} {w a b : ℝ} (h : EqAt s w a b) {exact : Bool} {d : Dir (fun _ => 1) (fun _ => 1) wit.nc0}
  (hs : Solves wit witSetup exact witHess s d)
  (hp : SamePiece wit (fun i => (ineKinds i).map Spec.SetKind.kind) s (linearStep s.x (d.forced witSetup.force) 1))

example := C78_full_step wit_isLQE ine_sets h.mu h.shapes.1 h.shapes.2 hs (wit_goodStart _ h.x0 _)
example := C78_energy wit_isLQE ine_sets h.mu h.shapes.1 h.shapes.2 hs (wit_goodStart _ h.x0 _) rfl hp ine_kkt
example := C78_closer wit_isLQE wit_convex ine_sets h.mu h.shapes.1 h.shapes.2 hs (wit_goodStart _ h.x0 _) rfl hp ine_kkt
example := C78_inner wit_isLQE ine_sets h.mu h.shapes.1 h.shapes.2 hs (wit_goodStart _ h.x0 _) rfl
end

theorem ine_nonempty : ∀ i, i ≤ 1 → ∀ k, k < wit.nc i → ((ineKinds i).getD k .eq).set.Nonempty := by
  intro i hi k hk
  interval_cases i
  · have : k = 0 := Nat.lt_one_iff.1 hk
    subst this
    exact ⟨0, le_refl (0 : ℝ)⟩
  · exact absurd hk (Nat.not_lt_zero _)

example {mu : ℝ} (hmu : 0 < mu) {w a b : ℝ} := C78_reported ine_sets ine_nonempty hmu
  (ineSt_at (w := w) (a := a) (b := b) hmu zero_le_one).shapes.1 (ineSt_at (w := w) (a := a) (b := b) hmu zero_le_one).shapes.2
  (⟨rfl, fun _ _ => rfl⟩ : Spec.Feasible wit (ineSt w a b mu 1).x.x (ineSt w a b mu 1).x.u)

/-- The multiplier update: with the multiplier `a ≥ 0` at the last update, `mu = 1` and no regularisation, the
minimiser of the penalised problem is `u = (-1 - a) / 2` when `a ≥ 1`, with the multiplier `(a - 1) / 2`. -/
example {a : ℝ} (ha : 1 ≤ a) : Spec.vdist2 1 wit.nc (ineSt (-(1 + a) / 2) a ((a - 1) / 2) 1 0).x.vs ineVb +
    Spec.vdist2 1 wit.nc (ineSt (-(1 + a) / 2) a ((a - 1) / 2) 1 0).x.vs (ineSt (-(1 + a) / 2) a ((a - 1) / 2) 1 0).prevV ≤
    Spec.vdist2 1 wit.nc (ineSt (-(1 + a) / 2) a ((a - 1) / 2) 1 0).prevV ineVb := by
  have h := ineSt_at (w := -(1 + a) / 2) (a := a) (b := (a - 1) / 2) (mu := 1) (preg := 0) one_pos le_rfl
  refine C78_multiplier_update wit_isLQE wit_convex (force := true) (sk := ineKinds) one_pos h.shapes.2 ⟨rfl, fun _ _ => rfl⟩
    (wit_goodStart _ rfl _) (fun i hi => ?_) (fun i hi => ?_) (fun i hi k hk => ?_) ine_kkt
  · interval_cases i
    · rfl
    · rw [gradAt_Lxs]
      show -(0 : Fin 1 → ℝ) = 0
      simp
  · interval_cases i
    rw [gradAt_Lus _ _ _ h.u h.v0]
    funext _
    show -(1 + a) / 2 + 1 + (a - 1) / 2 = 0
    ring
  · interval_cases i
    · have : k = 0 := Nat.lt_one_iff.1 hk
      subst this
      have e : shiftV wit 1 (ineSt (-(1 + a) / 2) a ((a - 1) / 2) 1 0).prevV (ineSt (-(1 + a) / 2) a ((a - 1) / 2) 1 0).x.x
          (ineSt (-(1 + a) / 2) a ((a - 1) / 2) 1 0).x.u 0 0 = -(1 + a) / 2 + 1 * a := by
        simp [shiftV, Spec.cstr, wit, ineSt]
      rw [e]
      show 1 * ((a - 1) / 2) = max (-(1 + a) / 2 + 1 * a) 0
      rw [max_eq_left (by linarith)]
      ring
    · exact absurd hk (Nat.not_lt_zero _)

/-! ### A sequence -/

/-- A state inside the constraint with the zero multiplier. -/
structure InAt (s : SSt wit) (mu preg : ℝ) : Prop where
  at_ : ∃ w b, EqAt s w 0 b ∧ w ≤ 0
  mu : s.mu = mu
  preg : s.preg = preg

theorem ine_next {s : SSt wit} {mu preg : ℝ} (h : InAt s mu preg) (exact : Bool) : ∃ s' : SSt wit, InAt s' mu preg ∧
    (∃ d, Solves wit witSetup exact witHess s d ∧ s'.x = linearStep s.x (d.forced witSetup.force) 1) ∧
    SamePiece wit (fun i => (ineKinds i).map Spec.SetKind.kind) s s'.x ∧ s'.prevV = s'.x.vs := by
  obtain ⟨⟨w, b, h1, hw⟩, h2, h3⟩ := h
  obtain ⟨d, hd⟩ := ine_solvable h1 exact
  obtain ⟨al, be, y0, y1, hu, hv0, hv1, e1, e2⟩ := ine_step h1 hd rfl
  have hm := h1.mu
  have hp := h1.preg
  rw [mul_zero, add_zero, if_neg (not_lt.2 hw), max_eq_right hw, add_zero] at e1
  have hb : be = 0 := by
    rcases mul_eq_zero.1 e1 with h' | h'
    · exact absurd h' hm.ne'
    · exact h'
  have hc : s.preg * w ≤ 0 := mul_nonpos_of_nonneg_of_nonpos hp hw
  refine ⟨{ s with x := linearStep s.x (d.forced witSetup.force) 1
                   prevV := (linearStep s.x (d.forced witSetup.force) 1).vs }, ⟨⟨w + al, be, ?_, ?_⟩, h2, h3⟩, ⟨d, hd, rfl⟩,
    ine_stays h1 hd rfl (.inr ⟨by simpa using hw, by simp; linarith⟩), rfl⟩
  · exact ⟨y0, y1, hu, hv0, hv1, by rw [← hb]; exact hv0, hv1, hm, hp⟩
  · rw [hb] at e2
    by_contra hn
    have hn := not_le.1 hn
    nlinarith

/-- Sequences of such iterations exist, with any positive penalty parameter and regularisation. -/
theorem ine_chain (mu preg : ℝ) (hmu : 0 < mu) (hpr : 0 < preg) (exact : Bool) : ∃ st : ℕ → SSt wit,
    st 0 = ineSt 0 0 0 mu preg ∧ Chain wit witSetup (fun i => (ineKinds i).map Spec.SetKind.kind) exact witHess st := by
  classical
  let f : {s : SSt wit // InAt s mu preg} → {s : SSt wit // InAt s mu preg} := fun s =>
    ⟨Classical.choose (ine_next s.2 exact), (Classical.choose_spec (ine_next s.2 exact)).1⟩
  have hf : ∀ s, _ := fun s : {s : SSt wit // InAt s mu preg} => (Classical.choose_spec (ine_next s.2 exact)).2
  let g : ℕ → {s : SSt wit // InAt s mu preg} := fun n =>
    Nat.rec ⟨ineSt 0 0 0 mu preg, ⟨0, 0, ineSt_at hmu hpr.le, le_rfl⟩, rfl, rfl⟩ (fun _ s => f s) n
  refine ⟨fun n => (g n).1, rfl, ⟨fun n => by rw [(g n).2.mu]; exact hmu, fun n => by rw [(g n).2.preg]; exact hpr,
    fun n => by rw [(g n).2.mu, (g (n + 1)).2.mu], fun n => by rw [(g n).2.preg, (g (n + 1)).2.preg], fun n => (hf (g n)).1,
    fun n => (hf (g n)).2.1, fun n => (hf (g n)).2.2⟩⟩

/-- the rate on that sequence -/
example (mu preg : ℝ) (hmu : 0 < mu) (hpr : 0 < preg) (exact : Bool) (M : ℕ) (hM : 0 < M) : ∃ st : ℕ → SSt wit, st 0 = ineSt 0 0 0 mu preg ∧
    ∃ n, 0 < n ∧ n ≤ M ∧ SmallGrad wit true (st n).x (Real.sqrt (preg * preg / M)) := by
  obtain ⟨st, h0, h⟩ := ine_chain mu preg hmu hpr exact
  have hs := (ineSt_at (w := 0) (a := 0) (b := 0) hmu hpr.le).shapes
  rw [← h0] at hs
  obtain ⟨n, h1, h2, -, -, h3⟩ := C78_rate wit_isLQE wit_convex ine_sets h hs.1 hs.2 (wit_goodStart _ (by rw [h0]; rfl) _) ine_kkt hM rfl
  rw [h0, ine_energy (ineSt 0 0 0 mu preg).x 0 rfl rfl rfl (ineSt 0 0 0 mu preg).prevV 0 rfl] at h3
  refine ⟨st, h0, n, h1, h2, ?_⟩
  have e : (ineSt 0 0 0 mu preg).preg * ((ineSt 0 0 0 mu preg).preg * (0 + 1) ^ 2 + (ineSt 0 0 0 mu preg).mu * 0 ^ 2) = preg * preg := by
    simp [ineSt]
  rwa [e] at h3

end Aligator.Link
