import Verif.Props.SolverIneqRun
import Verif.Props.SolverIneqWit

/-!
# Concrete runs for C79

Minimise `(u + 1)² / 2` subject to `x₁ = x₀`, `x₀ = 0`, `0 ≤ u ≤ 2` (the lower bound is active) and `-3 ≤ u ≤ 2` (no bound is active).
-/

namespace Aligator.Link

open Matrix Lag LQ CSets

/-- `lo ≤ u ≤ 2` -/
noncomputable def bwSet (lo : ℝ) : CSet := (product [box [lo] [2]] [1]).getD equality

noncomputable def bwSetup (lo : ℝ) : Setup := { witSetup with op := fun i => if i = 0 then bwSet lo else noSet }

def bwKinds (lo : ℝ) (i : ℕ) : List Spec.SetKind := if i = 0 then [.box lo 2] else []

/-- the projection of the shifted constraint value onto the normal cone -/
noncomputable def bwCone (lo z : ℝ) : ℝ := z - max (min z 2) lo

theorem bwSet_cone (lo z o : ℝ) : (bwSet lo).normalConeProjection [z] [o] = [bwCone lo z] := by
  simp [bwSet, bwCone, product, productLoop, blockStart, seg, writeSeg, box, boxProj]

theorem bw_library (lo : ℝ) : Library (bwSet lo) [.box lo 2] := by
  refine Library.product [(box [lo] [2], [.box lo 2])] _ ?_ rfl
  intro c hc
  simp only [List.mem_cons, List.not_mem_nil, or_false] at hc
  subst hc
  exact .box [lo] [2] rfl

theorem bw_sets (lo : ℝ) : LibSets wit (bwSetup lo) fun i => (bwKinds lo i).map Spec.SetKind.kind := by
  refine ⟨fun i hi => ?_, fun i hi => ?_, fun i hi => ?_⟩
  · interval_cases i
    · exact bw_library lo
    · exact wit_library.2
  · interval_cases i <;> rfl
  · interval_cases i <;> rfl

theorem bw_cone_held {z : ℝ} (hz : z < 0) : bwCone 0 z = z := by
  unfold bwCone
  rw [min_eq_left (by linarith), max_eq_right hz.le, sub_zero]

theorem bw_cone_le (z : ℝ) : bwCone 0 z ^ 2 ≤ z ^ 2 := by
  unfold bwCone
  rcases le_total z 2 with h | h
  · rw [min_eq_left h]
    rcases le_total z 0 with h' | h'
    · rw [max_eq_right h', sub_zero]
    · rw [max_eq_left h', sub_self]
      nlinarith [sq_nonneg z]
  · rw [min_eq_right h, max_eq_left (by norm_num)]
    nlinarith

theorem bw_cone_free {lo z : ℝ} (h1 : lo ≤ z) (h2 : z ≤ 2) : bwCone lo z = 0 := by
  unfold bwCone
  rw [min_eq_left h2, max_eq_left h1, sub_self]

theorem bw_mult (lo mu : ℝ) (it : Iter (fun _ => 1) (fun _ => 1) wit.nc0) (vPrev : ℕ → List ℝ) (w a b : ℝ)
    (hu : it.u 0 = fun _ => w) (hv0 : it.vs 0 = [b]) (hv1 : it.vs 1 = []) (hp0 : vPrev 0 = [a]) (hp1 : vPrev 1 = []) :
    ((mult wit (bwSetup lo) mu vPrev it).1.ms 0).vsPlus = [1 / mu * bwCone lo (w + mu * a)] ∧
    ((mult wit (bwSetup lo) mu vPrev it).1.ms 1).vsPlus = [] := by
  constructor
  · show (multiplierStep (bwSet lo) mu (List.ofFn (it.u 0) ++ []) (vPrev 0) (it.vs 0) [0] []).vsPlus = _
    rw [hu, hv0, hp0]
    simp [multiplierStep, bwSet_cone]
  · show (multiplierStep noSet mu [] (vPrev 1) (it.vs 1) [] []).vsPlus = _
    rw [hv1, hp1]
    exact (wit_step1 mu).1

theorem bw_merit (lo mu : ℝ) (it : Iter (fun _ => 1) (fun _ => 1) wit.nc0) (vPrev : ℕ → List ℝ) (w a b : ℝ)
    (hx0 : it.x 0 = 0) (hx1 : it.x 1 = 0) (hu : it.u 0 = fun _ => w)
    (hv0 : it.vs 0 = [b]) (hv1 : it.vs 1 = []) (hp0 : vPrev 0 = [a]) (hp1 : vPrev 1 = []) :
    merit wit (bwSetup lo) mu vPrev it = 1 / 2 * (w + 1) ^ 2 + 1 / 2 * (mu * (it.lam.init ⬝ᵥ it.lam.init)) +
      1 / 2 * (0.1 * mu * (it.lam.dyn 0 ⬝ᵥ it.lam.dyn 0)) + 1 / 2 * (mu * (1 / mu * bwCone lo (w + mu * a)) ^ 2) := by
  obtain ⟨m0, m1⟩ := bw_mult lo mu it vPrev w a b hu hv0 hv1 hp0 hp1
  unfold merit
  simp only [meritEvaluate, m0, m1, List.range_succ, List.range_zero, List.nil_append, List.foldl_cons, List.foldl_nil]
  have e1 : (lamsPlus mu (0.1 * mu) it.lam (mult wit (bwSetup lo) mu vPrev it).1.V).init = it.lam.init := by
    funext k
    show it.lam.init k + it.x 0 k / mu = _
    rw [hx0]
    show _ + (0 : ℝ) / mu = _
    simp
  have e2 : (lamsPlus mu (0.1 * mu) it.lam (mult wit (bwSetup lo) mu vPrev it).1.V).dyn 0 = it.lam.dyn 0 := by
    funext k
    show it.lam.dyn 0 k + (it.x 0 - it.x 1) k / (0.1 * mu) = _
    rw [hx0, hx1]; simp
  have e3 : (mult wit (bwSetup lo) mu vPrev it).1.V.cost = 1 / 2 * (w + 1) ^ 2 := by
    show 0 + 1 / 2 * (it.u 0 0 + 1) ^ 2 + 0 = _
    rw [hu]; ring
  rw [e1, e2, e3]
  simp [sqNorm]
  ring

theorem bw_step (lo : ℝ) {s : SSt wit} {w a b : ℝ} (h : EqAt s w a b) (hws : s.ws = (mult wit (bwSetup lo) s.mu s.prevV s.x).1) {exact : Bool}
    {d : Dir (fun _ => 1) (fun _ => 1) wit.nc0} (hs : Solves wit (bwSetup lo) exact witHess s d) :
    ∃ al be : ℝ, s.mu * be = bwCone lo (w + s.mu * a) + (if w + s.mu * a > 2 ∨ w + s.mu * a < lo then al else 0) ∧
      w + al + 1 + be = -(s.preg * al) ∧
      slope wit s (d.forced (bwSetup lo).force) = (w + 1 + 1 / s.mu * bwCone lo (w + s.mu * a)) * al ∧
      merit wit (bwSetup lo) s.mu s.prevV (linearStep s.x (d.forced (bwSetup lo).force) 1) ≤ merit wit (bwSetup lo) s.mu s.prevV s.x +
        ((w + 1) * al + 1 / 2 * al ^ 2 + 1 / 2 * (1 / s.mu * bwCone lo (w + al + s.mu * a) ^ 2) -
          1 / 2 * (1 / s.mu * bwCone lo (w + s.mu * a) ^ 2)) := by
  obtain ⟨hv, hvs⟩ := h.shapes
  have hmu := h.mu
  have hF := C78_full_step wit_isLQE (bw_sets lo) hmu hv hvs hs (wit_goodStart _ h.x0 _)
  set it := linearStep s.x (d.forced (bwSetup lo).force) 1 with hit
  obtain ⟨y0, y1⟩ := wit_feasible hF.feasible
  have hdu : it.u 0 = fun _ => w + d.du 0 0 := by
    rw [hF.u]
    funext k
    show s.x.u 0 k + d.du 0 k = _
    rw [h.u, Subsingleton.elim k 0]
  obtain ⟨be, hbe⟩ := List.length_eq_one_iff.1 (show (it.vs 0).length = 1 from hF.shape 0 (by omega))
  have hb1 : it.vs 1 = [] := List.length_eq_zero_iff.1 (show (it.vs 1).length = 0 from hF.shape 1 le_rfl)
  have dx1 : d.dx 1 = 0 := by
    have e := congrFun hF.x 1
    have e' : it.x 1 = s.x.x 1 + d.dx 1 := e
    rw [y1, h.x1, zero_add] at e'
    exact e'.symm
  have hl : it.lam.dyn 0 = 0 := by
    have e : (gradAt wit true it).Lxs 1 = -(s.preg • d.dx 1) := hF.Lx 1 le_rfl
    rw [gradAt_Lxs, dx1] at e
    simpa using e
  have hg : w + d.du 0 0 + 1 + be = -(s.preg * d.du 0 0) := by
    have e : (gradAt wit true it).Lus 0 = -(s.preg • d.du 0) := hF.Lu 0 one_pos
    rw [gradAt_Lus it _ be hdu hbe] at e
    exact congrFun e 0
  have hc : s.mu * be = bwCone lo (w + s.mu * a) + (if w + s.mu * a > 2 ∨ w + s.mu * a < lo then d.du 0 0 else 0) := by
    have e := hF.row 0 (by omega) 0 (show 0 < 1 by omega)
    have c0 : Spec.cstr wit it.x it.u 0 = [w + d.du 0 0] := by simp [Spec.cstr, wit, hdu]
    have c1 : Spec.cstr wit s.x.x s.x.u 0 = [w] := by simp [Spec.cstr, wit, h.u]
    have z0 : shiftV wit s.mu s.prevV s.x.x s.x.u 0 0 = w + s.mu * a := by simp [shiftV, c1, h.p0]
    have z1 : shiftV wit s.mu s.prevV it.x it.u 0 0 = w + d.du 0 0 + s.mu * a := by simp [shiftV, c0, h.p0]
    have hkd : kindAt (fun i => (bwKinds lo i).map Spec.SetKind.kind) 0 0 = .box lo 2 := rfl
    rw [hkd, z0, z1, hbe] at e
    simp only [Kind.cone, Kind.flag, Bool.or_eq_true, decide_eq_true_eq, List.getD_cons_zero] at e
    rw [e]
    unfold bwCone
    congr 1
    split <;> ring
  have hi : it.lam.init = s.x.lam.init := by
    show s.x.lam.init + (1 : ℝ) • (0 : Fin wit.nc0 → ℝ) = _
    rw [smul_zero, add_zero]
  refine ⟨d.du 0 0, be, hc, hg, ?_, ?_⟩
  · obtain ⟨m0, m1⟩ := bw_mult lo s.mu s.x s.prevV w a b h.u h.v0 h.v1 h.p0 h.p1
    unfold slope
    rw [directionalDerivative_eq_pair, hws]
    unfold pair
    have e : ∀ lp vp, (compute (wit.data s.x.x s.x.u) (some lp) vp).Lus 0 = (fun _ => s.x.u 0 0 + 1) +
        (0 : Matrix (Fin 1) (Fin 1) ℝ)ᵀ *ᵥ lp.dyn 0 + ((1 : Matrix (Fin 1) (Fin 1) ℝ)ᵀ *ᵥ slice (vp 0) 0 1 + 0) :=
      fun lp vp => (compute_eq (wit.data s.x.x s.x.u) (some lp) vp).2.2 0 one_pos
    have f0 : (d.forced (bwSetup lo).force).dx 0 = 0 := by
      show Function.update d.dx 0 0 0 = 0
      exact Function.update_self _ _ _
    have f1 : (d.forced (bwSetup lo).force).dx 1 = 0 := by
      show Function.update d.dx 0 0 1 = 0
      rw [Function.update_of_ne one_ne_zero]
      exact dx1
    have fu : (d.forced (bwSetup lo).force).du 0 = d.du 0 := rfl
    rw [Finset.sum_range_succ, Finset.sum_range_succ, Finset.sum_range_zero, Finset.sum_range_succ, Finset.sum_range_zero, f0, f1, fu,
      dotProduct_zero, dotProduct_zero, e, h.u, m0]
    simp [slice, dotProduct]
  · rw [bw_merit lo s.mu it s.prevV _ a be y0 y1 hdu hbe hb1 h.p0 h.p1, bw_merit lo s.mu s.x s.prevV w a b h.x0 h.x1 h.u h.v0 h.v1 h.p0 h.p1,
      hl, hi]
    have n : 0 ≤ s.x.lam.dyn 0 ⬝ᵥ s.x.lam.dyn 0 := Finset.sum_nonneg fun _ _ => mul_self_nonneg _
    have n2 : 0 ≤ 1 / 2 * (0.1 * s.mu * (s.x.lam.dyn 0 ⬝ᵥ s.x.lam.dyn 0)) := by positivity
    rw [dotProduct_zero]
    have e1 : ∀ c : ℝ, 1 / 2 * (s.mu * (1 / s.mu * c) ^ 2) = 1 / 2 * (1 / s.mu * c ^ 2) := by
      intro c
      field_simp
    rw [e1, e1]
    have e2 : 1 / 2 * (w + d.du 0 0 + 1) ^ 2 = 1 / 2 * (w + 1) ^ 2 + ((w + 1) * d.du 0 0 + 1 / 2 * (d.du 0 0) ^ 2) := by ring
    linarith

theorem bw_solvable (lo : ℝ) {s : SSt wit} {w a b : ℝ} (h : EqAt s w a b) (exact : Bool) : ∃ d, Solves wit (bwSetup lo) exact witHess s d := by
  have hmu := h.mu
  have hpr := h.preg
  obtain ⟨al, be, hbe, hal⟩ : ∃ al be : ℝ,
      s.mu * be = bwCone lo (w + s.mu * a) + (if w + s.mu * a > 2 ∨ w + s.mu * a < lo then al else 0) ∧ w + al + 1 + be = -(s.preg * al) := by
    set c := bwCone lo (w + s.mu * a)
    split
    · have hden : 0 < 1 + s.preg + 1 / s.mu := by positivity
      refine ⟨-(w + 1 + c / s.mu) / (1 + s.preg + 1 / s.mu), (c + -(w + 1 + c / s.mu) / (1 + s.preg + 1 / s.mu)) / s.mu, ?_, ?_⟩
      · rw [mul_div_cancel₀ _ hmu.ne']
      · set q := -(w + 1 + c / s.mu) / (1 + s.preg + 1 / s.mu) with hq
        have : (1 + s.preg + 1 / s.mu) * q = -(w + 1 + c / s.mu) := by rw [hq, mul_div_cancel₀ _ hden.ne']
        have e : (c + q) / s.mu = c / s.mu + 1 / s.mu * q := by ring
        rw [e]
        linarith
    · refine ⟨-(w + 1 + c / s.mu) / (1 + s.preg), c / s.mu, ?_, ?_⟩
      · rw [mul_div_cancel₀ _ hmu.ne', add_zero]
      · have : (1 + s.preg) * (-(w + 1 + c / s.mu) / (1 + s.preg)) = -(w + 1 + c / s.mu) := mul_div_cancel₀ _ (by positivity)
        linarith
  refine ⟨⟨fun _ => 0, fun _ _ => al, ⟨s.x.lam.dyn 0, fun _ => -s.x.lam.dyn 0⟩, fun i => if i = 0 then [be - b] else []⟩, ?_⟩
  set d : Dir (fun _ => 1) (fun _ => 1) wit.nc0 :=
    ⟨fun _ => 0, fun _ _ => al, ⟨s.x.lam.dyn 0, fun _ => -s.x.lam.dyn 0⟩, fun i => if i = 0 then [be - b] else []⟩ with hd
  have hdv : Shape wit d.dv := by
    intro i hi
    interval_cases i <;> rfl
  obtain ⟨hv, hvs⟩ := h.shapes
  refine (solves_iff wit (bwSetup lo) exact witHess s d).2 ⟨?_, hdv⟩
  have hsh := lib_shapes (bw_sets lo) hv hvs hdv s.x.x s.x.u
  let st : LQ.Spec.Step (fun _ => 1) (fun _ => 1) (wit.spec s.x.x s.x.u).nc0 := ⟨d.dx, d.du, d.dlam.init, d.dlam.dyn, d.dv⟩
  refine (kkt_rows (P := wit.spec s.x.x s.x.u) (op := (bwSetup lo).op) (ks := fun i => (bwKinds lo i).map Spec.SetKind.kind) (vPrev := s.prevV)
    (vs := s.x.vs) (out := (bwSetup lo).out) (outA := fun i => List.replicate (wit.nc i) false) (s := st) witHess s.mu s.preg exact
    (bwSetup lo).force s.x.lam s.x.x s.x.u hmu.ne' hsh).2 ⟨?_, ?_, ?_, ?_, ?_⟩
  · show (1 : Matrix (Fin 1) (Fin 1) ℝ) *ᵥ (0 : Fin 1 → ℝ) + s.x.x 0 = 0
    rw [h.x0]; simp
  · intro i hi
    interval_cases i
    show (1 : Matrix (Fin 1) (Fin 1) ℝ) *ᵥ (0 : Fin 1 → ℝ) + (0 : Matrix (Fin 1) (Fin 1) ℝ) *ᵥ (fun _ => al) + (s.x.x 0 - s.x.x 1) = 0
    rw [h.x0, h.x1]; simp
  · intro i hi k hk
    rw [ncOf_spec] at hk
    interval_cases i
    · have hk0 : k = 0 := Nat.lt_one_iff.1 hk
      subst hk0
      have e1 : shiftedAt (wit.spec s.x.x s.x.u) s.mu s.prevV s.x.x s.x.u 0 = [w + s.mu * a] := by
        show List.zipWith (· + ·) (List.ofFn (s.x.u 0) ++ []) ((s.prevV 0).map (s.mu * ·)) = _
        rw [h.u, h.p0]
        simp
      unfold Row
      rw [e1]
      show (if flagAt [.box lo 2] [w + s.mu * a] 0 then
        ((0 : Matrix (Fin 1) (Fin 1) ℝ) *ᵥ (0 : Fin 1 → ℝ) + (1 : Matrix (Fin 1) (Fin 1) ℝ) *ᵥ (fun _ => al)) 0 else 0) +
        (((bwSet lo).normalConeProjection [w + s.mu * a] [0]).getD 0 0 - s.mu * (s.x.vs 0).getD 0 0) - s.mu * ([be - b] : List ℝ).getD 0 0 = 0
      rw [bwSet_cone, h.v0]
      simp [flagAt, Kind.flag]
      linarith
    · exact absurd hk (Nat.not_lt_zero _)
  · intro i hi
    interval_cases i
    obtain ⟨g1, g2, g3⟩ := compute_eq (pdata (wit.spec s.x.x s.x.u)) (some (lamsNext s.x.lam st))
      (fun i => LQ.Spec.ladd (s.x.vs i) (d.dv i))
    constructor
    · have q1 : ∀ li : Fin 1 → ℝ, li = s.x.lam.init → (gradNext (wit.spec s.x.x s.x.u) s.x.lam s.x.vs st).Lxs 0 =
          (1 : Matrix (Fin 1) (Fin 1) ℝ)ᵀ *ᵥ (li + s.x.lam.dyn 0) + (0 + (1 : Matrix (Fin 1) (Fin 1) ℝ)ᵀ *ᵥ
            (s.x.lam.dyn 0 + -s.x.lam.dyn 0) + ((0 : Matrix (Fin 1) (Fin 1) ℝ)ᵀ *ᵥ slice (LQ.Spec.ladd (s.x.vs 0) [be - b]) 0 1 + 0)) := by
        rintro _ rfl
        exact g1 0 one_pos
      have q2 : ∀ li : Fin 1 → ℝ, li = s.x.lam.init → (gradNow (wit.spec s.x.x s.x.u) s.x.lam s.x.vs).Lxs 0 =
          (1 : Matrix (Fin 1) (Fin 1) ℝ)ᵀ *ᵥ li + (0 + (1 : Matrix (Fin 1) (Fin 1) ℝ)ᵀ *ᵥ
            s.x.lam.dyn 0 + ((0 : Matrix (Fin 1) (Fin 1) ℝ)ᵀ *ᵥ slice (s.x.vs 0) 0 1 + 0)) := by
        rintro _ rfl
        exact (compute_eq (pdata (wit.spec s.x.x s.x.u)) (some s.x.lam) s.x.vs).1 0 one_pos
      have q3 : dropped (wit.spec s.x.x s.x.u) witHess (bwSetup lo).op s.mu s.preg exact (bwSetup lo).force s.x.lam s.prevV s.x.vs (bwSetup lo).out
          s.x.x s.x.u 0 = 0 - (gradNow (wit.spec s.x.x s.x.u) s.x.lam s.x.vs).Lxs 0 := by
        unfold dropped
        congr 1
      have q4 : rX (wit.spec s.x.x s.x.u) witHess s.preg exact s.x.lam s.x.vs st 0 =
          (gradNext (wit.spec s.x.x s.x.u) s.x.lam s.x.vs st).Lxs 0 + 0 := by
        unfold rX
        congr 1
        show (curv witHess s.preg exact).Q 0 *ᵥ (0 : Fin 1 → ℝ) + (curv witHess s.preg exact).S 0 *ᵥ (fun _ => al) = 0
        rw [mulVec_zero]
        cases exact <;> simp [curv, witHess]
      obtain ⟨li, hli⟩ : ∃ li : Fin 1 → ℝ, li = s.x.lam.init := ⟨_, rfl⟩
      rw [q3, q4, q1 li hli, q2 li hli]
      simp only [transpose_one, one_mulVec, transpose_zero, zero_mulVec]
      funext k
      simp
    · have q1 : (gradNext (wit.spec s.x.x s.x.u) s.x.lam s.x.vs st).Lus 0 =
          (fun _ => s.x.u 0 0 + 1) + (0 : Matrix (Fin 1) (Fin 1) ℝ)ᵀ *ᵥ (s.x.lam.dyn 0 + -s.x.lam.dyn 0) +
            ((1 : Matrix (Fin 1) (Fin 1) ℝ)ᵀ *ᵥ slice (LQ.Spec.ladd (s.x.vs 0) [be - b]) 0 1 + 0) := g3 0 one_pos
      unfold rU
      rw [q1, h.u, h.v0]
      show _ + (((curv witHess s.preg exact).S 0)ᵀ *ᵥ (0 : Fin 1 → ℝ) + (curv witHess s.preg exact).R 0 *ᵥ (fun _ => al)) = 0
      rw [mulVec_zero]
      funext k
      rw [Subsingleton.elim k 0]
      cases exact <;> simp [curv, witHess, slice, LQ.Spec.ladd, mulVec, dotProduct] <;> linarith
  · have q1 : (gradNext (wit.spec s.x.x s.x.u) s.x.lam s.x.vs st).Lxs 1 = -(s.x.lam.dyn 0 + -s.x.lam.dyn 0) + (0 + 0) :=
      (compute_eq (pdata (wit.spec s.x.x s.x.u)) (some (lamsNext s.x.lam st)) (fun i => LQ.Spec.ladd (s.x.vs i) (d.dv i))).2.1
    have q3 := dropped_pos (P := wit.spec s.x.x s.x.u) (op := (bwSetup lo).op) (vPrev := s.prevV) (vs := s.x.vs)
      (out := (bwSetup lo).out) witHess s.mu s.preg exact (bwSetup lo).force s.x.lam s.x.x s.x.u 1 one_ne_zero
    rw [q3]
    unfold rXN
    rw [q1]
    show _ + (curv witHess s.preg exact).QN *ᵥ (0 : Fin 1 → ℝ) + 0 = 0
    rw [mulVec_zero]
    simp


/-- Lower bound active: at every feasible state beyond the bound with a large enough derivative the solver takes the full step. -/
theorem bw_fullStep {s : SSt wit} {w a b : ℝ} (h : EqAt s w a b) (hws : s.ws = (mult wit (bwSetup 0) s.mu s.prevV s.x).1) (exact : Bool)
    (hmu : s.mu ≤ 0.01) (hpr : s.preg ≤ 1) (hz : w + s.mu * a < 0)
    (hbig : 9e-7 ≤ |s.mu * (w + 1) + (w + s.mu * a)|) :
    FullStep ProxDDP.defaultParams wit (bwSetup 0) exact witHess 1e-4 (solveAny (bwSetup 0) exact witHess) s := by
  obtain ⟨d, hd⟩ : ∃ d, solveAny (bwSetup 0) exact witHess s = some d := by
    unfold solveAny
    rw [dif_pos (bw_solvable 0 h exact)]
    exact ⟨_, rfl⟩
  have hs := solveAny_solves _ _ _ _ _ hd
  obtain ⟨al, be, f1, f2, e2, e3⟩ := bw_step 0 h hws hs
  have m0 := h.mu
  have p0 := h.preg
  rw [if_pos (Or.inr hz), bw_cone_held hz] at f1
  rw [bw_cone_held hz] at e2 e3
  have e1 : (1 + s.preg + 1 / s.mu) * al = -(w + 1 + 1 / s.mu * (w + s.mu * a)) := by
    have hb : be = (w + s.mu * a + al) / s.mu := by rw [← f1]; field_simp
    rw [hb] at f2
    field_simp at f2 ⊢
    linarith
  replace e3 : merit wit (bwSetup 0) s.mu s.prevV (linearStep s.x (d.forced (bwSetup 0).force) 1) ≤ merit wit (bwSetup 0) s.mu s.prevV s.x +
        ((w + 1 + 1 / s.mu * (w + s.mu * a)) * al + 1 / 2 * (1 + 1 / s.mu) * al ^ 2) := by
    refine e3.trans ?_
    have := mul_le_mul_of_nonneg_left (bw_cone_le (w + al + s.mu * a)) (by positivity : 0 ≤ 1 / s.mu)
    have e : 1 / s.mu * (w + al + s.mu * a) ^ 2 = 1 / s.mu * (w + s.mu * a) ^ 2 + 2 * (1 / s.mu * (w + s.mu * a)) * al + 1 / s.mu * al ^ 2 := by
      ring
    linarith
  set g := w + 1 + 1 / s.mu * (w + s.mu * a) with hg
  have hG : s.mu * (w + 1) + (w + s.mu * a) = s.mu * g := by rw [hg]; field_simp
  rw [hG, abs_mul, abs_of_pos m0] at hbig
  set c := 1 + s.preg + 1 / s.mu with hc
  have hc0 : 0 < c := by positivity
  have hcm : s.mu * c ≤ 2 := by
    rw [hc]
    have : s.mu * (1 + s.preg + 1 / s.mu) = s.mu * (1 + s.preg) + 1 := by field_simp
    rw [this]
    nlinarith
  have hga : g * al = -(c * al ^ 2) := by
    have : g = -(c * al) := by linarith
    rw [this]; ring
  -- the slope
  have hsl : g * al < -1e-13 := by
    have h1 : c * (g * al) = -g ^ 2 := by
      have : c * (g * al) = g * (c * al) := by ring
      rw [this, e1]; ring
    have h2 : (9e-7) ^ 2 ≤ s.mu ^ 2 * g ^ 2 := by
      have := pow_le_pow_left₀ (by norm_num : (0:ℝ) ≤ 9e-7) hbig 2
      rwa [mul_pow, sq_abs] at this
    have h3 : s.mu * (s.mu * c) * (g * al) = -(s.mu ^ 2 * g ^ 2) := by
      have : s.mu * (s.mu * c) * (g * al) = s.mu ^ 2 * (c * (g * al)) := by ring
      rw [this, h1]; ring
    by_contra hn
    have hn := not_lt.1 hn
    have h4 : 0 < s.mu * (s.mu * c) := by positivity
    have h5 : s.mu * (s.mu * c) ≤ 0.02 := by nlinarith
    have h6 : -(0.02 * 1e-13) ≤ s.mu * (s.mu * c) * (g * al) := by nlinarith
    rw [h3] at h6
    norm_num at h2 h6
    linarith
  refine ⟨d, hd, hs, ?_, ?_⟩
  · rw [e2]
    exact hsl
  · rw [e2]
    refine e3.trans ?_
    have h1 : (1 + 1 / s.mu) * al ^ 2 ≤ c * al ^ 2 := mul_le_mul_of_nonneg_right (by rw [hc]; linarith) (sq_nonneg _)
    linarith

/-! ### The lower bound is active -/

theorem bw_heldRow : Spec.held (bwKinds 0) eqVb 0 0 := by
  simp [Spec.held, bwKinds, eqVb, Spec.SetKind.Held]

theorem bw_devs (x u : ∀ _ : ℕ, Fin 1 → ℝ) :
    Spec.devs wit (Spec.held (bwKinds 0) eqVb) (fun _ => 0) (fun _ => 0) x u 0 = [u 0 0] ∧
    Spec.devs wit (Spec.held (bwKinds 0) eqVb) (fun _ => 0) (fun _ => 0) x u 1 = [] := by
  constructor
  · simp [Spec.devs, Spec.cstr, wit, bw_heldRow]
  · simp [Spec.devs, Spec.cstr, wit]

theorem bw_kkt : Spec.KKTPointI wit (bwKinds 0) ((bwSetup 0).force = true) (fun _ => 0) (fun _ => 0) 0 (fun _ => 0) eqVb where
  feasible := ⟨rfl, fun i hi => rfl⟩
  sizes i hi := by
    interval_cases i <;> simp [Spec.cstr, wit, eqVb]
  normal i hi k hk := by
    interval_cases i
    · have hk0 : k = 0 := by
        have : k < 1 := by simpa [Spec.cstr, wit] using hk
        omega
      subst hk0
      simp [Spec.Normal, Spec.cstr, wit, eqVb, bwKinds, Spec.SetKind.set]
      intro y h1 _
      exact h1
    · simp [Spec.cstr, wit] at hk
  stationary ex eu _ := (wit_deriv 0 (fun _ => 0) eqVb (-1) rfl rfl _ _ ex eu).congr_deriv (by simp)

theorem bw_error : Spec.ErrorBoundOn wit ((bwSetup 0).force = true) (Spec.held (bwKinds 0) eqVb) 3 (fun _ => 0) (fun _ => 0) eqVb := by
  intro x u lam0 lam v rx ru hF hs _ _ hd
  obtain ⟨x0, x1⟩ := wit_feasible hF
  have c0 : Spec.cstr wit x u 0 = [u 0 0] := by simp [Spec.cstr, wit]
  have c1 : Spec.cstr wit x u 1 = [] := by simp [Spec.cstr, wit]
  obtain ⟨b, hb⟩ := List.length_eq_one_iff.1 (show (v 0).length = 1 by rw [hs 0 (by omega), c0]; rfl)
  have hb1 : v 1 = [] := List.length_eq_zero_iff.1 (by rw [hs 1 le_rfl, c1]; rfl)
  have d1 := hd (fun _ => 0) (fun _ _ => 1) (fun _ => rfl)
  have d2 := wit_deriv lam0 lam v b hb hb1 x u (fun _ => 0) (fun _ _ => 1)
  have e := d1.unique d2
  simp [dotProduct] at e
  obtain ⟨v1, v2⟩ := bw_devs x u
  simp [Spec.dist2, Spec.vdist2, Finset.sum_range_succ, x0, x1, c0, c1, v1, v2, hb, hb1, eqVb]
  rw [show b + 1 = ru 0 0 - u 0 0 by rw [e]; ring]
  nlinarith [sq_nonneg (rx 0 0), sq_nonneg (rx 1 0), sq_nonneg (u 0 0 + ru 0 0), sq_nonneg (ru 0 0), sq_nonneg (u 0 0)]

theorem bw_sqrt : Real.sqrt 2.304e-5 = 0.0048 := by
  rw [show (2.304e-5 : ℝ) = 0.0048 ^ 2 by norm_num]
  exact Real.sqrt_sq (by norm_num)

theorem bw_told : Spec.Told wit (bwKinds 0) 0.01 2.304e-5 (fun _ => 0) (fun _ => 0) eqVb where
  inactive x u _ i hi k hk hn := by
    interval_cases i
    · have hk0 : k = 0 := by
        have : k < 1 := by simpa [Spec.cstr, wit] using hk
        omega
      subst hk0
      exact absurd bw_heldRow hn
    · simp [Spec.cstr, wit] at hk
  active i hi k hk _ _ := by
    rw [bw_sqrt]
    interval_cases i
    · have hk0 : k = 0 := by
        have : k < 1 := by simpa [Spec.cstr, wit] using hk
        omega
      subst hk0
      norm_num [eqVb]
    · simp [Spec.cstr, wit] at hk

theorem bw_consts : ConstsI ProxDDP.defaultParams wit (bwKinds 0) (bwSetup 0).force 3 4.1e-4 2.304e-5 3e-4 (fun _ => 0) (fun _ => 0)
    0 (fun _ => 0) eqVb := by
  refine ⟨bw_kkt, bw_told, by norm_num, bw_error, ?_, ?_, ?_, ?_, ?_⟩ <;> norm_num [ProxDDP.defaultParams]

theorem bw_at {M : ℕ} {st : SSt wit} (h : AtWorkI ProxDDP.defaultParams wit (bwKinds 0) (bwSetup 0) M 2.304e-5 (fun _ => 0) (fun _ => 0) eqVb st) (exact : Bool) :
    FullStep ProxDDP.defaultParams wit (bwSetup 0) exact witHess 1e-4 (solveAny (bwSetup 0) exact witHess) st := by
  obtain ⟨x0, x1⟩ := wit_feasible h.near.feasible
  obtain ⟨b, hb⟩ := List.length_eq_one_iff.1 (show (st.x.vs 0).length = 1 from h.near.shape 0 (by omega))
  have hb1 : st.x.vs 1 = [] := List.length_eq_zero_iff.1 (show (st.x.vs 1).length = 0 from h.near.shape 1 le_rfl)
  obtain ⟨a, ha⟩ := List.length_eq_one_iff.1 (show (st.prevV 0).length = 1 from h.ok.shape 0 (by omega))
  have ha1 : st.prevV 1 = [] := List.length_eq_zero_iff.1 (show (st.prevV 1).length = 0 from h.ok.shape 1 le_rfl)
  have hu : st.x.u 0 = fun _ => st.x.u 0 0 := by
    funext k
    rw [Subsingleton.elim k 0]
  set w := st.x.u 0 0 with hw
  obtain ⟨j, hj, hmu⟩ := h.mu
  have hmu0 : 0 < st.mu := by rw [hmu]; norm_num [ProxDDP.defaultParams]
  have hmu1 : st.mu ≤ 0.01 := by
    rw [hmu]
    have : (ProxDDP.defaultParams.muFactor : ℝ) ^ j ≤ 1 := pow_le_one₀ (by norm_num [ProxDDP.defaultParams]) (by norm_num [ProxDDP.defaultParams])
    norm_num [ProxDDP.defaultParams] at this ⊢
    linarith
  have hpr : st.preg ≤ 1 := h.preg.2.trans (by norm_num [ProxDDP.defaultParams])
  have hE : EqAt st w a b := ⟨x0, x1, hu, hb, hb1, ha, ha1, hmu0, h.preg.1.le⟩
  have c0 : Spec.cstr wit st.x.x st.x.u 0 = [w] := by simp [Spec.cstr, wit, hw]
  have c1 : Spec.cstr wit st.x.x st.x.u 1 = [] := by simp [Spec.cstr, wit]
  have hfar : 1e-6 < |w| := by
    have := h.far
    unfold violI at this
    obtain ⟨v1, v2⟩ := bw_devs st.x.x st.x.u
    simpa [List.range_succ, v1, v2, infNorm, ProxDDP.defaultParams] using this
  have hgr : |w + 1 + b| ≤ 1e-8 := by
    have := h.near.grad.2 0 one_pos 0
    rw [show (gradAt wit (bwSetup 0).force st.x).Lus 0 = fun _ => w + 1 + b from gradAt_Lus st.x w b hu hb] at this
    refine this.trans ?_
    norm_num [ProxDDP.defaultParams]
  have hz : w + st.mu * a < 0 := by
    have := h.sides 0 (by omega) 0 (show 0 < 1 by omega)
    unfold shiftV at this
    rw [c0, ha] at this
    exact this.2.1 (by norm_num [eqVb])
  refine bw_fullStep hE h.ws exact hmu1 hpr hz ?_
  have ht : |st.mu * (w + 1 + b)| ≤ 1e-10 := by
    rw [abs_mul, abs_of_pos hmu0]
    nlinarith [abs_nonneg (w + 1 + b)]
  rcases h.kind with hk | hk
  · have hab : a = b := by
      rw [hk, hb] at ha
      simpa using ha.symm
    rw [show st.mu * (w + 1) + (w + st.mu * a) = w - -(st.mu * (w + 1 + b)) by rw [hab]; ring]
    have := abs_sub_abs_le_abs_sub w (-(st.mu * (w + 1 + b)))
    rw [abs_neg] at this
    linarith
  · have hR := hk 0 (by omega) 0
    rw [(bw_devs st.x.x st.x.u).1, hb, ha] at hR
    have hR' : w = st.mu / 0.01 * (b - a) := hR
    have hma : st.mu * a = st.mu * b - 0.01 * w := by rw [hR']; ring
    rw [show st.mu * (w + 1) + (w + st.mu * a) = 0.99 * w - -(st.mu * (w + 1 + b)) by rw [hma]; ring]
    have := abs_sub_abs_le_abs_sub (0.99 * w) (-(st.mu * (w + 1 + b)))
    rw [abs_neg, abs_mul, abs_of_pos (by norm_num : (0:ℝ) < 0.99)] at this
    linarith

/-- The guess `u = 0.004` with the zero multiplier; the previous multiplier is `-8/10`. -/
def bwV0 (i : ℕ) : List ℝ := if i = 0 then [-0.8] else []

noncomputable def bwSt : SSt wit := { witSt with x := { witIter with u := fun _ _ => 0.004 } }

/-- the run with the default parameters converges after at most three iterations, with every line search that accepts full steps -/
theorem bw_run (search : SSt wit → Search) (hsearch : ∀ s, AcceptsFullStep 1e-4 1e-13 (search s)) (exact : Bool) :
    ∃ F, ∀ fuel, F ≤ fuel → ∃ s, ProxDDP.run ProxDDP.defaultParams (env wit (bwSetup 0) (oracle wit (bwSetup 0)
      search (solveAny (bwSetup 0) exact witHess))) fuel bwV0 bwSt = .done true s ∧
      s.numIters ≤ 3 ∧ Spec.Feasible wit s.x.x s.x.u ∧ Spec.NearNormal wit (bwKinds 0) 1e-6 s.x.x s.x.u s.x.vs ∧
      FreeZero wit (bwKinds 0) eqVb s.x.vs ∧
      SmallGrad wit true s.x (0.01 * 1e-6) ∧ Spec.dist2 1 s.x.x s.x.u (fun _ => 0) (fun _ => 0) ≤ 2.304e-5 ∧
      Spec.vdist2 1 wit.nc s.x.vs eqVb ≤ 2.304e-5 := by
  set solve := solveAny (P := wit) (bwSetup 0) exact witHess with hso
  obtain ⟨t1, t2, t3, t4, t5⟩ := firstSt_eq ProxDDP.defaultParams wit (bwSetup 0) search solve bwV0 bwSt
  have hd2 : Spec.dist2 1 bwSt.x.x bwSt.x.u (fun _ => 0) (fun _ => 0) = 1.6e-5 := by
    simp [Spec.dist2, bwSt, witIter]
    norm_num
  have hvd : Spec.vdist2 1 wit.nc bwV0 eqVb = 0.04 := by
    simp [Spec.vdist2, Finset.sum_range_succ, Prob.nc, wit, bwV0, eqVb]
    norm_num
  refine C79_run_converges_partial (M := 2) (r := 3e-4) ProxDDP.defaultParams_valid (by norm_num [ProxDDP.defaultParams]) (by norm_num [ProxDDP.defaultParams])
    (by norm_num [ProxDDP.defaultParams]) (by norm_num [ProxDDP.defaultParams]) (by norm_num [ProxDDP.defaultParams])
    (by norm_num [ProxDDP.defaultParams]) (by norm_num [ProxDDP.defaultParams]) wit_isLQE wit_convex (bw_sets 0) rfl search 1e-4
    hsearch solve bwV0 bwSt ?_ (wit_goodStart _ rfl _) bw_consts ?_ ?_ ?_ ?_
    (by norm_num [ProxDDP.defaultParams]) le_rfl (by norm_num [ProxDDP.defaultParams]) (by norm_num [ProxDDP.defaultParams])
    ?_ ?_ (by norm_num [ProxDDP.defaultParams]) (by norm_num [ProxDDP.defaultParams]) ?_ ?_ (fun st h => bw_at h exact)
  · intro i hi
    interval_cases i <;> rfl
  · refine ⟨fun i hi => by interval_cases i <;> rfl, fun i hi k hk hn => ?_, fun i hi k hk _ => ?_⟩
    · interval_cases i
      · have : k = 0 := Nat.lt_one_iff.1 hk
        subst this
        exact absurd bw_heldRow hn
      · exact absurd hk (Nat.not_lt_zero _)
    · interval_cases i
      · have : k = 0 := Nat.lt_one_iff.1 hk
        subst this
        rw [bw_sqrt]
        norm_num [eqVb, bwV0, ProxDDP.defaultParams]
      · exact absurd hk (Nat.not_lt_zero _)
  · intro i hi k hk
    interval_cases i
    · have : k = 0 := Nat.lt_one_iff.1 hk
      subst this
      have c0 : Spec.cstr wit bwSt.x.x bwSt.x.u 0 = [0.004] := by simp [Spec.cstr, wit, bwSt]
      unfold shiftV
      rw [c0]
      norm_num [Spec.SetKind.OnSide, bwKinds, eqVb, bwV0, ProxDDP.defaultParams]
    · exact absurd hk (Nat.not_lt_zero _)
  · rw [hd2, hvd]
    norm_num [ProxDDP.defaultParams]
  · rw [hd2]; norm_num
  · intro j hj
    refine small_rpow ?_ ?_
    · norm_num [ProxDDP.defaultParams]
    · interval_cases j <;> norm_num [ProxDDP.defaultParams]
  · intro j h1 h2
    interval_cases j <;> norm_num [ProxDDP.defaultParams, ProxDDP.scalarClose]
  · refine ⟨0, one_pos, 0, ?_⟩
    have : (gradAt wit (bwSetup 0).force bwSt.x).Lus 0 = fun _ => 0.004 + 1 + 0 := gradAt_Lus bwSt.x 0.004 0 rfl rfl
    rw [this]
    norm_num [ProxDDP.defaultParams]
  · set st := firstSt ProxDDP.defaultParams wit (bwSetup 0) search solve bwV0 bwSt with hst
    have hmu : st.mu = 0.01 := by rw [t3]; norm_num [ProxDDP.defaultParams]
    have hpr : st.preg = 1e-9 := by rw [t4]; norm_num [ProxDDP.defaultParams]
    have hE : EqAt st 0.004 (-0.8) 0 := by
      refine ⟨?_, ?_, ?_, ?_, ?_, ?_, ?_, ?_, ?_⟩
      · rw [t1]; rfl
      · rw [t1]; rfl
      · rw [t1]; rfl
      · rw [t1]; rfl
      · rw [t1]; rfl
      · rw [t2]; rfl
      · rw [t2]; rfl
      · rw [hmu]; norm_num
      · rw [hpr]; norm_num
    refine bw_fullStep hE ?_ exact (by rw [hmu]) (by rw [hpr]; norm_num) (by rw [hmu]; norm_num) ?_
    · rw [t5, t1, t2, t3]
    · rw [hmu]; norm_num [abs_of_pos]

/-- the default line search after a reset, and the Armijo search -/
example (exact : Bool) := bw_run (fun _ => nonmonotone defaultOptions 0.85 0.5 1000 .reset)
  (fun _ => nonmonotone_accepts defaultOptions (by norm_num [defaultOptions]) 0.85 0.5 1000 (by norm_num) 1e-13) exact

example (qr : Linesearch.Solve2) (exact : Bool) := bw_run (fun _ => armijo defaultOptions qr 1000)
  (fun _ => armijo_accepts defaultOptions (by norm_num [defaultOptions]) (by norm_num [defaultOptions])
      (by norm_num [defaultOptions]) qr 1000 (by norm_num)) exact

/-! ### No bound is active -/

/-- No bound active: at every feasible state with the zero multiplier between the bounds and a large enough derivative the solver takes
the full step. -/
theorem bw_freeStep {s : SSt wit} {w b : ℝ} (h : EqAt s w 0 b) (hws : s.ws = (mult wit (bwSetup (-3)) s.mu s.prevV s.x).1) (exact : Bool)
    (hpr : s.preg ≤ 1) (hw : -3 ≤ w ∧ w ≤ 1) (hbig : 1e-3 ≤ |w + 1|) :
    FullStep ProxDDP.defaultParams wit (bwSetup (-3)) exact witHess 1e-4 (solveAny (bwSetup (-3)) exact witHess) s := by
  obtain ⟨d, hd⟩ : ∃ d, solveAny (bwSetup (-3)) exact witHess s = some d := by
    unfold solveAny
    rw [dif_pos (bw_solvable (-3) h exact)]
    exact ⟨_, rfl⟩
  have hs := solveAny_solves _ _ _ _ _ hd
  obtain ⟨al, be, f1, f2, e2, e3⟩ := bw_step (-3) h hws hs
  have m0 := h.mu
  have p0 := h.preg
  have hz : bwCone (-3) (w + s.mu * 0) = 0 := bw_cone_free (by linarith) (by linarith)
  rw [if_neg (by rintro (h | h) <;> linarith), hz, add_zero] at f1
  have hbe : be = 0 := (mul_eq_zero.1 f1).resolve_left m0.ne'
  rw [hz] at e2 e3
  rw [hbe, add_zero] at f2
  have hal : (1 + s.preg) * al = -(w + 1) := by linarith
  have hg : (w + 1) * al = -((1 + s.preg) * al ^ 2) := by
    have : w + 1 = -((1 + s.preg) * al) := by linarith
    rw [this]; ring
  have hz' : bwCone (-3) (w + al + s.mu * 0) = 0 := by
    refine bw_cone_free ?_ ?_ <;> nlinarith
  rw [hz'] at e3
  have hsq : 1e-6 ≤ (w + 1) ^ 2 := by
    have := pow_le_pow_left₀ (by norm_num : (0:ℝ) ≤ 1e-3) hbig 2
    rw [sq_abs] at this
    norm_num at this ⊢
    linarith
  have hsl : (w + 1) * al < -1e-13 := by
    have h1 : (1 + s.preg) * ((w + 1) * al) = -(w + 1) ^ 2 := by
      rw [show (1 + s.preg) * ((w + 1) * al) = (w + 1) * ((1 + s.preg) * al) by ring, hal]; ring
    by_contra hn
    have hn := not_lt.1 hn
    norm_num at hsq hn
    nlinarith
  refine ⟨d, hd, hs, ?_, ?_⟩
  · rw [e2, mul_zero, add_zero]
    exact hsl
  · rw [e2]
    refine e3.trans ?_
    simp only [mul_zero, add_zero]
    have : 0 ≤ s.preg * al ^ 2 := by positivity
    nlinarith [sq_nonneg al]

theorem bw_freeRow : ¬ Spec.held (bwKinds (-3)) ineVb 0 0 := by
  simp [Spec.held, bwKinds, ineVb, Spec.SetKind.Held]

theorem bwf_kkt : Spec.KKTPointI wit (bwKinds (-3)) ((bwSetup (-3)).force = true) (fun _ => 0) (fun _ _ => -1) 0 (fun _ => 0) ineVb where
  feasible := ⟨rfl, fun i hi => rfl⟩
  sizes i hi := by
    interval_cases i <;> simp [Spec.cstr, wit, ineVb]
  normal i hi k hk := by
    interval_cases i
    · have hk0 : k = 0 := by
        have : k < 1 := by simpa [Spec.cstr, wit] using hk
        omega
      subst hk0
      norm_num [Spec.Normal, Spec.cstr, wit, ineVb, bwKinds, Spec.SetKind.set]
    · simp [Spec.cstr, wit] at hk
  stationary ex eu _ := (wit_deriv 0 (fun _ => 0) ineVb 0 rfl rfl _ _ ex eu).congr_deriv (by simp)

theorem bwf_error : Spec.ErrorBoundOn wit ((bwSetup (-3)).force = true) (Spec.held (bwKinds (-3)) ineVb) 1 (fun _ => 0) (fun _ _ => -1) ineVb := by
  intro x u lam0 lam v rx ru hF hs hfr _ hd
  obtain ⟨x0, x1⟩ := wit_feasible hF
  have c0 : Spec.cstr wit x u 0 = [u 0 0] := by simp [Spec.cstr, wit]
  have c1 : Spec.cstr wit x u 1 = [] := by simp [Spec.cstr, wit]
  obtain ⟨b, hb⟩ := List.length_eq_one_iff.1 (show (v 0).length = 1 by rw [hs 0 (by omega), c0]; rfl)
  have hb1 : v 1 = [] := List.length_eq_zero_iff.1 (by rw [hs 1 le_rfl, c1]; rfl)
  have hb0 : b = 0 := by
    have := hfr 0 (by omega) 0 (by rw [c0]; simp) bw_freeRow
    rwa [hb] at this
  have d1 := hd (fun _ => 0) (fun _ _ => 1) (fun _ => rfl)
  have e := d1.unique (wit_deriv lam0 lam v b hb hb1 x u (fun _ => 0) (fun _ _ => 1))
  simp [dotProduct, hb0] at e
  have hn : 0 ≤ Spec.vdist2 1 (fun i => (Spec.cstr wit x u i).length) (Spec.devs wit (Spec.held (bwKinds (-3)) ineVb) (fun _ => 0) (fun _ _ => -1) x u)
    (fun _ => []) := vdist2_nonneg _ _ _
  have e1 : Spec.dist2 1 x u (fun _ => (0 : Fin 1 → ℝ)) (fun _ _ => -1) + Spec.vdist2 1 (fun i => (Spec.cstr wit x u i).length) v ineVb =
      (u 0 0 + 1) ^ 2 := by
    simp [Spec.dist2, Spec.vdist2, Finset.sum_range_succ, x0, x1, c0, c1, hb, hb0, ineVb]
  have e2 : (ru 0 0) ^ 2 ≤ Spec.dist2 1 rx ru 0 0 := by
    simp [Spec.dist2, Finset.sum_range_succ]
    positivity
  rw [e] at e2
  linarith

theorem bwf_told : Spec.Told wit (bwKinds (-3)) 0.01 0.05 (fun _ => 0) (fun _ _ => -1) ineVb where
  inactive x u hd i hi k hk hn := by
    interval_cases i
    · have hk0 : k = 0 := by
        have : k < 1 := by simpa [Spec.cstr, wit] using hk
        omega
      subst hk0
      have h1 : (u 0 0 + 1) ^ 2 ≤ 0.05 := by
        refine le_trans ?_ hd
        simp [Spec.dist2, Finset.sum_range_succ]
        positivity
      have c0 : Spec.cstr wit x u 0 = [u 0 0] := by simp [Spec.cstr, wit]
      rw [c0]
      norm_num at h1
      exact ⟨by show -3 ≤ u 0 0; nlinarith, by show u 0 0 ≤ 2; nlinarith⟩
    · simp [Spec.cstr, wit] at hk
  active i hi k hk _ hv := by
    exfalso
    apply hv
    interval_cases i
    · have hk0 : k = 0 := by
        have : k < 1 := by simpa [Spec.cstr, wit] using hk
        omega
      subst hk0
      simp [ineVb]
    · simp [Spec.cstr, wit] at hk

theorem bwf_consts : ConstsI ProxDDP.defaultParams wit (bwKinds (-3)) (bwSetup (-3)).force 1 4.1e-11 0.05 3e-4 (fun _ => 0) (fun _ _ => -1)
    0 (fun _ => 0) ineVb := by
  refine ⟨bwf_kkt, bwf_told, by norm_num, bwf_error, ?_, ?_, ?_, ?_, ?_⟩ <;> norm_num [ProxDDP.defaultParams]

/-- The guess `u = -1.2` with zero multipliers. -/
noncomputable def bwfSt : SSt wit := { witSt with x := { witIter with u := fun _ _ => -1.2 } }

/-- the run reports convergence after one iteration -/
theorem bwf_run (search : SSt wit → Search) (hsearch : ∀ s, AcceptsFullStep 1e-4 1e-13 (search s)) (exact : Bool) :
    ∃ F, ∀ fuel, F ≤ fuel → ∃ s, ProxDDP.run ProxDDP.defaultParams (env wit (bwSetup (-3)) (oracle wit (bwSetup (-3))
      search (solveAny (bwSetup (-3)) exact witHess))) fuel ineVb bwfSt = .done true s ∧
      s.numIters ≤ 1 ∧ Spec.Feasible wit s.x.x s.x.u ∧ Spec.NearNormal wit (bwKinds (-3)) 1e-6 s.x.x s.x.u s.x.vs ∧
      FreeZero wit (bwKinds (-3)) ineVb s.x.vs ∧
      SmallGrad wit true s.x (0.01 * 1e-6) ∧ Spec.dist2 1 s.x.x s.x.u (fun _ => 0) (fun _ _ => -1) ≤ 0.05 ∧
      Spec.vdist2 1 wit.nc s.x.vs ineVb ≤ 0.05 := by
  set solve := solveAny (P := wit) (bwSetup (-3)) exact witHess with hso
  obtain ⟨t1, t2, t3, t4, t5⟩ := firstSt_eq ProxDDP.defaultParams wit (bwSetup (-3)) search solve ineVb bwfSt
  have hd2 : Spec.dist2 1 bwfSt.x.x bwfSt.x.u (fun _ => 0) (fun _ _ => -1) = 0.04 := by
    simp [Spec.dist2, bwfSt, witIter]
    norm_num
  have hvd : Spec.vdist2 1 wit.nc ineVb ineVb = 0 := by
    simp [Spec.vdist2]
  refine C79_run_converges_partial (M := 0) (r := 3e-4) (exact := exact) ProxDDP.defaultParams_valid (by norm_num [ProxDDP.defaultParams]) (by norm_num [ProxDDP.defaultParams])
    (by norm_num [ProxDDP.defaultParams]) (by norm_num [ProxDDP.defaultParams]) (by norm_num [ProxDDP.defaultParams])
    (by norm_num [ProxDDP.defaultParams]) (by norm_num [ProxDDP.defaultParams]) wit_isLQE wit_convex (bw_sets (-3)) rfl search 1e-4
    hsearch solve ineVb bwfSt ?_ (wit_goodStart _ rfl _) bwf_consts ?_ ?_ ?_ ?_
    (by norm_num [ProxDDP.defaultParams]) le_rfl (by norm_num [ProxDDP.defaultParams]) (by norm_num [ProxDDP.defaultParams])
    ?_ ?_ (by norm_num [ProxDDP.defaultParams]) (by norm_num [ProxDDP.defaultParams]) ?_ ?_ (fun st h => ?_)
  · intro i hi
    interval_cases i <;> rfl
  · refine ⟨fun i hi => by interval_cases i <;> rfl, fun i hi k hk hn => ?_, fun i hi k hk _ => ?_⟩
    · interval_cases i
      · have : k = 0 := Nat.lt_one_iff.1 hk
        subst this
        rfl
      · exact absurd hk (Nat.not_lt_zero _)
    · interval_cases i
      · have : k = 0 := Nat.lt_one_iff.1 hk
        subst this
        norm_num [ineVb]
      · exact absurd hk (Nat.not_lt_zero _)
  · intro i hi k hk
    interval_cases i
    · have : k = 0 := Nat.lt_one_iff.1 hk
      subst this
      have c0 : Spec.cstr wit bwfSt.x.x bwfSt.x.u 0 = [-1.2] := by simp [Spec.cstr, wit, bwfSt]
      unfold shiftV
      rw [c0]
      norm_num [Spec.SetKind.OnSide, bwKinds, ineVb, ProxDDP.defaultParams]
    · exact absurd hk (Nat.not_lt_zero _)
  · rw [hd2, hvd]
    norm_num [ProxDDP.defaultParams]
  · rw [hd2]; norm_num
  · intro j hj
    refine small_rpow ?_ ?_
    · norm_num [ProxDDP.defaultParams]
    · interval_cases j; norm_num [ProxDDP.defaultParams]
  · intro j h1 h2
    omega
  · refine ⟨0, one_pos, 0, ?_⟩
    have : (gradAt wit (bwSetup (-3)).force bwfSt.x).Lus 0 = fun _ => -1.2 + 1 + 0 := gradAt_Lus bwfSt.x (-1.2) 0 rfl rfl
    rw [this]
    norm_num [ProxDDP.defaultParams, abs_of_neg]
  · set st := firstSt ProxDDP.defaultParams wit (bwSetup (-3)) search solve ineVb bwfSt with hst
    have hmu : st.mu = 0.01 := by rw [t3]; norm_num [ProxDDP.defaultParams]
    have hpr : st.preg = 1e-9 := by rw [t4]; norm_num [ProxDDP.defaultParams]
    have hE : EqAt st (-1.2) 0 0 := by
      refine ⟨?_, ?_, ?_, ?_, ?_, ?_, ?_, ?_, ?_⟩
      · rw [t1]; rfl
      · rw [t1]; rfl
      · rw [t1]; rfl
      · rw [t1]; rfl
      · rw [t1]; rfl
      · rw [t2]; rfl
      · rw [t2]; rfl
      · rw [hmu]; norm_num
      · rw [hpr]; norm_num
    refine bw_freeStep hE ?_ exact (by rw [hpr]; norm_num) (by norm_num) ?_
    · rw [t5, t1, t2, t3]
    · norm_num [abs_of_neg]
  · exfalso
    have hf := h.far
    have : violI wit (Spec.held (bwKinds (-3)) ineVb) (fun _ => 0) (fun _ _ => -1) st.x.x st.x.u ≤ 0 := by
      refine violI_le le_rfl fun i hi k => ?_
      rw [abs_nonpos_iff]
      by_cases hk : k < wit.nc i
      · interval_cases i
        · have : k = 0 := Nat.lt_one_iff.1 hk
          subst this
          exact devs_free _ _ _ _ bw_freeRow
        · exact absurd hk (Nat.not_lt_zero _)
      · rw [List.getD_eq_default _ _ (by rw [devs_length]; exact not_lt.1 hk)]
    norm_num [ProxDDP.defaultParams] at hf
    linarith

example (exact : Bool) := bwf_run (fun _ => nonmonotone defaultOptions 0.85 0.5 1000 .reset)
  (fun _ => nonmonotone_accepts defaultOptions (by norm_num [defaultOptions]) 0.85 0.5 1000 (by norm_num) 1e-13) exact

end Aligator.Link
