import Verif.Props.SolverEq

/-!
# A concrete run for C77

Minimise `(u + 1)² / 2` subject to `x₁ = x₀`, `x₀ = 0`, `u = 0`.
-/

namespace Aligator.Link

open Matrix Lag LQ CSets

theorem eqSet_cone (z o : ℝ) : eqSet.normalConeProjection [z] [o] = [z] := by
  simp [eqSet, product, productLoop, blockStart, seg, writeSeg, equality]

theorem eq_library : Library eqSet [.eq] := by
  refine Library.product [(equality, [.eq])] _ ?_ rfl
  intro c hc
  simp only [List.mem_cons, List.not_mem_nil, or_false] at hc
  subst hc
  exact .equality 1

theorem eqw_sets : EqSets wit eqSetup := by
  refine ⟨fun i hi => ?_, fun i hi => ?_⟩
  · interval_cases i
    · exact eq_library
    · exact wit_library.2
  · interval_cases i <;> rfl

theorem wit_isLQE : Spec.IsLQE wit witHess where
  free :=
    { h := fun x d => by
        show x + d = x + (1 : Matrix (Fin 1) (Fin 1) ℝ) *ᵥ d
        rw [one_mulVec]
      hx := fun _ _ => rfl
      f := fun i x u d e => by
        show x + d = x + ((1 : Matrix (Fin 1) (Fin 1) ℝ) *ᵥ d + (0 : Matrix (Fin 1) (Fin 1) ℝ) *ᵥ e)
        rw [one_mulVec, zero_mulVec, add_zero]
      fx := fun _ _ _ _ _ => rfl
      fu := fun _ _ _ _ _ => rfl
      l := fun i x u d e => by
        show 1 / 2 * (u 0 + e 0 + 1) ^ 2 = 1 / 2 * (u 0 + 1) ^ 2 + (d ⬝ᵥ (0 : Fin 1 → ℝ) + e ⬝ᵥ (fun _ => u 0 + 1 : Fin 1 → ℝ)) +
          1 / 2 * (d ⬝ᵥ ((0 : Matrix (Fin 1) (Fin 1) ℝ) *ᵥ d) + 2 * (d ⬝ᵥ ((0 : Matrix (Fin 1) (Fin 1) ℝ) *ᵥ e)) +
            e ⬝ᵥ ((1 : Matrix (Fin 1) (Fin 1) ℝ) *ᵥ e))
        simp [dotProduct]
        ring
      lx := fun i x u d e => by
        show (0 : Fin 1 → ℝ) = 0 + ((0 : Matrix (Fin 1) (Fin 1) ℝ) *ᵥ d + (0 : Matrix (Fin 1) (Fin 1) ℝ) *ᵥ e)
        simp
      lu := fun i x u d e => by
        show (fun _ => u 0 + e 0 + 1 : Fin 1 → ℝ) = (fun _ => u 0 + 1) + ((0 : Matrix (Fin 1) (Fin 1) ℝ)ᵀ *ᵥ d +
          (1 : Matrix (Fin 1) (Fin 1) ℝ) *ᵥ e)
        funext k
        rw [Subsingleton.elim k 0]
        simp
        ring
      lN := fun x d => by
        show (0 : ℝ) = 0 + d ⬝ᵥ (0 : Fin 1 → ℝ) + 1 / 2 * (d ⬝ᵥ ((0 : Matrix (Fin 1) (Fin 1) ℝ) *ᵥ d))
        simp
      lNx := fun x d => by
        show (0 : Fin 1 → ℝ) = 0 + (0 : Matrix (Fin 1) (Fin 1) ℝ) *ᵥ d
        simp
      c := fun _ => rfl
      cN := rfl
      flat := ⟨fun _ => rfl, fun _ => rfl, fun _ => rfl, rfl⟩ }
  c i hi c hc := by
    have : c = ⟨1, fun _ u => u, fun _ _ => 0, fun _ _ => 1⟩ := List.mem_singleton.1 hc
    subst this
    refine ⟨fun x u d e => ?_, fun _ _ _ _ => rfl, fun _ _ _ _ => rfl⟩
    show u + e = u + ((0 : Matrix (Fin 1) (Fin 1) ℝ) *ᵥ d + (1 : Matrix (Fin 1) (Fin 1) ℝ) *ᵥ e)
    simp
  cN c hc := by simp [wit] at hc

theorem wit_convex : Spec.Convex 1 witHess where
  stage i _ d e := by
    show 0 ≤ d ⬝ᵥ ((0 : Matrix (Fin 1) (Fin 1) ℝ) *ᵥ d) + 2 * (d ⬝ᵥ ((0 : Matrix (Fin 1) (Fin 1) ℝ) *ᵥ e)) +
      e ⬝ᵥ ((1 : Matrix (Fin 1) (Fin 1) ℝ) *ᵥ e)
    simp [dotProduct]
    exact mul_self_nonneg _
  term d := by
    show 0 ≤ d ⬝ᵥ ((0 : Matrix (Fin 1) (Fin 1) ℝ) *ᵥ d)
    simp

/-- the multiplier `-1` of the solution `u = 0` -/
def eqVb (i : ℕ) : List ℝ := if i = 0 then [-1] else []

theorem wit_lagrangian (lam0 : Fin 1 → ℝ) (lam : ∀ _ : ℕ, Fin 1 → ℝ) (v : ℕ → List ℝ) (b : ℝ) (h0 : v 0 = [b]) (h1 : v 1 = [])
    (x u : ∀ _ : ℕ, Fin 1 → ℝ) :
    Spec.lagrangian wit lam0 lam v x u = 1 / 2 * (u 0 0 + 1) ^ 2 + lam0 0 * x 0 0 + lam 0 0 * (x 0 0 - x 1 0) + b * u 0 0 := by
  have e : Spec.lagrangian wit lam0 lam v x u = ((∑ i ∈ Finset.range 1, 1 / 2 * (u i 0 + 1) ^ 2) + 0) + lam0 ⬝ᵥ x 0 +
    (∑ i ∈ Finset.range 1, lam i ⬝ᵥ (x i - x (i + 1))) + ∑ i ∈ Finset.range 2, Spec.ldot (v i) (Spec.cstr wit x u i) := rfl
  have c0 : Spec.cstr wit x u 0 = [u 0 0] := by simp [Spec.cstr, wit]
  have c1 : Spec.cstr wit x u 1 = [] := by simp [Spec.cstr, wit]
  rw [e]
  simp [Finset.sum_range_succ, h0, h1, c0, c1, Spec.ldot, dotProduct]

theorem wit_deriv (lam0 : Fin 1 → ℝ) (lam : ∀ _ : ℕ, Fin 1 → ℝ) (v : ℕ → List ℝ) (b : ℝ) (h0 : v 0 = [b]) (h1 : v 1 = [])
    (x u ex eu : ∀ _ : ℕ, Fin 1 → ℝ) :
    HasDerivAt (fun t : ℝ => Spec.lagrangian wit lam0 lam v (fun i => x i + t • ex i) (fun i => u i + t • eu i))
      ((u 0 0 + 1 + b) * eu 0 0 + lam0 0 * ex 0 0 + lam 0 0 * (ex 0 0 - ex 1 0)) 0 := by
  have hid : HasDerivAt (fun t : ℝ => t) 1 0 := hasDerivAt_id 0
  have hU : HasDerivAt (fun t : ℝ => u 0 0 + t * eu 0 0) (eu 0 0) 0 := ((hid.mul_const _).const_add _).congr_deriv (one_mul _)
  have hX0 : HasDerivAt (fun t : ℝ => x 0 0 + t * ex 0 0) (ex 0 0) 0 := ((hid.mul_const _).const_add _).congr_deriv (one_mul _)
  have hX1 : HasDerivAt (fun t : ℝ => x 1 0 + t * ex 1 0) (ex 1 0) 0 := ((hid.mul_const _).const_add _).congr_deriv (one_mul _)
  have hf : (fun t : ℝ => Spec.lagrangian wit lam0 lam v (fun i => x i + t • ex i) (fun i => u i + t • eu i)) =
      fun t => 1 / 2 * (u 0 0 + t * eu 0 0 + 1) ^ 2 + lam0 0 * (x 0 0 + t * ex 0 0) +
        lam 0 0 * ((x 0 0 + t * ex 0 0) - (x 1 0 + t * ex 1 0)) + b * (u 0 0 + t * eu 0 0) := by
    funext t
    rw [wit_lagrangian lam0 lam v b h0 h1]
    rfl
  rw [hf]
  refine ((((((hU.add_const 1).pow 2).const_mul _).add (hX0.const_mul _)).add ((hX0.sub hX1).const_mul _)).add
    (hU.const_mul _)).congr_deriv ?_
  simp
  ring

theorem wit_feasible {x u : ∀ _ : ℕ, Fin 1 → ℝ} (h : Spec.Feasible wit x u) : x 0 = 0 ∧ x 1 = 0 := by
  have h0 : x 0 = 0 := h.init
  have h1 := h.dynamics 0 one_pos
  have h1' : x 0 = x 1 := h1
  exact ⟨h0, h1'.symm.trans h0⟩

theorem wit_kkt : Spec.KKTPoint wit (eqSetup.force = true) (fun _ => 0) (fun _ => 0) 0 (fun _ => 0) eqVb where
  feasible := ⟨rfl, fun i hi => rfl⟩
  constraints i hi a ha := by
    interval_cases i
    · simpa [Spec.cstr, wit] using ha
    · simp [Spec.cstr, wit] at ha
  sizes i hi := by
    interval_cases i <;> simp [Spec.cstr, wit, eqVb]
  stationary ex eu _ := (wit_deriv 0 (fun _ => 0) eqVb (-1) rfl rfl _ _ ex eu).congr_deriv (by simp)

theorem wit_error : Spec.ErrorBound wit (eqSetup.force = true) 3 (fun _ => 0) (fun _ => 0) eqVb := by
  intro x u lam0 lam v rx ru hF hs _ hd
  obtain ⟨x0, x1⟩ := wit_feasible hF
  have c0 : Spec.cstr wit x u 0 = [u 0 0] := by simp [Spec.cstr, wit]
  have c1 : Spec.cstr wit x u 1 = [] := by simp [Spec.cstr, wit]
  obtain ⟨b, hb⟩ := List.length_eq_one_iff.1 (show (v 0).length = 1 by rw [hs 0 (by omega), c0]; rfl)
  have hb1 : v 1 = [] := List.length_eq_zero_iff.1 (by rw [hs 1 le_rfl, c1]; rfl)
  have d1 := hd (fun _ => 0) (fun _ _ => 1) (fun _ => rfl)
  have d2 := wit_deriv lam0 lam v b hb hb1 x u (fun _ => 0) (fun _ _ => 1)
  have e := d1.unique d2
  simp [dotProduct] at e
  simp [Spec.dist2, Spec.vdist2, Finset.sum_range_succ, x0, x1, c0, c1, hb, hb1, eqVb]
  rw [show b + 1 = ru 0 0 - u 0 0 by rw [e]; ring]
  nlinarith [sq_nonneg (rx 0 0), sq_nonneg (rx 1 0), sq_nonneg (u 0 0 + ru 0 0), sq_nonneg (ru 0 0), sq_nonneg (u 0 0)]

theorem eqw_mult (mu : ℝ) (it : Iter (fun _ => 1) (fun _ => 1) wit.nc0) (vPrev : ℕ → List ℝ) (w a b : ℝ)
    (hu : it.u 0 = fun _ => w) (hv0 : it.vs 0 = [b]) (hv1 : it.vs 1 = []) (hp0 : vPrev 0 = [a]) (hp1 : vPrev 1 = []) :
    ((mult wit eqSetup mu vPrev it).1.ms 0).vsPlus = [1 / mu * (w + mu * a)] ∧
    ((mult wit eqSetup mu vPrev it).1.ms 1).vsPlus = [] := by
  constructor
  · show (multiplierStep eqSet mu (List.ofFn (it.u 0) ++ []) (vPrev 0) (it.vs 0) [0] []).vsPlus = _
    rw [hu, hv0, hp0]
    simp [multiplierStep, eqSet_cone]
  · show (multiplierStep noSet mu [] (vPrev 1) (it.vs 1) [] []).vsPlus = _
    rw [hv1, hp1]
    exact (wit_step1 mu).1

theorem eqw_merit (mu : ℝ) (it : Iter (fun _ => 1) (fun _ => 1) wit.nc0) (vPrev : ℕ → List ℝ) (w a b : ℝ)
    (hx0 : it.x 0 = 0) (hx1 : it.x 1 = 0) (hu : it.u 0 = fun _ => w)
    (hv0 : it.vs 0 = [b]) (hv1 : it.vs 1 = []) (hp0 : vPrev 0 = [a]) (hp1 : vPrev 1 = []) :
    merit wit eqSetup mu vPrev it = 1 / 2 * (w + 1) ^ 2 + 1 / 2 * (mu * (it.lam.init ⬝ᵥ it.lam.init)) +
      1 / 2 * (0.1 * mu * (it.lam.dyn 0 ⬝ᵥ it.lam.dyn 0)) + 1 / 2 * (mu * (1 / mu * (w + mu * a)) ^ 2) := by
  obtain ⟨m0, m1⟩ := eqw_mult mu it vPrev w a b hu hv0 hv1 hp0 hp1
  unfold merit
  simp only [meritEvaluate, m0, m1, List.range_succ, List.range_zero, List.nil_append, List.foldl_cons, List.foldl_nil]
  have e1 : (lamsPlus mu (0.1 * mu) it.lam (mult wit eqSetup mu vPrev it).1.V).init = it.lam.init := by
    funext k
    show it.lam.init k + it.x 0 k / mu = _
    rw [hx0]
    show _ + (0 : ℝ) / mu = _
    simp
  have e2 : (lamsPlus mu (0.1 * mu) it.lam (mult wit eqSetup mu vPrev it).1.V).dyn 0 = it.lam.dyn 0 := by
    funext k
    show it.lam.dyn 0 k + (it.x 0 - it.x 1) k / (0.1 * mu) = _
    rw [hx0, hx1]; simp
  have e3 : (mult wit eqSetup mu vPrev it).1.V.cost = 1 / 2 * (w + 1) ^ 2 := by
    show 0 + 1 / 2 * (it.u 0 0 + 1) ^ 2 + 0 = _
    rw [hu]; ring
  rw [e1, e2, e3]
  simp [sqNorm]
  ring

/-- A state of the solver at a feasible trajectory. -/
structure EqAt (s : SSt wit) (w a b : ℝ) : Prop where
  x0 : s.x.x 0 = 0
  x1 : s.x.x 1 = 0
  u : s.x.u 0 = fun _ => w
  v0 : s.x.vs 0 = [b]
  v1 : s.x.vs 1 = []
  p0 : s.prevV 0 = [a]
  p1 : s.prevV 1 = []
  mu : 0 < s.mu
  preg : 0 ≤ s.preg

theorem EqAt.shapes {s : SSt wit} {w a b : ℝ} (h : EqAt s w a b) : Shape wit s.prevV ∧ Shape wit s.x.vs := by
  constructor <;> intro i hi <;> interval_cases i
  · rw [h.p0]; rfl
  · rw [h.p1]; rfl
  · rw [h.v0]; rfl
  · rw [h.v1]; rfl

theorem wit_goodStart (x0 : Fin 1 → ℝ) (h : x0 = 0) (force : Bool) : GoodStart wit force x0 := by
  intro _
  refine ⟨h, fun y hy => ?_⟩
  have e : (1 : Matrix (Fin 1) (Fin 1) ℝ) *ᵥ y = 0 := hy
  rwa [one_mulVec] at e

theorem gradAt_Lus (it : Iter (fun _ => 1) (fun _ => 1) wit.nc0) (w b : ℝ) (hu : it.u 0 = fun _ => w) (hv0 : it.vs 0 = [b]) :
    (gradAt wit true it).Lus 0 = fun _ => w + 1 + b := by
  obtain ⟨g1, g2, g3⟩ := compute_eq (wit.data it.x it.u) (some it.lam) it.vs
  have e : (gradAt wit true it).Lus 0 = (fun _ => it.u 0 0 + 1) + (0 : Matrix (Fin 1) (Fin 1) ℝ)ᵀ *ᵥ it.lam.dyn 0 +
    ((1 : Matrix (Fin 1) (Fin 1) ℝ)ᵀ *ᵥ slice (it.vs 0) 0 1 + 0) := g3 0 one_pos
  rw [e, hu, hv0]
  funext k
  rw [Subsingleton.elim k 0]
  simp [slice]

theorem gradAt_Lxs (it : Iter (fun _ => 1) (fun _ => 1) wit.nc0) : (gradAt wit true it).Lxs 1 = -it.lam.dyn 0 := by
  obtain ⟨g1, g2, g3⟩ := compute_eq (wit.data it.x it.u) (some it.lam) it.vs
  have e : (gradAt wit true it).Lxs 1 = -it.lam.dyn 0 + (0 + 0) := g2
  rw [e]; simp

theorem eqw_step {s : SSt wit} {w a b : ℝ} (h : EqAt s w a b) (hws : s.ws = (mult wit eqSetup s.mu s.prevV s.x).1) {exact : Bool}
    {d : Dir (fun _ => 1) (fun _ => 1) wit.nc0} (hs : Solves wit eqSetup exact witHess s d) :
    ∃ al : ℝ, (1 + s.preg + 1 / s.mu) * al = -(w + 1 + 1 / s.mu * (w + s.mu * a)) ∧
      slope wit s (d.forced eqSetup.force) = (w + 1 + 1 / s.mu * (w + s.mu * a)) * al ∧
      merit wit eqSetup s.mu s.prevV (linearStep s.x (d.forced eqSetup.force) 1) ≤ merit wit eqSetup s.mu s.prevV s.x +
        ((w + 1 + 1 / s.mu * (w + s.mu * a)) * al + 1 / 2 * (1 + 1 / s.mu) * al ^ 2) := by
  obtain ⟨hv, hvs⟩ := h.shapes
  have hmu := h.mu
  have hF := C77_full_step wit_isLQE eqw_sets hmu hv hvs hs (wit_goodStart _ h.x0 _)
  set it := linearStep s.x (d.forced eqSetup.force) 1 with hit
  obtain ⟨y0, y1⟩ := wit_feasible hF.feasible
  have hdu : it.u 0 = fun _ => w + d.du 0 0 := by
    rw [hF.u]
    funext k
    show s.x.u 0 k + d.du 0 k = _
    rw [h.u, Subsingleton.elim k 0]
  obtain ⟨be, hbe⟩ := List.length_eq_one_iff.1 (show (it.vs 0).length = 1 from hF.shape 0 (by omega))
  have hb1 : it.vs 1 = [] := List.length_eq_zero_iff.1 (show (it.vs 1).length = 0 from hF.shape 1 le_rfl)
  have dx1 : d.dx 1 = 0 := by
    have e := congrFun hF.x 1
    have e' : it.x 1 = s.x.x 1 + d.dx 1 := e
    rw [y1, h.x1, zero_add] at e'
    exact e'.symm
  have hl : it.lam.dyn 0 = 0 := by
    have e : (gradAt wit true it).Lxs 1 = -(s.preg • d.dx 1) := hF.Lx 1 le_rfl
    rw [gradAt_Lxs, dx1] at e
    simpa using e
  have hg : w + d.du 0 0 + 1 + be = -(s.preg * d.du 0 0) := by
    have e : (gradAt wit true it).Lus 0 = -(s.preg • d.du 0) := hF.Lu 0 one_pos
    rw [gradAt_Lus it _ be hdu hbe] at e
    exact congrFun e 0
  have hc : w + d.du 0 0 = s.mu * (be - a) := by
    have e := hF.c 0 (by omega) 0
    have c0 : Spec.cstr wit it.x it.u 0 = [it.u 0 0] := by simp [Spec.cstr, wit]
    rw [c0, hbe, h.p0, hdu] at e
    exact e
  have hi : it.lam.init = s.x.lam.init := by
    show s.x.lam.init + (1 : ℝ) • (0 : Fin wit.nc0 → ℝ) = _
    rw [smul_zero, add_zero]
  refine ⟨d.du 0 0, ?_, ?_, ?_⟩
  · have hb : be = (w + d.du 0 0) / s.mu + a := by rw [hc]; field_simp; ring
    rw [hb] at hg
    field_simp at hg ⊢
    linarith
  · obtain ⟨m0, m1⟩ := eqw_mult s.mu s.x s.prevV w a b h.u h.v0 h.v1 h.p0 h.p1
    unfold slope
    rw [directionalDerivative_eq_pair, hws]
    unfold pair
    have e : ∀ lp vp, (compute (wit.data s.x.x s.x.u) (some lp) vp).Lus 0 = (fun _ => s.x.u 0 0 + 1) +
        (0 : Matrix (Fin 1) (Fin 1) ℝ)ᵀ *ᵥ lp.dyn 0 + ((1 : Matrix (Fin 1) (Fin 1) ℝ)ᵀ *ᵥ slice (vp 0) 0 1 + 0) :=
      fun lp vp => (compute_eq (wit.data s.x.x s.x.u) (some lp) vp).2.2 0 one_pos
    have f0 : (d.forced eqSetup.force).dx 0 = 0 := by
      show Function.update d.dx 0 0 0 = 0
      exact Function.update_self _ _ _
    have f1 : (d.forced eqSetup.force).dx 1 = 0 := by
      show Function.update d.dx 0 0 1 = 0
      rw [Function.update_of_ne one_ne_zero]
      exact dx1
    have fu : (d.forced eqSetup.force).du 0 = d.du 0 := rfl
    rw [Finset.sum_range_succ, Finset.sum_range_succ, Finset.sum_range_zero, Finset.sum_range_succ, Finset.sum_range_zero, f0, f1, fu,
      dotProduct_zero, dotProduct_zero, e, h.u, m0]
    simp [slice, dotProduct]
  · rw [eqw_merit s.mu it s.prevV _ a be y0 y1 hdu hbe hb1 h.p0 h.p1, eqw_merit s.mu s.x s.prevV w a b h.x0 h.x1 h.u h.v0 h.v1 h.p0 h.p1,
      hl, hi]
    have n : 0 ≤ s.x.lam.dyn 0 ⬝ᵥ s.x.lam.dyn 0 := Finset.sum_nonneg fun _ _ => mul_self_nonneg _
    have n2 : 0 ≤ 1 / 2 * (0.1 * s.mu * (s.x.lam.dyn 0 ⬝ᵥ s.x.lam.dyn 0)) := by positivity
    rw [dotProduct_zero]
    have e1 : 1 / 2 * (w + d.du 0 0 + 1) ^ 2 + 1 / 2 * (s.mu * (1 / s.mu * (w + d.du 0 0 + s.mu * a)) ^ 2) =
        1 / 2 * (w + 1) ^ 2 + 1 / 2 * (s.mu * (1 / s.mu * (w + s.mu * a)) ^ 2) +
        ((w + 1 + 1 / s.mu * (w + s.mu * a)) * d.du 0 0 + 1 / 2 * (1 + 1 / s.mu) * (d.du 0 0) ^ 2) := by
      field_simp
      ring
    linarith

theorem eqw_solvable {s : SSt wit} {w a b : ℝ} (h : EqAt s w a b) (exact : Bool) : ∃ d, Solves wit eqSetup exact witHess s d := by
  have hmu := h.mu
  have hpr := h.preg
  have hden : 0 < 1 + s.preg + 1 / s.mu := by positivity
  obtain ⟨al, hal⟩ : ∃ al : ℝ, (1 + s.preg + 1 / s.mu) * al = -(w + 1 + 1 / s.mu * (w + s.mu * a)) :=
    ⟨_, mul_div_cancel₀ _ hden.ne'⟩
  set be := (w + al) / s.mu + a with hbe
  refine ⟨⟨fun _ => 0, fun _ _ => al, ⟨s.x.lam.dyn 0, fun _ => -s.x.lam.dyn 0⟩, fun i => if i = 0 then [be - b] else []⟩, ?_⟩
  set d : Dir (fun _ => 1) (fun _ => 1) wit.nc0 :=
    ⟨fun _ => 0, fun _ _ => al, ⟨s.x.lam.dyn 0, fun _ => -s.x.lam.dyn 0⟩, fun i => if i = 0 then [be - b] else []⟩ with hd
  have hdv : Shape wit d.dv := by
    intro i hi
    interval_cases i <;> rfl
  obtain ⟨hv, hvs⟩ := h.shapes
  refine (solves_iff wit eqSetup exact witHess s d).2 ⟨?_, hdv⟩
  have hsh := eq_shapes eqw_sets hv hvs hdv s.x.x s.x.u
  let st : LQ.Spec.Step (fun _ => 1) (fun _ => 1) (wit.spec s.x.x s.x.u).nc0 := ⟨d.dx, d.du, d.dlam.init, d.dlam.dyn, d.dv⟩
  refine (kkt_rows (P := wit.spec s.x.x s.x.u) (op := eqSetup.op) (ks := fun i => List.replicate (wit.nc i) Kind.eq) (vPrev := s.prevV)
    (vs := s.x.vs) (out := eqSetup.out) (outA := fun i => List.replicate (wit.nc i) false) (s := st) witHess s.mu s.preg exact
    eqSetup.force s.x.lam s.x.x s.x.u hmu.ne' hsh).2 ⟨?_, ?_, ?_, ?_, ?_⟩
  · show (1 : Matrix (Fin 1) (Fin 1) ℝ) *ᵥ (0 : Fin 1 → ℝ) + s.x.x 0 = 0
    rw [h.x0]; simp
  · intro i hi
    interval_cases i
    show (1 : Matrix (Fin 1) (Fin 1) ℝ) *ᵥ (0 : Fin 1 → ℝ) + (0 : Matrix (Fin 1) (Fin 1) ℝ) *ᵥ (fun _ => al) + (s.x.x 0 - s.x.x 1) = 0
    rw [h.x0, h.x1]; simp
  · intro i hi k hk
    rw [ncOf_spec] at hk
    interval_cases i
    · have hk0 : k = 0 := Nat.lt_one_iff.1 hk
      subst hk0
      have e1 : shiftedAt (wit.spec s.x.x s.x.u) s.mu s.prevV s.x.x s.x.u 0 = [w + s.mu * a] := by
        show List.zipWith (· + ·) (List.ofFn (s.x.u 0) ++ []) ((s.prevV 0).map (s.mu * ·)) = _
        rw [h.u, h.p0]
        simp
      unfold Row
      rw [e1]
      show (if flagAt [.eq] [w + s.mu * a] 0 then
        ((0 : Matrix (Fin 1) (Fin 1) ℝ) *ᵥ (0 : Fin 1 → ℝ) + (1 : Matrix (Fin 1) (Fin 1) ℝ) *ᵥ (fun _ => al)) 0 else 0) +
        ((eqSet.normalConeProjection [w + s.mu * a] [0]).getD 0 0 - s.mu * (s.x.vs 0).getD 0 0) - s.mu * ([be - b] : List ℝ).getD 0 0 = 0
      rw [eqSet_cone, h.v0]
      simp [flagAt, Kind.flag]
      rw [hbe]
      field_simp
      ring
    · exact absurd hk (Nat.not_lt_zero _)
  · intro i hi
    interval_cases i
    obtain ⟨g1, g2, g3⟩ := compute_eq (pdata (wit.spec s.x.x s.x.u)) (some (lamsNext s.x.lam st))
      (fun i => LQ.Spec.ladd (s.x.vs i) (d.dv i))
    constructor
    · have q1 : ∀ li : Fin 1 → ℝ, li = s.x.lam.init → (gradNext (wit.spec s.x.x s.x.u) s.x.lam s.x.vs st).Lxs 0 =
          (1 : Matrix (Fin 1) (Fin 1) ℝ)ᵀ *ᵥ (li + s.x.lam.dyn 0) + (0 + (1 : Matrix (Fin 1) (Fin 1) ℝ)ᵀ *ᵥ
            (s.x.lam.dyn 0 + -s.x.lam.dyn 0) + ((0 : Matrix (Fin 1) (Fin 1) ℝ)ᵀ *ᵥ slice (LQ.Spec.ladd (s.x.vs 0) [be - b]) 0 1 + 0)) := by
        rintro _ rfl
        exact g1 0 one_pos
      have q2 : ∀ li : Fin 1 → ℝ, li = s.x.lam.init → (gradNow (wit.spec s.x.x s.x.u) s.x.lam s.x.vs).Lxs 0 =
          (1 : Matrix (Fin 1) (Fin 1) ℝ)ᵀ *ᵥ li + (0 + (1 : Matrix (Fin 1) (Fin 1) ℝ)ᵀ *ᵥ
            s.x.lam.dyn 0 + ((0 : Matrix (Fin 1) (Fin 1) ℝ)ᵀ *ᵥ slice (s.x.vs 0) 0 1 + 0)) := by
        rintro _ rfl
        exact (compute_eq (pdata (wit.spec s.x.x s.x.u)) (some s.x.lam) s.x.vs).1 0 one_pos
      have q3 : dropped (wit.spec s.x.x s.x.u) witHess eqSetup.op s.mu s.preg exact eqSetup.force s.x.lam s.prevV s.x.vs eqSetup.out
          s.x.x s.x.u 0 = 0 - (gradNow (wit.spec s.x.x s.x.u) s.x.lam s.x.vs).Lxs 0 := by
        unfold dropped
        congr 1
      have q4 : rX (wit.spec s.x.x s.x.u) witHess s.preg exact s.x.lam s.x.vs st 0 =
          (gradNext (wit.spec s.x.x s.x.u) s.x.lam s.x.vs st).Lxs 0 + 0 := by
        unfold rX
        congr 1
        show (curv witHess s.preg exact).Q 0 *ᵥ (0 : Fin 1 → ℝ) + (curv witHess s.preg exact).S 0 *ᵥ (fun _ => al) = 0
        rw [mulVec_zero]
        cases exact <;> simp [curv, witHess]
      obtain ⟨li, hli⟩ : ∃ li : Fin 1 → ℝ, li = s.x.lam.init := ⟨_, rfl⟩
      rw [q3, q4, q1 li hli, q2 li hli]
      simp only [transpose_one, one_mulVec, transpose_zero, zero_mulVec]
      funext k
      simp
    · have q1 : (gradNext (wit.spec s.x.x s.x.u) s.x.lam s.x.vs st).Lus 0 =
          (fun _ => s.x.u 0 0 + 1) + (0 : Matrix (Fin 1) (Fin 1) ℝ)ᵀ *ᵥ (s.x.lam.dyn 0 + -s.x.lam.dyn 0) +
            ((1 : Matrix (Fin 1) (Fin 1) ℝ)ᵀ *ᵥ slice (LQ.Spec.ladd (s.x.vs 0) [be - b]) 0 1 + 0) := g3 0 one_pos
      unfold rU
      rw [q1, h.u, h.v0]
      show _ + (((curv witHess s.preg exact).S 0)ᵀ *ᵥ (0 : Fin 1 → ℝ) + (curv witHess s.preg exact).R 0 *ᵥ (fun _ => al)) = 0
      rw [mulVec_zero]
      funext k
      rw [Subsingleton.elim k 0]
      cases exact <;> simp [curv, witHess, slice, LQ.Spec.ladd, mulVec, dotProduct, hbe] <;> field_simp at hal ⊢ <;> linarith
  · have q1 : (gradNext (wit.spec s.x.x s.x.u) s.x.lam s.x.vs st).Lxs 1 = -(s.x.lam.dyn 0 + -s.x.lam.dyn 0) + (0 + 0) :=
      (compute_eq (pdata (wit.spec s.x.x s.x.u)) (some (lamsNext s.x.lam st)) (fun i => LQ.Spec.ladd (s.x.vs i) (d.dv i))).2.1
    have q3 := dropped_pos (P := wit.spec s.x.x s.x.u) (op := eqSetup.op) (vPrev := s.prevV) (vs := s.x.vs)
      (out := eqSetup.out) witHess s.mu s.preg exact eqSetup.force s.x.lam s.x.x s.x.u 1 one_ne_zero
    rw [q3]
    unfold rXN
    rw [q1]
    show _ + (curv witHess s.preg exact).QN *ᵥ (0 : Fin 1 → ℝ) + 0 = 0
    rw [mulVec_zero]
    simp

/-- At every feasible state with a large enough derivative the solver takes the full step. -/
theorem eqw_fullStep {s : SSt wit} {w a b : ℝ} (h : EqAt s w a b) (hws : s.ws = (mult wit eqSetup s.mu s.prevV s.x).1) (exact : Bool)
    (hmu : s.mu ≤ 0.01) (hpr : s.preg ≤ 1) (hbig : 9e-7 ≤ |s.mu * (w + 1) + (w + s.mu * a)|) :
    FullStep ProxDDP.defaultParams wit eqSetup exact witHess 1e-4 (solveAny eqSetup exact witHess) s := by
  obtain ⟨d, hd⟩ : ∃ d, solveAny eqSetup exact witHess s = some d := by
    unfold solveAny
    rw [dif_pos (eqw_solvable h exact)]
    exact ⟨_, rfl⟩
  have hs := solveAny_solves _ _ _ _ _ hd
  obtain ⟨al, e1, e2, e3⟩ := eqw_step h hws hs
  have m0 := h.mu
  have p0 := h.preg
  set g := w + 1 + 1 / s.mu * (w + s.mu * a) with hg
  have hG : s.mu * (w + 1) + (w + s.mu * a) = s.mu * g := by rw [hg]; field_simp
  rw [hG, abs_mul, abs_of_pos m0] at hbig
  set c := 1 + s.preg + 1 / s.mu with hc
  have hc0 : 0 < c := by positivity
  have hcm : s.mu * c ≤ 2 := by
    rw [hc]
    have : s.mu * (1 + s.preg + 1 / s.mu) = s.mu * (1 + s.preg) + 1 := by field_simp
    rw [this]
    nlinarith
  have hga : g * al = -(c * al ^ 2) := by
    have : g = -(c * al) := by linarith
    rw [this]; ring
  -- the slope
  have hsl : g * al < -1e-13 := by
    have h1 : c * (g * al) = -g ^ 2 := by
      have : c * (g * al) = g * (c * al) := by ring
      rw [this, e1]; ring
    have h2 : (9e-7) ^ 2 ≤ s.mu ^ 2 * g ^ 2 := by
      have := pow_le_pow_left₀ (by norm_num : (0:ℝ) ≤ 9e-7) hbig 2
      rwa [mul_pow, sq_abs] at this
    have h3 : s.mu * (s.mu * c) * (g * al) = -(s.mu ^ 2 * g ^ 2) := by
      have : s.mu * (s.mu * c) * (g * al) = s.mu ^ 2 * (c * (g * al)) := by ring
      rw [this, h1]; ring
    by_contra hn
    have hn := not_lt.1 hn
    have h4 : 0 < s.mu * (s.mu * c) := by positivity
    have h5 : s.mu * (s.mu * c) ≤ 0.02 := by nlinarith
    have h6 : -(0.02 * 1e-13) ≤ s.mu * (s.mu * c) * (g * al) := by nlinarith
    rw [h3] at h6
    norm_num at h2 h6
    linarith
  refine ⟨d, hd, hs, ?_, ?_⟩
  · rw [e2]
    exact hsl
  · rw [e2]
    refine e3.trans ?_
    have h1 : (1 + 1 / s.mu) * al ^ 2 ≤ c * al ^ 2 := mul_le_mul_of_nonneg_right (by rw [hc]; linarith) (sq_nonneg _)
    linarith

/-- The guess `u = 1` with the zero multiplier; the previous multiplier is `-7/10`. -/
def eqV0 (i : ℕ) : List ℝ := if i = 0 then [-0.7] else []

/-- the constants of the run with the default parameters -/
theorem eqw_consts : Consts ProxDDP.defaultParams wit eqSetup.force 3 9.1e-4 2 3e-4 (fun _ => 0) (fun _ => 0) 0 (fun _ => 0) eqVb := by
  refine ⟨wit_kkt, by norm_num, wit_error, ?_, ?_, ?_, ?_, ?_⟩ <;> norm_num [ProxDDP.defaultParams]

theorem eqw_at {M : ℕ} {st : SSt wit} (h : AtWork ProxDDP.defaultParams wit eqSetup M st) (exact : Bool) :
    FullStep ProxDDP.defaultParams wit eqSetup exact witHess 1e-4 (solveAny eqSetup exact witHess) st := by
  obtain ⟨x0, x1⟩ := wit_feasible h.feasible
  obtain ⟨b, hb⟩ := List.length_eq_one_iff.1 (show (st.x.vs 0).length = 1 from h.shape.1 0 (by omega))
  have hb1 : st.x.vs 1 = [] := List.length_eq_zero_iff.1 (show (st.x.vs 1).length = 0 from h.shape.1 1 le_rfl)
  obtain ⟨a, ha⟩ := List.length_eq_one_iff.1 (show (st.prevV 0).length = 1 from h.shape.2 0 (by omega))
  have ha1 : st.prevV 1 = [] := List.length_eq_zero_iff.1 (show (st.prevV 1).length = 0 from h.shape.2 1 le_rfl)
  have hu : st.x.u 0 = fun _ => st.x.u 0 0 := by
    funext k
    rw [Subsingleton.elim k 0]
  set w := st.x.u 0 0 with hw
  obtain ⟨j, hj, hmu⟩ := h.mu
  have hmu0 : 0 < st.mu := by rw [hmu]; norm_num [ProxDDP.defaultParams]
  have hmu1 : st.mu ≤ 0.01 := by
    rw [hmu]
    have : (ProxDDP.defaultParams.muFactor : ℝ) ^ j ≤ 1 := pow_le_one₀ (by norm_num [ProxDDP.defaultParams]) (by norm_num [ProxDDP.defaultParams])
    norm_num [ProxDDP.defaultParams] at this ⊢
    linarith
  have hpr : st.preg ≤ 1 := h.preg.2.trans (by norm_num [ProxDDP.defaultParams])
  have hE : EqAt st w a b := ⟨x0, x1, hu, hb, hb1, ha, ha1, hmu0, h.preg.1.le⟩
  have c0 : Spec.cstr wit st.x.x st.x.u 0 = [w] := by simp [Spec.cstr, wit, hw]
  have c1 : Spec.cstr wit st.x.x st.x.u 1 = [] := by simp [Spec.cstr, wit]
  have hfar : 1e-6 < |w| := by
    have := h.far
    unfold viol at this
    simpa [List.range_succ, c0, c1, infNorm, ProxDDP.defaultParams] using this
  have hgr : |w + 1 + b| ≤ 1e-8 := by
    have := h.grad.2 0 one_pos 0
    rw [show (gradAt wit eqSetup.force st.x).Lus 0 = fun _ => w + 1 + b from gradAt_Lus st.x w b hu hb] at this
    refine this.trans ?_
    norm_num [ProxDDP.defaultParams]
  refine eqw_fullStep hE h.ws exact hmu1 hpr ?_
  have ht : |st.mu * (w + 1 + b)| ≤ 1e-10 := by
    rw [abs_mul, abs_of_pos hmu0]
    nlinarith [abs_nonneg (w + 1 + b)]
  rcases h.kind with hk | hk
  · have hab : a = b := by
      rw [hk, hb] at ha
      simpa using ha.symm
    rw [show st.mu * (w + 1) + (w + st.mu * a) = w - -(st.mu * (w + 1 + b)) by rw [hab]; ring]
    have := abs_sub_abs_le_abs_sub w (-(st.mu * (w + 1 + b)))
    rw [abs_neg] at this
    linarith
  · have hR := hk 0 (by omega) 0
    rw [c0, hb, ha] at hR
    have hR' : w = st.mu / 0.01 * (b - a) := hR
    have hma : st.mu * a = st.mu * b - 0.01 * w := by rw [hR']; ring
    rw [show st.mu * (w + 1) + (w + st.mu * a) = 0.99 * w - -(st.mu * (w + 1 + b)) by rw [hma]; ring]
    have := abs_sub_abs_le_abs_sub (0.99 * w) (-(st.mu * (w + 1 + b)))
    rw [abs_neg, abs_mul, abs_of_pos (by norm_num : (0:ℝ) < 0.99)] at this
    linarith

/-- `m ≤ 0.99 * m ^ 0.1` for small `m` -/
theorem small_rpow {m : ℝ} (h0 : 0 < m) (h1 : m ≤ 0.01) : 1 * (min m 0.99) ^ (1 : ℝ) ≤ (1 - 0.01) * (1 * (min m 0.99) ^ (0.1 : ℝ)) := by
  rw [min_eq_left (by linarith), one_mul, one_mul, Real.rpow_one]
  have e : m ^ (0.9 : ℝ) * m ^ (0.1 : ℝ) = m := by
    rw [← Real.rpow_add h0]
    norm_num
  have h2 : m ^ (0.9 : ℝ) ≤ m ^ (0.5 : ℝ) := Real.rpow_le_rpow_of_exponent_ge h0 (by linarith) (by norm_num)
  have h3 : m ^ (0.5 : ℝ) ≤ 0.1 := by
    rw [show (0.5 : ℝ) = 1 / 2 by norm_num, ← Real.sqrt_eq_rpow, Real.sqrt_le_left (by norm_num)]
    norm_num at h1 ⊢
    linarith
  have h4 : 0 ≤ m ^ (0.1 : ℝ) := Real.rpow_nonneg h0.le _
  nlinarith

/-- the run with the default parameters converges after at most three iterations, with every line search that accepts full steps -/
theorem eqw_run (search : SSt wit → Search) (hsearch : ∀ s, AcceptsFullStep 1e-4 1e-13 (search s)) (exact : Bool) :
    ∃ F, ∀ fuel, F ≤ fuel → ∃ s, ProxDDP.run ProxDDP.defaultParams (env wit eqSetup (oracle wit eqSetup
      search (solveAny eqSetup exact witHess))) fuel eqV0 witSt = .done true s ∧
      s.numIters ≤ 3 ∧ Spec.Feasible wit s.x.x s.x.u ∧ Spec.MaxViolation wit s.x.x s.x.u 1e-6 ∧
      SmallGrad wit true s.x (0.01 * 1e-6) ∧ Spec.dist2 1 s.x.x s.x.u (fun _ => 0) (fun _ => 0) ≤ 2 := by
  set solve := solveAny (P := wit) eqSetup exact witHess with hso
  obtain ⟨t1, t2, t3, t4, t5⟩ := firstSt_eq ProxDDP.defaultParams wit eqSetup search solve eqV0 witSt
  have hd2 : Spec.dist2 1 witSt.x.x witSt.x.u (fun _ => 0) (fun _ => 0) = 1 := by
    simp [Spec.dist2, witSt, witIter]
  have hvd : Spec.vdist2 1 wit.nc eqV0 eqVb = 0.09 := by
    simp [Spec.vdist2, Finset.sum_range_succ, Prob.nc, wit, eqV0, eqVb]
    norm_num
  refine C77_run_converges_partial (M := 2) (r := 3e-4) ProxDDP.defaultParams_valid (by norm_num [ProxDDP.defaultParams]) (by norm_num [ProxDDP.defaultParams])
    (by norm_num [ProxDDP.defaultParams]) (by norm_num [ProxDDP.defaultParams]) (by norm_num [ProxDDP.defaultParams])
    (by norm_num [ProxDDP.defaultParams]) (by norm_num [ProxDDP.defaultParams]) wit_isLQE wit_convex eqw_sets rfl search 1e-4
    hsearch solve eqV0 witSt ?_ ?_ (wit_goodStart _ rfl _) eqw_consts ?_ ?_
    (by norm_num [ProxDDP.defaultParams]) le_rfl (by norm_num [ProxDDP.defaultParams]) (by norm_num [ProxDDP.defaultParams])
    ?_ ?_ (by norm_num [ProxDDP.defaultParams]) (by norm_num [ProxDDP.defaultParams]) ?_ ?_ (fun st h => eqw_at h exact)
  · intro i hi
    interval_cases i <;> rfl
  · intro i hi
    interval_cases i <;> rfl
  · rw [hd2, hvd]
    norm_num [ProxDDP.defaultParams]
  · rw [hd2]; norm_num
  · intro j hj
    refine small_rpow ?_ ?_
    · norm_num [ProxDDP.defaultParams]
    · interval_cases j <;> norm_num [ProxDDP.defaultParams]
  · intro j h1 h2
    interval_cases j <;> norm_num [ProxDDP.defaultParams, ProxDDP.scalarClose]
  · refine ⟨0, one_pos, 0, ?_⟩
    have : (gradAt wit eqSetup.force witSt.x).Lus 0 = fun _ => 1 + 1 + 0 := gradAt_Lus witSt.x 1 0 rfl rfl
    rw [this]
    norm_num [ProxDDP.defaultParams]
  · set st := firstSt ProxDDP.defaultParams wit eqSetup search solve eqV0 witSt with hst
    have hmu : st.mu = 0.01 := by rw [t3]; norm_num [ProxDDP.defaultParams]
    have hpr : st.preg = 1e-9 := by rw [t4]; norm_num [ProxDDP.defaultParams]
    have hE : EqAt st 1 (-0.7) 0 := by
      refine ⟨?_, ?_, ?_, ?_, ?_, ?_, ?_, ?_, ?_⟩
      · rw [t1]; rfl
      · rw [t1]; rfl
      · rw [t1]; rfl
      · rw [t1]; rfl
      · rw [t1]; rfl
      · rw [t2]; rfl
      · rw [t2]; rfl
      · rw [hmu]; norm_num
      · rw [hpr]; norm_num
    refine eqw_fullStep hE ?_ exact (by rw [hmu]) (by rw [hpr]; norm_num) ?_
    · rw [t5, t1, t2, t3]
    · rw [hmu]; norm_num [abs_of_pos]

/-- The default line search, after a reset: the outer loop resets the search after every inner loop
(solvers/proxddp/solver-proxddp.hxx:484), and the inner loops of this run take at most one step each. -/
example (exact : Bool) := eqw_run (fun _ => nonmonotone defaultOptions 0.85 0.5 1000 .reset)
  (fun _ => nonmonotone_accepts defaultOptions (by norm_num [defaultOptions]) 0.85 0.5 1000 (by norm_num) 1e-13) exact

/-- the Armijo search -/
example (qr : Linesearch.Solve2) (exact : Bool) := eqw_run (fun _ => armijo defaultOptions qr 1000)
  (fun _ => armijo_accepts defaultOptions (by norm_num [defaultOptions]) (by norm_num [defaultOptions])
      (by norm_num [defaultOptions]) qr 1000 (by norm_num)) exact

/-- the single steps: any solution of the linear system at a feasible state -/
example {s : SSt wit} {w a b : ℝ} (h : EqAt s w a b) (exact : Bool) : ∃ d, Solves wit eqSetup exact witHess s d ∧
    StepFacts wit true s d (linearStep s.x (d.forced true) 1) := by
  obtain ⟨d, hd⟩ := eqw_solvable h exact
  exact ⟨d, hd, C77_full_step wit_isLQE eqw_sets h.mu h.shapes.1 h.shapes.2 hd (wit_goodStart _ h.x0 _)⟩

example {s : SSt wit} {w a b : ℝ} (h : EqAt s w a b) {exact : Bool} {d} (hd : Solves wit eqSetup exact witHess s d) :=
  C77_energy wit_isLQE eqw_sets h.mu h.shapes.1 h.shapes.2 hd (wit_goodStart _ h.x0 _) rfl wit_kkt

example {s : SSt wit} {w a b : ℝ} (h : EqAt s w a b) {exact : Bool} {d} (hd : Solves wit eqSetup exact witHess s d) :=
  C77_closer wit_isLQE wit_convex eqw_sets h.mu h.shapes.1 h.shapes.2 hd (wit_goodStart _ h.x0 _) rfl wit_kkt

example {s : SSt wit} {w a b : ℝ} (h : EqAt s w a b) {exact : Bool} {d} (hd : Solves wit eqSetup exact witHess s d)
    (h1 : s.mu ≤ 0.01) (h2 : s.preg ≤ 0.01) :=
  C77_contraction wit_isLQE wit_convex eqw_sets h.mu h.preg h.shapes.1 h.shapes.2 hd (wit_goodStart _ h.x0 _) rfl wit_kkt
    (by norm_num) wit_error h1 h2

end Aligator.Link
