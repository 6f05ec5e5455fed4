import Verif.Props.SolverLQ

/-!
# ProxDDP on linear-quadratic problems, from a guess that satisfies the dynamics (C76)

Such a guess is what a rollout produces.  The residual terms in the slope and in the merit function vanish, so that the test of
the line search for the full step becomes an inequality between the step and the multipliers.
-/

namespace Aligator.Link

open Matrix CSets Lag LQ

variable {nx nu : ℕ → ℕ} {N : ℕ}

theorem residual_feasible {P : Prob nx nu N} {x : ∀ i, Fin (nx i) → ℝ} {u : ∀ i, Fin (nu i) → ℝ} (hF : Spec.Feasible P x u)
    (l : Lams nx P.nc0) : residual P x u l = 0 := by
  unfold residual
  rw [hF.init, dotProduct_zero, zero_add]
  refine Finset.sum_eq_zero fun i hi => ?_
  rw [hF.dynamics i (Finset.mem_range.1 hi), sub_self, dotProduct_zero]

theorem penalty_scale (mu : ℝ) {nc0 : ℕ} (l : Lams nx nc0) : penalty N mu l = mu * penalty N 1 l := by
  unfold penalty
  rw [mul_add, Finset.mul_sum]
  congr 1
  · ring
  · exact Finset.sum_congr rfl fun i _ => by ring

/-- **C76** From a guess that satisfies the initial condition and the dynamics of a linear-quadratic problem without path
constraints, for every horizon, dimensions and multipliers: the slope is minus the quadratic form of the regularised Hessian at
the step, whatever the multipliers, and the full step passes the test of sufficient decrease with constant `c1` if and only if
the penalty parameter times the increase of the weighted half sum of squares of the multipliers is at most
`(1/2 - c1) * quad + (1 - c1) * preg * sq`. -/
theorem C76_feasible_guess_test {P : Prob nx nu N} {H : Hess nx nu N} (hL : Spec.IsLQ P H) {S : Setup} (hS : NoSets S N)
    {exact : Bool} {s : SSt P} {d : Dir nx nu P.nc0} (hs : Solves P S exact H s d) (hG : GoodStart P S.force (s.x.x 0))
    (hV : s.ws.V = P.values s.x.x s.x.u) (hF : Spec.Feasible P s.x.x s.x.u) (c1 : ℝ) :
    slope P s (d.forced S.force) = -(quad H d.dx d.du + s.preg * sq N d.dx d.du) ∧
    (merit P S s.mu s.prevV (linearStep s.x (d.forced S.force) 1) ≤
        merit P S s.mu s.prevV s.x + c1 * slope P s (d.forced S.force) ↔
      s.mu * (penalty N 1 (linearStep s.x (d.forced S.force) 1).lam - penalty N 1 s.x.lam) ≤
        (1 / 2 - c1) * quad H d.dx d.du + (1 - c1) * (s.preg * sq N d.dx d.du)) := by
  obtain ⟨m1, m2⟩ := C76_merit_of_full_step hL hS hs hG hV
  rw [residual_feasible hF, residual_feasible hF] at m1
  rw [residual_feasible hF, penalty_feasible hF, penalty_scale s.mu, penalty_scale s.mu s.x.lam] at m2
  have m1' : slope P s (d.forced S.force) = -(quad H d.dx d.du + s.preg * sq N d.dx d.du) := by rw [m1]; ring
  refine ⟨m1', ?_⟩
  rw [m1']
  constructor <;> intro h <;> nlinarith

/-- **C76** On a convex problem, from such a guess, every step that moves is a descent direction, and it passes the test for
every constant below a half as soon as the multipliers do not grow. -/
theorem C76_feasible_guess_descent {P : Prob nx nu N} {H : Hess nx nu N} (hL : Spec.IsLQ P H) (hC : Spec.Convex N H) {S : Setup}
    (hS : NoSets S N) {exact : Bool} {s : SSt P} {d : Dir nx nu P.nc0} (hs : Solves P S exact H s d)
    (hG : GoodStart P S.force (s.x.x 0)) (hV : s.ws.V = P.values s.x.x s.x.u) (hF : Spec.Feasible P s.x.x s.x.u)
    (hpreg : 0 < s.preg) :
    ((∃ i, i ≤ N ∧ d.dx i ≠ 0) ∨ (∃ i, i < N ∧ d.du i ≠ 0) → slope P s (d.forced S.force) < 0) ∧
    ∀ c1, c1 ≤ 1 / 2 → 0 ≤ s.mu →
      penalty N 1 (linearStep s.x (d.forced S.force) 1).lam ≤ penalty N 1 s.x.lam →
      merit P S s.mu s.prevV (linearStep s.x (d.forced S.force) 1) ≤
        merit P S s.mu s.prevV s.x + c1 * slope P s (d.forced S.force) := by
  have hq := quad_nonneg hC d.dx d.du
  have hsq := sq_nonneg' (N := N) d.dx d.du
  refine ⟨fun hne => ?_, fun c1 h1 h0 hp => ?_⟩
  · rw [(C76_feasible_guess_test hL hS hs hG hV hF 0).1]
    have : 0 < sq N d.dx d.du := by
      refine lt_of_le_of_ne hsq fun h => ?_
      obtain ⟨z1, z2⟩ := sq_zero h.symm
      rcases hne with ⟨i, hi, h⟩ | ⟨i, hi, h⟩
      · exact h (z1 i hi)
      · exact h (z2 i hi)
    have := mul_pos hpreg this
    linarith
  · rw [(C76_feasible_guess_test hL hS hs hG hV hF c1).2]
    have a1 := mul_nonpos_of_nonneg_of_nonpos h0 (sub_nonpos.2 hp)
    have a2 := mul_nonneg (sub_nonneg.2 h1) hq
    have a3 := mul_nonneg (show (0 : ℝ) ≤ 1 - c1 by linarith) (mul_nonneg hpreg.le hsq)
    linarith

/-- **C76** (partial)  `C76_one_iteration_partial` from a guess that satisfies the initial condition and the dynamics, for instance a
rollout: the two conditions on the merit function are replaced by inequalities between the step, the multipliers and the
penalty parameter.  What is missing: the inequalities cannot be dropped (`C76_full_step_rejected` starts at such a guess). -/
theorem C76_feasible_guess_run_partial {p : ProxDDP.Params} (hp : p.Valid) (hb : 0 < p.dualBeta) (hit : 2 ≤ p.maxIters)
    (hal : 0 < p.maxAlIters) (htt : 0 ≤ p.targetTol) (hth : 0 ≤ p.dphiThresh) (ham : p.alphaMin < 1)
    {P : Prob nx nu N} {H : Hess nx nu N} (hL : Spec.IsLQ P H) {S : Setup} (hS : NoSets S N)
    (search : SSt P → Search) (c1 : ℝ) (hse : ∀ s, AcceptsFullStep c1 p.dphiThresh (search s))
    (solve : SSt P → Option (Dir nx nu P.nc0)) (v0 : ℕ → List ℝ) (s0 : SSt P) (hG : GoodStart P S.force (s0.x.x 0))
    (hF : Spec.Feasible P s0.x.x s0.x.u)
    (hfar : ∃ i, i < N ∧ ∃ k, max (p.innerTol0 * (min (max p.muInit p.muLb) 0.99) ^ p.dualAlpha) p.targetDual <
      |(P.lu i (s0.x.x i) (s0.x.u i) + (P.fu i (s0.x.x i) (s0.x.u i))ᵀ *ᵥ s0.x.lam.dyn i) k|)
    {exact : Bool} {d : Dir nx nu P.nc0} (hd : solve (firstSt p P S search solve v0 s0) = some d)
    (hsol : Solves P S exact H (firstSt p P S search solve v0 s0) d)
    (hdesc : p.dphiThresh < quad H d.dx d.du + max p.regInit p.regMin * sq N d.dx d.du)
    (hpen : max p.muInit p.muLb * (penalty N 1 (linearStep s0.x (d.forced S.force) 1).lam - penalty N 1 s0.x.lam) ≤
      (1 / 2 - c1) * quad H d.dx d.du + (1 - c1) * (max p.regInit p.regMin * sq N d.dx d.du))
    (hsx : ∀ i, i ≤ N → ∀ k, max p.regInit p.regMin * |d.dx i k| ≤ p.targetDual)
    (hsu : ∀ i, i < N → ∀ k, max p.regInit p.regMin * |d.du i k| ≤ p.targetDual) :
    ∃ F, ∀ fuel, F ≤ fuel → ∃ s, ProxDDP.run p (env P S (oracle P S search solve)) fuel v0 s0 = .done true s ∧
      s.numIters = 1 ∧ s.x = linearStep s0.x (d.forced S.force) 1 ∧ Spec.Feasible P s.x.x s.x.u ∧
      (Spec.Convex N H → ∀ y w, Spec.Feasible P y w → Spec.cost P s.x.x s.x.u ≤ Spec.cost P y w +
        p.targetDual * Spec.norm1 N (fun i => y i - s.x.x i) fun i => w i - s.x.u i) := by
  obtain ⟨t1, t2, t3, t4, t5⟩ := firstSt_eq p P S search solve v0 s0
  have hV : (firstSt p P S search solve v0 s0).ws.V = P.values (firstSt p P S search solve v0 s0).x.x
      (firstSt p P S search solve v0 s0).x.u := by
    rw [t5, t1]; rfl
  have hG' : GoodStart P S.force ((firstSt p P S search solve v0 s0).x.x 0) := by rw [t1]; exact hG
  have hF' : Spec.Feasible P (firstSt p P S search solve v0 s0).x.x (firstSt p P S search solve v0 s0).x.u := by
    rw [t1]; exact hF
  obtain ⟨m1, m2⟩ := C76_feasible_guess_test hL hS hsol hG' hV hF' c1
  rw [t1, t2, t3, t4] at m2
  rw [t4] at m1
  exact C76_one_iteration_partial hp hb hit hal htt hth ham hL hS search c1 hse solve v0 s0 hG hfar hd hsol
    (by rw [m1]; linarith) (m2.2 hpen) hsx hsu

/-! ### Any step length -/

theorem dot_line {n : ℕ} (x y : Fin n → ℝ) (a : ℝ) :
    (x + a • y) ⬝ᵥ (x + a • y) = x ⬝ᵥ x + a * ((x + (1 : ℝ) • y) ⬝ᵥ (x + (1 : ℝ) • y) - x ⬝ᵥ x - y ⬝ᵥ y) + a ^ 2 * (y ⬝ᵥ y) := by
  simp only [dotProduct_add, add_dotProduct, smul_dotProduct, dotProduct_smul, smul_eq_mul, one_smul]
  ring

theorem penalty_line {nc0 : ℕ} (it : Iter nx nu nc0) (d : Dir nx nu nc0) (a : ℝ) :
    penalty N 1 (linearStep it d a).lam = penalty N 1 it.lam +
      a * (penalty N 1 (linearStep it d 1).lam - penalty N 1 it.lam - penalty N 1 d.dlam) + a ^ 2 * penalty N 1 d.dlam := by
  unfold penalty linearStep
  dsimp only
  rw [dot_line it.lam.init d.dlam.init a]
  have e : ∀ i, 1 / 2 * (0.1 * 1 * ((it.lam.dyn i + a • d.dlam.dyn i) ⬝ᵥ (it.lam.dyn i + a • d.dlam.dyn i))) =
      1 / 2 * (0.1 * 1 * (it.lam.dyn i ⬝ᵥ it.lam.dyn i)) +
      a * (1 / 2 * (0.1 * 1 * ((it.lam.dyn i + (1 : ℝ) • d.dlam.dyn i) ⬝ᵥ (it.lam.dyn i + (1 : ℝ) • d.dlam.dyn i))) -
        1 / 2 * (0.1 * 1 * (it.lam.dyn i ⬝ᵥ it.lam.dyn i)) - 1 / 2 * (0.1 * 1 * (d.dlam.dyn i ⬝ᵥ d.dlam.dyn i))) +
      a ^ 2 * (1 / 2 * (0.1 * 1 * (d.dlam.dyn i ⬝ᵥ d.dlam.dyn i))) := by
    intro i
    rw [dot_line _ _ a]
    ring
  rw [Finset.sum_congr rfl fun i _ => e i]
  simp only [Finset.sum_add_distrib, Finset.sum_sub_distrib, ← Finset.mul_sum]
  ring

theorem quad_smul {H : Hess nx nu N} (a : ℝ) (dx : ∀ i, Fin (nx i) → ℝ) (du : ∀ i, Fin (nu i) → ℝ) :
    quad H (fun i => a • dx i) (fun i => a • du i) = a ^ 2 * quad H dx du := by
  unfold quad
  rw [mul_add, Finset.mul_sum]
  congr 1
  · refine Finset.sum_congr rfl fun i _ => ?_
    simp only [mulVec_smul, dotProduct_smul, smul_dotProduct, smul_eq_mul]
    ring
  · simp only [mulVec_smul, dotProduct_smul, smul_dotProduct, smul_eq_mul]
    ring

theorem costSlope_smul (P : Prob nx nu N) (x : ∀ i, Fin (nx i) → ℝ) (u : ∀ i, Fin (nu i) → ℝ) (a : ℝ)
    (dx : ∀ i, Fin (nx i) → ℝ) (du : ∀ i, Fin (nu i) → ℝ) :
    costSlope P x u (fun i => a • dx i) (fun i => a • du i) = a * costSlope P x u dx du := by
  unfold costSlope
  rw [mul_add, Finset.mul_sum]
  congr 1
  · refine Finset.sum_congr rfl fun i _ => ?_
    simp only [smul_dotProduct, smul_eq_mul]
    ring
  · simp only [smul_dotProduct, smul_eq_mul]

/-- From a feasible guess every step length leads to a feasible trajectory. -/
theorem line_feasible {P : Prob nx nu N} {H : Hess nx nu N} (hL : Spec.IsLQ P H) {S : Setup} {exact : Bool} {s : SSt P}
    {d : Dir nx nu P.nc0} (hs : Solves P S exact H s d) (hG : GoodStart P S.force (s.x.x 0))
    (hF : Spec.Feasible P s.x.x s.x.u) (a : ℝ) :
    (linearStep s.x (d.forced S.force) a).x = (fun i => s.x.x i + a • d.dx i) ∧
    (linearStep s.x (d.forced S.force) a).u = (fun i => s.x.u i + a • d.du i) ∧
    Spec.Feasible P (linearStep s.x (d.forced S.force) a).x (linearStep s.x (d.forced S.force) a).u := by
  obtain ⟨q0, q1, -⟩ := lq_rows hL hs
  obtain ⟨e1, e2, -, -⟩ := forced_dx (hG.dx0 hL hs)
  have hx : (linearStep s.x (d.forced S.force) a).x = fun i => s.x.x i + a • d.dx i := by
    funext i
    show s.x.x i + a • (d.forced S.force).dx i = _
    rw [e1]
  have hu : (linearStep s.x (d.forced S.force) a).u = fun i => s.x.u i + a • d.du i := by
    funext i
    show s.x.u i + a • (d.forced S.force).du i = _
    rw [e2]
  refine ⟨hx, hu, ?_⟩
  rw [hx, hu]
  refine ⟨?_, fun i hi => ?_⟩
  · rw [hF.init, add_zero] at q0
    show P.h (s.x.x 0 + a • d.dx 0) = 0
    rw [hL.h, hF.init, mulVec_smul, q0, smul_zero, add_zero]
  · have := q1 i hi
    rw [hF.dynamics i hi, sub_self, add_zero] at this
    show P.f i (s.x.x i + a • d.dx i) (s.x.u i + a • d.du i) = s.x.x (i + 1) + a • d.dx (i + 1)
    rw [hL.f, mulVec_smul, mulVec_smul, ← smul_add, this, hF.dynamics i hi]

/-- **C76** The same for every step length `a > 0`: it passes the test of sufficient decrease if and only if
`a * (quad / 2 + mu * pen) + mu * cross ≤ (1 - c1) * (quad + preg * sq)`, where `pen` is the weighted half sum of squares of the step
in the multipliers and `cross` the mixed term of the multipliers and their step. -/
theorem C76_feasible_guess_step_length {P : Prob nx nu N} {H : Hess nx nu N} (hL : Spec.IsLQ P H) {S : Setup} (hS : NoSets S N)
    {exact : Bool} {s : SSt P} {d : Dir nx nu P.nc0} (hs : Solves P S exact H s d) (hG : GoodStart P S.force (s.x.x 0))
    (hV : s.ws.V = P.values s.x.x s.x.u) (hF : Spec.Feasible P s.x.x s.x.u) (c1 : ℝ) {a : ℝ} (ha : 0 < a) :
    merit P S s.mu s.prevV (linearStep s.x (d.forced S.force) a) ≤
        merit P S s.mu s.prevV s.x + c1 * a * slope P s (d.forced S.force) ↔
      a * (1 / 2 * quad H d.dx d.du + s.mu * penalty N 1 (d.forced S.force).dlam) +
        s.mu * (penalty N 1 (linearStep s.x (d.forced S.force) 1).lam - penalty N 1 s.x.lam - penalty N 1 (d.forced S.force).dlam) ≤
        (1 - c1) * (quad H d.dx d.du + s.preg * sq N d.dx d.du) := by
  obtain ⟨hx, hu, hFa⟩ := line_feasible hL hs hG hF a
  have hcs := newton_costSlope hL hs (hG.dx0 hL hs)
  rw [residual_feasible hF] at hcs
  rw [(C76_feasible_guess_test hL hS hs hG hV hF c1).1, merit_free hL.c hL.cN hS, merit_free hL.c hL.cN hS, penalty_feasible hFa,
    penalty_feasible hF, hx, hu, cost_add hL, quad_smul, costSlope_smul, hcs, penalty_scale s.mu, penalty_scale s.mu s.x.lam,
    penalty_line s.x (d.forced S.force) a]
  set q := quad H d.dx d.du
  set r := s.preg * sq N d.dx d.du
  set c := penalty N 1 (linearStep s.x (d.forced S.force) 1).lam - penalty N 1 s.x.lam - penalty N 1 (d.forced S.force).dlam
  set e := penalty N 1 (d.forced S.force).dlam
  set l := penalty N 1 s.x.lam
  set J := Spec.cost P s.x.x s.x.u
  have key : J + a * (0 - (q + r)) + 1 / 2 * (a ^ 2 * q) + s.mu * (l + a * c + a ^ 2 * e) -
      (J + s.mu * l + c1 * a * -(q + r)) = a * (a * (1 / 2 * q + s.mu * e) + s.mu * c - (1 - c1) * (q + r)) := by ring
  constructor
  · intro h
    have : a * (a * (1 / 2 * q + s.mu * e) + s.mu * c - (1 - c1) * (q + r)) ≤ 0 := by rw [← key]; linarith
    have := nonpos_of_mul_nonpos_right this ha
    linarith
  · intro h
    have : a * (a * (1 / 2 * q + s.mu * e) + s.mu * c - (1 - c1) * (q + r)) ≤ 0 :=
      mul_nonpos_of_nonneg_of_nonpos ha.le (by linarith)
    rw [← key] at this
    linarith

/-- **C76** (negation)  The better the guess, the shorter the step.  From a guess that satisfies the dynamics of a convex
linear-quadratic problem without path constraints, with zero multipliers (what the solver starts from when it is given none),
every step length that passes the test of sufficient decrease is at most twice the excess of the cost over that of an optimal
trajectory, divided by the penalty parameter times the weighted half sum of squares of the multipliers of the full step.  The
full step would be exact (`C76_full_step`). -/
theorem C76_good_guess_short_steps {P : Prob nx nu N} {H : Hess nx nu N} (hL : Spec.IsLQ P H) (hC : Spec.Convex N H) {S : Setup}
    (hS : NoSets S N) {exact : Bool} {s : SSt P} {d : Dir nx nu P.nc0} (hs : Solves P S exact H s d)
    (hG : GoodStart P S.force (s.x.x 0)) (hV : s.ws.V = P.values s.x.x s.x.u) (hF : Spec.Feasible P s.x.x s.x.u)
    (hpreg : 0 ≤ s.preg) (hl0 : s.x.lam.init = 0) (hl : ∀ i, s.x.lam.dyn i = 0) {c1 : ℝ} (hc : 0 ≤ c1) {a : ℝ} (ha : 0 < a)
    {y : ∀ i, Fin (nx i) → ℝ} {w : ∀ i, Fin (nu i) → ℝ} (hO : Spec.Optimal P y w)
    (htest : merit P S s.mu s.prevV (linearStep s.x (d.forced S.force) a) ≤
      merit P S s.mu s.prevV s.x + c1 * a * slope P s (d.forced S.force)) :
    a * (s.mu * penalty N 1 (linearStep s.x (d.forced S.force) 1).lam) ≤
      2 * (Spec.cost P s.x.x s.x.u - Spec.cost P y w) := by
  have h := (C76_feasible_guess_step_length hL hS hs hG hV hF c1 ha).1 htest
  have z : penalty N 1 s.x.lam = 0 := by
    unfold penalty
    simp [hl0, hl]
  have z1 : penalty N 1 (linearStep s.x (d.forced S.force) 1).lam = penalty N 1 (d.forced S.force).dlam := by
    unfold penalty linearStep
    simp [hl0, hl]
  rw [z, z1, sub_zero, sub_self, mul_zero, add_zero] at h
  rw [z1]
  obtain ⟨hx, hu, hF1⟩ := line_feasible hL hs hG hF 1
  have hle := hO.2 _ _ hF1
  have hcs := newton_costSlope hL hs (hG.dx0 hL hs)
  rw [residual_feasible hF] at hcs
  rw [hx, hu, cost_add hL, quad_smul, costSlope_smul, hcs] at hle
  have hq := quad_nonneg hC d.dx d.du
  have hr := mul_nonneg hpreg (sq_nonneg' (N := N) d.dx d.du)
  have h1 : (1 - c1) * (quad H d.dx d.du + s.preg * sq N d.dx d.du) ≤ quad H d.dx d.du + s.preg * sq N d.dx d.du := by
    nlinarith
  have h2 := mul_nonneg ha.le hq
  nlinarith

/-! ### Guesses near the optimum of one problem -/

/-- The linear system at the guess `x = (0, t)`, `u = t` of `lqw 1 2 0`: a solution exists, and every solution has the multiplier 1
of the optimum. -/
theorem lqw_near {t : ℝ} {s : SSt (lqw 1 2 0)} (hx : s.x = lqwIter 1 2 0 t t) (hp : 0 ≤ s.preg) (exact : Bool) :
    (∃ d, Solves (lqw 1 2 0) lqwSetup exact (lqwHess 1) s d) ∧
    ∀ d, Solves (lqw 1 2 0) lqwSetup exact (lqwHess 1) s d → d.dlam.dyn 0 = fun _ => 1 := by
  have hne : 1 + s.preg ≠ 0 := by positivity
  have ha : (1 + s.preg) * ((1 - t) / (1 + s.preg)) = 1 - t := mul_div_cancel₀ _ hne
  constructor
  · set a := (1 - t) / (1 + s.preg) with hadef
    refine ⟨⟨fun i _ => if i = 0 then 0 else a, fun _ _ => a, ⟨fun _ => -1, fun _ _ => 1⟩, fun _ => []⟩, ?_⟩
    refine lq_solves (lqw_isLQ 1 2 0) rfl one_pos exact ?_ ?_ ?_ ?_ ?_ ?_ (fun _ => rfl)
    · rw [hx]
      have e : (1 : Matrix (Fin 1) (Fin 1) ℝ) *ᵥ (fun _ => 0) + (fun _ => 0 : Fin 1 → ℝ) = 0 := by
        rw [one_mulVec]
        funext k; simp
      exact e
    · intro i hi
      rw [hx]
      interval_cases i
      show (1 : Matrix (Fin 1) (Fin 1) ℝ) *ᵥ (fun _ => 0) + (1 : Matrix (Fin 1) (Fin 1) ℝ) *ᵥ (fun _ => a) +
        ((((fun _ => 0) + (fun _ => t) + fun _ => 0) : Fin 1 → ℝ) - fun _ => t) = fun _ => a
      rw [one_mulVec, one_mulVec]
      funext k; simp
    · show (1 : Matrix (Fin 1) (Fin 1) ℝ)ᵀ *ᵥ (fun _ => -1) + (1 : Matrix (Fin 1) (Fin 1) ℝ)ᵀ *ᵥ (fun _ => 1) +
        ((0 : Matrix (Fin 1) (Fin 1) ℝ) *ᵥ (fun _ => 0) + s.preg • (fun _ => 0) + (0 : Matrix (Fin 1) (Fin 1) ℝ) *ᵥ (fun _ => a)) = 0
      rw [transpose_one, one_mulVec, one_mulVec, zero_mulVec, zero_mulVec]
      funext k; simp
    · intro i hi h0
      omega
    · intro i hi
      rw [hx]
      interval_cases i
      show ((fun _ => 1 * (t - 2) : Fin 1 → ℝ) + (1 : Matrix (Fin 1) (Fin 1) ℝ)ᵀ *ᵥ (0 + fun _ => 1) +
        ((0 : Matrix (Fin 1) (Fin 1) ℝ)ᵀ *ᵥ (fun _ => 0) + (((1 : ℝ) • (1 : Matrix (Fin 1) (Fin 1) ℝ)) *ᵥ (fun _ => a) + s.preg • (fun _ => a)))) = 0
      rw [transpose_one, one_mulVec, transpose_zero, zero_mulVec, smul_mulVec, one_mulVec]
      funext k
      simp
      linarith
    · rw [hx]
      show (-(0 + fun _ => 1) + (fun _ => 1 * t : Fin 1 → ℝ) +
        (((1 : ℝ) • (1 : Matrix (Fin 1) (Fin 1) ℝ)) *ᵥ (fun _ => a) + s.preg • (fun _ => a))) = 0
      rw [smul_mulVec, one_mulVec]
      funext k
      simp
      linarith
  · intro d h
    obtain ⟨q0, q1, -, r2, r3⟩ := lq_rows (lqw_isLQ 1 2 0) h
    rw [hx] at q0 q1 r2 r3
    have e0 : d.dx 0 = 0 := by
      have e : (1 : Matrix (Fin 1) (Fin 1) ℝ) *ᵥ d.dx 0 + (fun _ => 0) = 0 := q0
      rw [one_mulVec] at e
      exact (add_zero _).symm.trans e
    have e1 : d.du 0 0 = d.dx 1 0 := by
      have e : (1 : Matrix (Fin 1) (Fin 1) ℝ) *ᵥ d.dx 0 + (1 : Matrix (Fin 1) (Fin 1) ℝ) *ᵥ d.du 0 +
        ((((fun _ => 0) + (fun _ => t) + fun _ => 0) : Fin 1 → ℝ) - fun _ => t) = d.dx 1 := q1 0 one_pos
      have e := congrFun e 0
      rw [e0] at e
      simpa using e
    have e2 : (t - 2) + d.dlam.dyn 0 0 + (1 + s.preg) * d.du 0 0 = 0 := by
      have e : ((fun _ => 1 * (t - 2) : Fin 1 → ℝ) + (1 : Matrix (Fin 1) (Fin 1) ℝ)ᵀ *ᵥ (0 + d.dlam.dyn 0) +
        ((0 : Matrix (Fin 1) (Fin 1) ℝ)ᵀ *ᵥ d.dx 0 + (((1 : ℝ) • (1 : Matrix (Fin 1) (Fin 1) ℝ)) *ᵥ d.du 0 + s.preg • d.du 0))) = 0 :=
        r2 0 one_pos
      have e := congrFun e 0
      simp at e
      linarith
    have e3 : -d.dlam.dyn 0 0 + t + (1 + s.preg) * d.dx 1 0 = 0 := by
      have e : (-(0 + d.dlam.dyn 0) + (fun _ => 1 * t : Fin 1 → ℝ) +
        (((1 : ℝ) • (1 : Matrix (Fin 1) (Fin 1) ℝ)) *ᵥ d.dx 1 + s.preg • d.dx 1)) = 0 := r3 (fun _ => one_ne_zero)
      have e := congrFun e 0
      simp at e
      linarith
    rw [e1] at e2
    funext k; rw [Subsingleton.elim k 0]; show d.dlam.dyn 0 0 = 1; linarith

/-- **C76** (negation)  With the default parameters, from the guess `x = (0, t)`, `u = t` of the problem of minimising
`(u - 2)² / 2 + x₁² / 2`, `x₁ = u`, whose optimum is `t = 1`: no step longer than `4000 (1 - t)²` passes the test. -/
theorem C76_good_guess_witness (t : ℝ) (search : SSt (lqw 1 2 0) → Search)
    (solve : SSt (lqw 1 2 0) → Option (Dir (fun _ => 1) (fun _ => 1) (lqw 1 2 0).nc0)) (v0 : ℕ → List ℝ) {exact : Bool}
    {d : Dir (fun _ => 1) (fun _ => 1) (lqw 1 2 0).nc0}
    (h : Solves (lqw 1 2 0) lqwSetup exact (lqwHess 1)
      (firstSt ProxDDP.defaultParams (lqw 1 2 0) lqwSetup search solve v0 (lqwSt 1 2 0 t t)) d) {c1 a : ℝ} (hc : 0 ≤ c1) (ha : 0 < a)
    (htest : merit (lqw 1 2 0) lqwSetup 0.01 v0 (linearStep (lqwIter 1 2 0 t t) (d.forced true) a) ≤
      merit (lqw 1 2 0) lqwSetup 0.01 v0 (lqwIter 1 2 0 t t) + c1 * a * slope (lqw 1 2 0)
        (firstSt ProxDDP.defaultParams (lqw 1 2 0) lqwSetup search solve v0 (lqwSt 1 2 0 t t)) (d.forced true)) :
    a ≤ 4000 * (1 - t) ^ 2 := by
  obtain ⟨t1, t2, t3, t4, t5⟩ := firstSt_eq ProxDDP.defaultParams (lqw 1 2 0) lqwSetup search solve v0 (lqwSt 1 2 0 t t)
  set st := firstSt ProxDDP.defaultParams (lqw 1 2 0) lqwSetup search solve v0 (lqwSt 1 2 0 t t) with hst
  have hmu : st.mu = 0.01 := by rw [t3]; norm_num [ProxDDP.defaultParams]
  have hp : 0 ≤ st.preg := by rw [t4]; norm_num [ProxDDP.defaultParams]
  have hx : st.x = lqwIter 1 2 0 t t := t1
  have hV : st.ws.V = (lqw 1 2 0).values st.x.x st.x.u := by rw [t5, t1]; rfl
  have hG : GoodStart (lqw 1 2 0) lqwSetup.force (st.x.x 0) := by rw [hx]; exact lqw_start 1 2 0 rfl
  have hF : Spec.Feasible (lqw 1 2 0) st.x.x st.x.u := by
    rw [hx]
    refine ⟨rfl, fun i hi => ?_⟩
    interval_cases i
    funext k
    simp [lqw, lqwIter]
  have hl := (lqw_near hx hp exact).2 d h
  have key := C76_good_guess_short_steps (lqw_isLQ 1 2 0) (lqw_convex zero_le_one) lqwSetup_noSets h hG hV hF hp
    (by rw [hx]; rfl) (fun i => by rw [hx]; rfl) hc ha lqw_optimal (by rw [hmu, t2, hx]; exact htest)
  have hpen : penalty 1 1 (linearStep st.x (d.forced lqwSetup.force) 1).lam = 0.05 := by
    rw [hx]
    have e0 : (linearStep (lqwIter 1 2 0 t t) (d.forced lqwSetup.force) 1).lam.init = 0 := by
      show (0 : Fin 1 → ℝ) + (1 : ℝ) • (0 : Fin 1 → ℝ) = 0
      simp
    have e1 : (linearStep (lqwIter 1 2 0 t t) (d.forced lqwSetup.force) 1).lam.dyn 0 = fun _ => 1 := by
      show (0 : Fin 1 → ℝ) + (1 : ℝ) • d.dlam.dyn 0 = _
      rw [hl]
      simp
    unfold penalty
    rw [Finset.sum_range_one, e0, e1]
    simp [dotProduct]
    norm_num
  have hcost : Spec.cost (lqw 1 2 0) st.x.x st.x.u - Spec.cost (lqw 1 2 0) (lqwIter 1 2 0 1 1).x (lqwIter 1 2 0 1 1).u = (1 - t) ^ 2 := by
    rw [hx]
    simp [Spec.cost, lqw, lqwIter]
    ring
  rw [hpen, hmu, hcost] at key
  norm_num at key
  linarith

/-- the step in the theorem exists, for every `t` -/
example (t : ℝ) (search : SSt (lqw 1 2 0) → Search) (solve) (v0 : ℕ → List ℝ) (exact : Bool) :
    ∃ d, Solves (lqw 1 2 0) lqwSetup exact (lqwHess 1)
      (firstSt ProxDDP.defaultParams (lqw 1 2 0) lqwSetup search solve v0 (lqwSt 1 2 0 t t)) d := by
  obtain ⟨t1, -, -, t4, -⟩ := firstSt_eq ProxDDP.defaultParams (lqw 1 2 0) lqwSetup search solve v0 (lqwSt 1 2 0 t t)
  exact (lqw_near t1 (by rw [t4]; norm_num [ProxDDP.defaultParams]) exact).1

/-- the zero guess of minimising `(u - 2)² / 2 + x₁² / 2`, `x₁ = u`, satisfies the dynamics, and the inequalities of the theorem hold
at its step with the default parameters, for every regularisation within the tolerance -/
example (search : SSt (lqw 1 2 0) → Search) (solve) (v0 : ℕ → List ℝ) (exact : Bool) :
    Spec.Feasible (lqw 1 2 0) (lqwSt 1 2 0 0 0).x.x (lqwSt 1 2 0 0 0).x.u ∧
    ∃ d, Solves (lqw 1 2 0) lqwSetup exact (lqwHess 1)
        (firstSt ProxDDP.defaultParams (lqw 1 2 0) lqwSetup search solve v0 (lqwSt 1 2 0 0 0)) d ∧
      ProxDDP.defaultParams.dphiThresh < quad (lqwHess 1) d.dx d.du + 1e-9 * sq 1 d.dx d.du ∧
      (0.01 : ℝ) * (penalty 1 1 (linearStep (lqwIter 1 2 0 0 0) (d.forced true) 1).lam - penalty 1 1 (lqwIter 1 2 0 0 0).lam) ≤
        (1 / 2 - 1e-4) * quad (lqwHess 1) d.dx d.du + (1 - 1e-4) * (1e-9 * sq 1 d.dx d.du) := by
  have hF : Spec.Feasible (lqw 1 2 0) (lqwSt 1 2 0 0 0).x.x (lqwSt 1 2 0 0 0).x.u := by
    refine ⟨rfl, fun i hi => ?_⟩
    interval_cases i
    funext k
    simp [lqw, lqwSt, lqwIter]
  obtain ⟨t1, t2, t3, t4, t5⟩ := firstSt_eq ProxDDP.defaultParams (lqw 1 2 0) lqwSetup search solve v0 (lqwSt 1 2 0 0 0)
  set st := firstSt ProxDDP.defaultParams (lqw 1 2 0) lqwSetup search solve v0 (lqwSt 1 2 0 0 0) with hst
  have hmu : st.mu = 0.01 := by rw [t3]; norm_num [ProxDDP.defaultParams]
  have hpr : st.preg = 1e-9 := by rw [t4]; norm_num [ProxDDP.defaultParams]
  have hp : 0 ≤ st.preg := by rw [hpr]; norm_num
  have hx : st.x = lqwIter 1 2 0 0 0 := t1
  have hV : st.ws.V = (lqw 1 2 0).values st.x.x st.x.u := by rw [t5, t1]; rfl
  obtain ⟨d, hs⟩ := lqw_solvable one_pos hx hp exact
  have hG : GoodStart (lqw 1 2 0) lqwSetup.force (st.x.x 0) := by rw [hx]; exact lqw_start 1 2 0 rfl
  obtain ⟨m1, m2⟩ := lqw_merit one_pos hx hp hV hs
  obtain ⟨n1, n2⟩ := C76_feasible_guess_test (lqw_isLQ 1 2 0) lqwSetup_noSets hs hG hV (by rw [t1]; exact hF) 1e-4
  rw [hpr] at m1 m2 n1 n2
  rw [hmu, hx] at n2
  refine ⟨hF, d, hs, ?_, n2.1 ?_⟩
  · have : quad (lqwHess 1) d.dx d.du + 1e-9 * sq 1 d.dx d.du = -slope (lqw 1 2 0) st (d.forced true) := by
      rw [show slope (lqw 1 2 0) st (d.forced true) = _ from n1]; ring
    rw [this, m1]
    norm_num [ProxDDP.defaultParams]
  · rw [hmu, hx] at m2
    show merit (lqw 1 2 0) lqwSetup _ _ (linearStep (lqwIter 1 2 0 0 0) (d.forced true) 1) ≤
        merit (lqw 1 2 0) lqwSetup _ _ (lqwIter 1 2 0 0 0) + 1e-4 * slope (lqw 1 2 0) st (d.forced true)
    rw [m1]
    norm_num at m2 ⊢
    linarith

end Aligator.Link
