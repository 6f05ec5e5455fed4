import Verif.Props.SolverEqWit
import Verif.Props.SolverLQFeasible

/-!
# The line search on linear-quadratic problems with equality path constraints (C77)

Slope and change of the merit function over the full step in closed form.
-/

namespace Aligator.Link

open Matrix CSets Lag LQ

variable {nx nu : ℕ → ℕ} {N : ℕ}

/-- Squared size of the change of the constraint values along a direction. -/
def cdir2 (P : Prob nx nu N) (x : ∀ i, Fin (nx i) → ℝ) (u : ∀ i, Fin (nu i) → ℝ) (ex : ∀ i, Fin (nx i) → ℝ)
    (eu : ∀ i, Fin (nu i) → ℝ) : ℝ :=
  ∑ i ∈ Finset.range (N + 1), ∑ k ∈ Finset.range (P.nc i), (cdir P x u ex eu i).getD k 0 ^ 2

theorem cdir2_nonneg (P : Prob nx nu N) (x : ∀ i, Fin (nx i) → ℝ) (u : ∀ i, Fin (nu i) → ℝ) (ex : ∀ i, Fin (nx i) → ℝ)
    (eu : ∀ i, Fin (nu i) → ℝ) : 0 ≤ cdir2 P x u ex eu :=
  Finset.sum_nonneg fun _ _ => Finset.sum_nonneg fun _ _ => sq_nonneg _

theorem sqNorm_getD (a : List ℝ) (n : ℕ) (h : a.length = n) : sqNorm a = ∑ k ∈ Finset.range n, a.getD k 0 ^ 2 := by
  rw [Finset.sum_congr rfl fun k _ => pow_two (a.getD k 0), ← ldot_getD a a n h h]
  unfold sqNorm Lag.Spec.ldot
  congr 1
  clear h
  induction a with
  | nil => rfl
  | cons x a ih => rw [List.map_cons, List.zipWith_cons_cons, ih]

theorem eq_vsPlus {P : Prob nx nu N} {S : Setup} (hS : EqSets P S) {mu : ℝ} (hmu : 0 < mu) {v : ℕ → List ℝ} (hv : Shape P v)
    (it : Iter nx nu P.nc0) {i : ℕ} (hi : i ≤ N) :
    (((mult P S mu v it).1.ms i).vsPlus).length = P.nc i ∧
    ∀ k, (((mult P S mu v it).1.ms i).vsPlus).getD k 0 = (v i).getD k 0 + (Spec.cstr P it.x it.u i).getD k 0 / mu := by
  have hc : (P.values it.x it.u).c i = Spec.cstr P it.x it.u i := by
    rw [values_c]
    unfold LQ.Spec.cstr Spec.cstr Prob.spec Lag.Spec.stack
    simp only [List.flatMap_map]
    rfl
  have hl : (List.zipWith (· + ·) (Spec.cstr P it.x it.u i) ((v i).map (mu * ·))).length = P.nc i := by
    simp [cstr_length', hv i hi]
  have e : ((mult P S mu v it).1.ms i).vsPlus =
      (List.zipWith (· + ·) (Spec.cstr P it.x it.u i) ((v i).map (mu * ·))).map (1 / mu * ·) := by
    show ((S.op i).normalConeProjection (List.zipWith (· + ·) ((P.values it.x it.u).c i) ((v i).map (mu * ·))) (S.out i)).map
      (1 / mu * ·) = _
    rw [hc, eq_cone hS hi hl]
  refine ⟨by rw [e, List.length_map, hl], fun k => ?_⟩
  rw [e, getD_map_mul, getD_zipWith_add _ _ (by rw [List.length_map, hv i hi, cstr_length']), getD_map_mul]
  field_simp
  ring

theorem eq_merit {P : Prob nx nu N} {S : Setup} (hS : EqSets P S) {mu : ℝ} (hmu : 0 < mu) {v : ℕ → List ℝ} (hv : Shape P v)
    (it : Iter nx nu P.nc0) :
    merit P S mu v it = Spec.cost P it.x it.u + penalty N mu (lamsPlus mu (0.1 * mu) it.lam (P.values it.x it.u)) +
      1 / 2 * (mu * ∑ i ∈ Finset.range (N + 1), ∑ k ∈ Finset.range (P.nc i),
        ((v i).getD k 0 + (Spec.cstr P it.x it.u i).getD k 0 / mu) ^ 2) := by
  have h0 : ∀ i, i ≤ N → sqNorm ((mult P S mu v it).1.ms i).vsPlus = ∑ k ∈ Finset.range (P.nc i),
      ((v i).getD k 0 + (Spec.cstr P it.x it.u i).getD k 0 / mu) ^ 2 := by
    intro i hi
    obtain ⟨a, b⟩ := eq_vsPlus hS hmu hv it hi
    rw [sqNorm_getD _ _ a]
    exact Finset.sum_congr rfl fun k _ => by rw [b]
  rw [Finset.sum_range_succ, ← h0 N le_rfl, Finset.sum_congr rfl fun i hi => (h0 i (Finset.mem_range.1 hi).le).symm]
  unfold merit meritEvaluate
  dsimp only
  set lp := lamsPlus mu (0.1 * mu) it.lam (mult P S mu v it).1.V with hlp
  simp only [add_assoc]
  have e : ∑ i ∈ Finset.range N, 1 / 2 * (mu * sqNorm ((mult P S mu v it).1.ms i).vsPlus) =
      1 / 2 * (mu * ∑ i ∈ Finset.range N, sqNorm ((mult P S mu v it).1.ms i).vsPlus) := by
    rw [Finset.mul_sum, Finset.mul_sum]
  rw [foldl_add, Finset.sum_add_distrib, e, show (mult P S mu v it).1.V.cost = Spec.cost P it.x it.u from cost_values P it.x it.u]
  show _ = _ + ((1 / 2 * (mu * (lp.init ⬝ᵥ lp.init)) + ∑ i ∈ Finset.range N, 1 / 2 * (0.1 * mu * (lp.dyn i ⬝ᵥ lp.dyn i))) + _)
  ring

theorem sq_inner2 (dx : ∀ i, Fin (nx i) → ℝ) (du : ∀ i, Fin (nu i) → ℝ) : inner2 N dx du dx du = sq N dx du := by
  unfold inner2 sq
  rw [Finset.sum_range_succ, Finset.sum_add_distrib]
  ring

/-- **C77** What the line search compares, on every linear-quadratic problem with equality path constraints, at every iterate:
the slope of the merit function along the step, and the change of the merit function over the full step.  Both reward the step
for its size, weighted by Hessian and regularisation, and for the change of the constraint values over the penalty parameter;
the merit function charges for the size of the new multipliers of the dynamics. -/
theorem C77_merit_of_full_step {P : Prob nx nu N} {H : Hess nx nu N} (hL : Spec.IsLQE P H) {S : Setup} (hS : EqSets P S)
    {exact : Bool} {s : SSt P} {d : Dir nx nu P.nc0} (hmu : 0 < s.mu) (hv : Shape P s.prevV) (hvs : Shape P s.x.vs)
    (hs : Solves P S exact H s d) (hG : GoodStart P S.force (s.x.x 0)) (hws : s.ws = (mult P S s.mu s.prevV s.x).1)
    {it : Iter nx nu P.nc0} (hit : it = linearStep s.x (d.forced S.force) 1) :
    slope P s (d.forced S.force) = residual P s.x.x s.x.u it.lam -
      residual P s.x.x s.x.u (lamsPlus s.mu (0.1 * s.mu) s.x.lam (P.values s.x.x s.x.u)) -
      (quad H d.dx d.du + s.preg * sq N d.dx d.du + cdir2 P s.x.x s.x.u d.dx d.du / s.mu) ∧
    merit P S s.mu s.prevV it - merit P S s.mu s.prevV s.x =
      residual P s.x.x s.x.u it.lam - (1 / 2 * quad H d.dx d.du + s.preg * sq N d.dx d.du +
        1 / 2 * (cdir2 P s.x.x s.x.u d.dx d.du / s.mu)) +
      (penalty N s.mu it.lam - penalty N s.mu (lamsPlus s.mu (0.1 * s.mu) s.x.lam (P.values s.x.x s.x.u))) := by
  have hF := C77_full_step hL hS hmu hv hvs hs hG
  rw [← hit] at hF
  obtain ⟨q0, q1, -⟩ := eq_rows hL hS hmu hv hvs hs
  have h0 : S.force = true → d.dx 0 = 0 := by
    intro hf
    obtain ⟨h1, h2⟩ := hG hf
    refine h2 _ ?_
    rwa [h1, add_zero] at q0
  obtain ⟨e1, e2, -, -⟩ := forced_dx h0
  -- the linearised dynamics
  have r0 : P.hx (s.x.x 0) *ᵥ d.dx 0 = -P.h (s.x.x 0) := eq_neg_of_add_eq_zero_left q0
  have r1 : ∀ l : Lams nx P.nc0, l.init ⬝ᵥ P.hx (s.x.x 0) *ᵥ d.dx 0 + ∑ i ∈ Finset.range N, l.dyn i ⬝ᵥ
      (P.fx i (s.x.x i) (s.x.u i) *ᵥ d.dx i + P.fu i (s.x.x i) (s.x.u i) *ᵥ d.du i - d.dx (i + 1)) =
      -residual P s.x.x s.x.u l := by
    intro l
    unfold residual
    rw [r0, dotProduct_neg, neg_add, ← Finset.sum_neg_distrib]
    congr 1
    refine Finset.sum_congr rfl fun i hi => ?_
    rw [← q1 i (Finset.mem_range.1 hi), ← dotProduct_neg]
    congr 1
    abel
  -- the gradient at the new point
  have k1 := step_pair hF d.dx d.du h0
  rw [pair_spec P it.x it.u it.lam it.vs hF.shape, cdir_congr hL s.x.x it.x d.dx s.x.u it.u d.du, sq_inner2] at k1
  have sc := costSlope_add hL s.x.x d.dx s.x.u d.du
  rw [← hF.x, ← hF.u] at sc
  have b0 : P.hx (it.x 0) = P.hx (s.x.x 0) := by
    rw [hF.x]; exact hL.free.hx _ _
  have b1 : ∀ i, P.fx i (it.x i) (it.u i) = P.fx i (s.x.x i) (s.x.u i) := by
    intro i; rw [hF.x, hF.u]; exact hL.free.fx i _ _ _ _
  have b2 : ∀ i, P.fu i (it.x i) (it.u i) = P.fu i (s.x.x i) (s.x.u i) := by
    intro i; rw [hF.x, hF.u]; exact hL.free.fu i _ _ _ _
  simp only [b0, b1, b2] at k1
  rw [sc] at k1
  have r1' := r1 it.lam
  -- the constraints
  set C := cdir P s.x.x s.x.u d.dx d.du with hC
  have cv : ∀ i, i ≤ N → ∀ k, (it.vs i).getD k 0 =
      (s.prevV i).getD k 0 + (Spec.cstr P s.x.x s.x.u i).getD k 0 / s.mu + (C i).getD k 0 / s.mu := by
    intro i hi k
    have a1 := hF.c i hi k
    rw [hF.x, hF.u, cstr_add hL] at a1
    field_simp
    linarith
  have cn : ∀ i, i ≤ N → ∀ k, (s.prevV i).getD k 0 + (Spec.cstr P it.x it.u i).getD k 0 / s.mu = (it.vs i).getD k 0 := by
    intro i hi k
    rw [hF.c i hi k]
    field_simp
    ring
  have sumc : ∑ i ∈ Finset.range (N + 1), ∑ k ∈ Finset.range (P.nc i), (it.vs i).getD k 0 * (C i).getD k 0 =
      (∑ i ∈ Finset.range (N + 1), ∑ k ∈ Finset.range (P.nc i),
        ((s.prevV i).getD k 0 + (Spec.cstr P s.x.x s.x.u i).getD k 0 / s.mu) * (C i).getD k 0) +
      cdir2 P s.x.x s.x.u d.dx d.du / s.mu := by
    unfold cdir2
    rw [Finset.sum_div, ← Finset.sum_add_distrib]
    refine Finset.sum_congr rfl fun i hi => ?_
    rw [Finset.sum_div, ← Finset.sum_add_distrib]
    refine Finset.sum_congr rfl fun k _ => ?_
    rw [cv i (Nat.lt_succ_iff.1 (Finset.mem_range.1 hi)) k]
    ring
  have sumq : s.mu * ∑ i ∈ Finset.range (N + 1), ∑ k ∈ Finset.range (P.nc i),
        ((s.prevV i).getD k 0 + (Spec.cstr P it.x it.u i).getD k 0 / s.mu) ^ 2 =
      s.mu * (∑ i ∈ Finset.range (N + 1), ∑ k ∈ Finset.range (P.nc i),
        ((s.prevV i).getD k 0 + (Spec.cstr P s.x.x s.x.u i).getD k 0 / s.mu) ^ 2) +
      2 * (∑ i ∈ Finset.range (N + 1), ∑ k ∈ Finset.range (P.nc i),
        ((s.prevV i).getD k 0 + (Spec.cstr P s.x.x s.x.u i).getD k 0 / s.mu) * (C i).getD k 0) +
      cdir2 P s.x.x s.x.u d.dx d.du / s.mu := by
    unfold cdir2
    rw [Finset.sum_div, Finset.mul_sum, Finset.mul_sum, Finset.mul_sum, ← Finset.sum_add_distrib, ← Finset.sum_add_distrib]
    refine Finset.sum_congr rfl fun i hi => ?_
    rw [Finset.sum_div, Finset.mul_sum, Finset.mul_sum, Finset.mul_sum, ← Finset.sum_add_distrib, ← Finset.sum_add_distrib]
    refine Finset.sum_congr rfl fun k _ => ?_
    have hi := Nat.lt_succ_iff.1 (Finset.mem_range.1 hi)
    rw [cn i hi k, cv i hi k]
    field_simp
    ring
  constructor
  · unfold slope
    rw [directionalDerivative_eq_pair, e1, e2, hws]
    have hsh : Shape P fun i => ((mult P S s.mu s.prevV s.x).1.ms i).vsPlus := fun i hi => (eq_vsPlus hS hmu hv s.x hi).1
    have k2 := pair_spec P s.x.x s.x.u (lamsPlus s.mu (0.1 * s.mu) s.x.lam (P.values s.x.x s.x.u)) _ hsh d.dx d.du
    rw [compute_spec] at k2
    have r2 := r1 (lamsPlus s.mu (0.1 * s.mu) s.x.lam (P.values s.x.x s.x.u))
    have sv : ∑ i ∈ Finset.range (N + 1), ∑ k ∈ Finset.range (P.nc i),
        (((mult P S s.mu s.prevV s.x).1.ms i).vsPlus).getD k 0 * (cdir P s.x.x s.x.u d.dx d.du i).getD k 0 =
        ∑ i ∈ Finset.range (N + 1), ∑ k ∈ Finset.range (P.nc i),
        ((s.prevV i).getD k 0 + (Spec.cstr P s.x.x s.x.u i).getD k 0 / s.mu) * (C i).getD k 0 := by
      refine Finset.sum_congr rfl fun i hi => ?_
      refine Finset.sum_congr rfl fun k _ => ?_
      rw [(eq_vsPlus hS hmu hv s.x (Nat.lt_succ_iff.1 (Finset.mem_range.1 hi))).2 k]
    rw [sv] at k2
    refine Eq.trans k2 ?_
    linarith
  · rw [eq_merit hS hmu hv, eq_merit hS hmu hv, penalty_feasible hF.feasible, sumq]
    have hc : Spec.cost P it.x it.u = Spec.cost P s.x.x s.x.u + costSlope P s.x.x s.x.u d.dx d.du + 1 / 2 * quad H d.dx d.du := by
      rw [hF.x, hF.u]
      exact cost_add hL.free s.x.x s.x.u d.dx d.du
    rw [hc]
    linarith

/-- **C77** From an iterate that satisfies initial condition and dynamics, as every iterate after the first accepted full step:
the slope does not depend on the multipliers, and the full step passes the test of sufficient decrease with constant `c1` if and
only if the penalty parameter times the increase of the weighted half sum of squares of the multipliers of the dynamics is at
most `(1/2 - c1) * (quad + cdir2 / mu) + (1 - c1) * preg * sq`. -/
theorem C77_feasible_test {P : Prob nx nu N} {H : Hess nx nu N} (hL : Spec.IsLQE P H) {S : Setup} (hS : EqSets P S)
    {exact : Bool} {s : SSt P} {d : Dir nx nu P.nc0} (hmu : 0 < s.mu) (hv : Shape P s.prevV) (hvs : Shape P s.x.vs)
    (hs : Solves P S exact H s d) (hG : GoodStart P S.force (s.x.x 0)) (hws : s.ws = (mult P S s.mu s.prevV s.x).1)
    (hF : Spec.Feasible P s.x.x s.x.u) (c1 : ℝ) :
    slope P s (d.forced S.force) =
      -(quad H d.dx d.du + s.preg * sq N d.dx d.du + cdir2 P s.x.x s.x.u d.dx d.du / s.mu) ∧
    (merit P S s.mu s.prevV (linearStep s.x (d.forced S.force) 1) ≤
        merit P S s.mu s.prevV s.x + c1 * slope P s (d.forced S.force) ↔
      s.mu * (penalty N 1 (linearStep s.x (d.forced S.force) 1).lam - penalty N 1 s.x.lam) ≤
        (1 / 2 - c1) * (quad H d.dx d.du + cdir2 P s.x.x s.x.u d.dx d.du / s.mu) + (1 - c1) * (s.preg * sq N d.dx d.du)) := by
  obtain ⟨m1, m2⟩ := C77_merit_of_full_step hL hS hmu hv hvs hs hG hws rfl
  rw [residual_feasible hF, residual_feasible hF] at m1
  rw [residual_feasible hF, penalty_feasible hF, penalty_scale s.mu, penalty_scale s.mu s.x.lam] at m2
  have m1' : slope P s (d.forced S.force) =
      -(quad H d.dx d.du + s.preg * sq N d.dx d.du + cdir2 P s.x.x s.x.u d.dx d.du / s.mu) := by rw [m1]; ring
  refine ⟨m1', ?_⟩
  rw [m1']
  constructor <;> intro h <;> linarith

/-- **C77** On a convex problem, from such an iterate, every step that moves is a descent direction, and it passes the test for
every constant below a half as soon as the multipliers of the dynamics do not grow, whatever happens to the multipliers of the
path constraints. -/
theorem C77_feasible_descent {P : Prob nx nu N} {H : Hess nx nu N} (hL : Spec.IsLQE P H) (hC : Spec.Convex N H) {S : Setup}
    (hS : EqSets P S) {exact : Bool} {s : SSt P} {d : Dir nx nu P.nc0} (hmu : 0 < s.mu) (hv : Shape P s.prevV)
    (hvs : Shape P s.x.vs) (hs : Solves P S exact H s d) (hG : GoodStart P S.force (s.x.x 0))
    (hws : s.ws = (mult P S s.mu s.prevV s.x).1) (hF : Spec.Feasible P s.x.x s.x.u) (hpreg : 0 < s.preg) :
    ((∃ i, i ≤ N ∧ d.dx i ≠ 0) ∨ (∃ i, i < N ∧ d.du i ≠ 0) → slope P s (d.forced S.force) < 0) ∧
    ∀ c1, c1 ≤ 1 / 2 → penalty N 1 (linearStep s.x (d.forced S.force) 1).lam ≤ penalty N 1 s.x.lam →
      merit P S s.mu s.prevV (linearStep s.x (d.forced S.force) 1) ≤
        merit P S s.mu s.prevV s.x + c1 * slope P s (d.forced S.force) := by
  have hq := quad_nonneg hC d.dx d.du
  have hsq := sq_nonneg' (N := N) d.dx d.du
  have hcd := div_nonneg (cdir2_nonneg P s.x.x s.x.u d.dx d.du) hmu.le
  refine ⟨fun hne => ?_, fun c1 h1 hp => ?_⟩
  · rw [(C77_feasible_test hL hS hmu hv hvs hs hG hws hF 0).1]
    have : 0 < sq N d.dx d.du := by
      refine lt_of_le_of_ne hsq fun h => ?_
      obtain ⟨z1, z2⟩ := sq_zero h.symm
      rcases hne with ⟨i, hi, h⟩ | ⟨i, hi, h⟩
      · exact h (z1 i hi)
      · exact h (z2 i hi)
    have := mul_pos hpreg this
    linarith
  · rw [(C77_feasible_test hL hS hmu hv hvs hs hG hws hF c1).2]
    have a1 := mul_nonpos_of_nonneg_of_nonpos hmu.le (sub_nonpos.2 hp)
    have a2 := mul_nonneg (sub_nonneg.2 h1) (add_nonneg hq hcd)
    have a3 := mul_nonneg (show (0 : ℝ) ≤ 1 - c1 by linarith) (mul_nonneg hpreg.le hsq)
    linarith

/-- **C77** At the states of a run after the first iteration, the hypothesis `FullStep` of `C77_run_converges_partial` is an
inequality between the step, the multipliers of the dynamics and the penalty parameter. -/
theorem C77_full_step_iff {p : ProxDDP.Params} {P : Prob nx nu N} {H : Hess nx nu N} (hL : Spec.IsLQE P H) {S : Setup}
    (hS : EqSets P S) {exact : Bool} {c1 : ℝ} {solve : SSt P → Option (Dir nx nu P.nc0)} {M : ℕ} {st : SSt P} (hmu : 0 < st.mu)
    (hw : AtWork p P S M st) :
    FullStep p P S exact H c1 solve st ↔ ∃ d, solve st = some d ∧ Solves P S exact H st d ∧
      p.dphiThresh < quad H d.dx d.du + st.preg * sq N d.dx d.du + cdir2 P st.x.x st.x.u d.dx d.du / st.mu ∧
      st.mu * (penalty N 1 (linearStep st.x (d.forced S.force) 1).lam - penalty N 1 st.x.lam) ≤
        (1 / 2 - c1) * (quad H d.dx d.du + cdir2 P st.x.x st.x.u d.dx d.du / st.mu) + (1 - c1) * (st.preg * sq N d.dx d.du) := by
  refine exists_congr fun d => and_congr_right fun _ => and_congr_right fun hs => ?_
  obtain ⟨m1, m2⟩ := C77_feasible_test hL hS hmu hw.shape.2 hw.shape.1 hs hw.start hw.ws hw.feasible c1
  rw [m2, m1, neg_lt_neg_iff]

/-- The hypotheses are met: at every state of the solver at a feasible trajectory of the problem of `SolverEqWit`, for which the
linear system has a solution. -/
example {s : SSt wit} {w a b : ℝ} (h : EqAt s w a b) (hws : s.ws = (mult wit eqSetup s.mu s.prevV s.x).1) :
    ∃ d, Solves wit eqSetup false witHess s d ∧ slope wit s (d.forced eqSetup.force) =
      -(quad witHess d.dx d.du + s.preg * sq 1 d.dx d.du + cdir2 wit s.x.x s.x.u d.dx d.du / s.mu) := by
  obtain ⟨d, hd⟩ := eqw_solvable h false
  have hF : Spec.Feasible wit s.x.x s.x.u := ⟨h.x0, fun i hi => by
    obtain rfl : i = 0 := by omega
    show s.x.x 0 = s.x.x 1
    rw [h.x0, h.x1]⟩
  exact ⟨d, hd, (C77_feasible_test wit_isLQE eqw_sets h.mu h.shapes.1 h.shapes.2 hd (wit_goodStart _ h.x0 _) hws hF 0).1⟩

end Aligator.Link
