import Verif.Model.Solver
import Verif.Spec.Solver
import Verif.Lemmas.Solver
import Verif.Props.LQSubproblem

/-!
# What a reported convergence of ProxDDP means (C56)
-/

namespace Aligator.Link

open Matrix CSets Lag LQ

variable {nx nu : ℕ → ℕ} {N : ℕ}

/-- A constraint in the form of the specification. -/
def CFun.spec {n m : ℕ} (c : CFun n m) (x : Fin n → ℝ) (u : Fin m → ℝ) : Lag.Spec.CFun n m := ⟨c.dim, c.g, c.Jx x u, c.Ju x u⟩

/-- The problem in the form of the specification, with the derivatives returned at a trajectory. -/
def Prob.spec (P : Prob nx nu N) (x : ∀ i, Fin (nx i) → ℝ) (u : ∀ i, Fin (nu i) → ℝ) : Lag.Spec.Problem nx nu N where
  nc0 := P.nc0
  h := P.h
  hx := P.hx (x 0)
  l := P.l
  lx i := P.lx i (x i) (u i)
  lu i := P.lu i (x i) (u i)
  f := P.f
  fx i := P.fx i (x i) (u i)
  fu i := P.fu i (x i) (u i)
  c i := (P.c i).map fun c => c.spec (x i) (u i)
  lN := P.lN
  lNx := P.lNx (x N)
  cN := P.cN.map fun c => c.spec (x N) 0

/-- Number of constraints of a stage. -/
def Prob.nc (P : Prob nx nu N) (i : ℕ) : ℕ := if i < N then ((P.c i).map (·.dim)).sum else (P.cN.map (·.dim)).sum

theorem ncOf_spec (P : Prob nx nu N) (x : ∀ i, Fin (nx i) → ℝ) (u : ∀ i, Fin (nu i) → ℝ) (i : ℕ) :
    ncOf (P.spec x u) i = P.nc i := by
  unfold ncOf Prob.nc
  simp only [Prob.spec, List.map_map]
  rfl

theorem compute_congr (pd : ProbData nx nu N) (l : Lams nx pd.nc0) (vs : ℕ → List ℝ)
    (c' : ∀ i, List (CstrData (nx i) (nu i))) (t' : List (CstrData (nx N) 0)) (h : pd.cstr = c') (h' : pd.termCstr = t') :
    compute pd (some l) vs = compute { pd with cstr := c', termCstr := t' } (some l) vs := by
  subst h h'
  rfl

theorem compute_spec (P : Prob nx nu N) (x : ∀ i, Fin (nx i) → ℝ) (u : ∀ i, Fin (nu i) → ℝ) (l : Lams nx P.nc0)
    (vs : ℕ → List ℝ) : compute (pdata (P.spec x u)) (some l) vs = compute (P.data x u) (some l) vs := by
  refine compute_congr (pdata (P.spec x u)) l vs (P.data x u).cstr (P.data x u).termCstr ?_ ?_
  · funext i
    simp only [pdata, Prob.spec, Prob.data, List.map_map]
    rfl
  · simp only [pdata, Prob.spec, Prob.data, List.map_map]
    rfl

theorem values_c (P : Prob nx nu N) (x : ∀ i, Fin (nx i) → ℝ) (u : ∀ i, Fin (nu i) → ℝ) (i : ℕ) :
    (P.values x u).c i = LQ.Spec.cstr (P.spec x u) x u i := by
  unfold Prob.values LQ.Spec.cstr Prob.spec Lag.Spec.stack stacked
  simp only [List.flatMap_map]
  rfl

theorem values_c_length (P : Prob nx nu N) (x : ∀ i, Fin (nx i) → ℝ) (u : ∀ i, Fin (nu i) → ℝ) (i : ℕ) :
    ((P.values x u).c i).length = P.nc i := by
  unfold Prob.values Prob.nc stacked
  dsimp only
  split <;> simp [List.length_flatMap]

/-! ### Infinity norms -/

theorem infNorm_nonneg (l : List ℝ) : 0 ≤ infNorm l := by
  unfold infNorm
  cases l with
  | nil => simp
  | cons a l => exact (abs_nonneg a).trans (le_max_left _ _)

theorem le_infNorm {l : List ℝ} {a : ℝ} (h : a ∈ l) : |a| ≤ infNorm l := by
  unfold infNorm
  induction l with
  | nil => cases h
  | cons b l ih =>
    rcases List.mem_cons.1 h with rfl | h
    · exact le_max_left _ _
    · exact (ih h).trans (le_max_right _ _)

theorem getD_le_infNorm (l : List ℝ) (k : ℕ) : |l.getD k 0| ≤ infNorm l := by
  by_cases h : k < l.length
  · rw [List.getD_eq_getElem _ _ h]
    exact le_infNorm (List.getElem_mem h)
  · rw [List.getD_eq_default _ _ (not_lt.1 h), abs_zero]
    exact infNorm_nonneg l

theorem infNorm_range {f : ℕ → ℝ} {n i : ℕ} (hi : i < n) : f i ≤ infNorm ((List.range n).map f) :=
  (le_abs_self _).trans (le_infNorm (List.mem_map.2 ⟨i, List.mem_range.2 hi, rfl⟩))

theorem ofFn_le_infNorm {n : ℕ} (v : Fin n → ℝ) (k : Fin n) : |v k| ≤ infNorm (List.ofFn v) :=
  le_infNorm (List.mem_ofFn.2 ⟨k, rfl⟩)

theorem dual_bounds {g : Grad nx nu} {sl Lv : ℕ → List ℝ} :
    (∀ i, i ≤ N → ∀ k, |g.Lxs i k| ≤ (LQ.computeCriterion N g sl Lv).dual) ∧
    ∀ i, i < N → ∀ k, |g.Lus i k| ≤ (LQ.computeCriterion N g sl Lv).dual := by
  refine ⟨fun i hi k => ?_, fun i hi k => ?_⟩
  · exact (ofFn_le_infNorm _ k).trans ((infNorm_range (f := fun i => infNorm (List.ofFn (g.Lxs i))) (by omega)).trans
      (le_max_left _ _))
  · exact (ofFn_le_infNorm _ k).trans ((infNorm_range (f := fun i => infNorm (List.ofFn (g.Lus i))) hi).trans
      (le_max_right _ _))

theorem inner_bounds {g : Grad nx nu} {sl Lv : ℕ → List ℝ} (i : ℕ) (hi : i ≤ N) :
    infNorm (Lv i) ≤ (LQ.computeCriterion N g sl Lv).inner := by
  rcases Nat.lt_or_eq_of_le hi with h | rfl
  · have := le_infNorm (List.mem_append_left (as := (List.range N).map (fun i => max
      (max (infNorm (List.ofFn (g.Lxs i))) (infNorm (List.ofFn (g.Lus i)))) (max (infNorm (sl i)) (infNorm (Lv i)))))
      [max (infNorm (List.ofFn (g.Lxs N))) (infNorm (Lv N))] (List.mem_map.2 ⟨i, List.mem_range.2 h, rfl⟩))
    exact ((le_max_right _ _).trans (le_max_right _ _)).trans ((le_abs_self _).trans this)
  · have := le_infNorm (List.mem_append_right (bs := [max (infNorm (List.ofFn (g.Lxs i))) (infNorm (Lv i))])
      ((List.range i).map (fun j => max
      (max (infNorm (List.ofFn (g.Lxs j))) (infNorm (List.ofFn (g.Lus j)))) (max (infNorm (sl j)) (infNorm (Lv j)))))
      (List.mem_singleton_self _))
    exact (le_max_right _ _).trans ((le_abs_self _).trans this)

theorem prim_bounds {inf sl : ℕ → List ℝ} (i : ℕ) (hi : i ≤ N) :
    infNorm (inf i) ≤ primInfeas N inf sl ∧ infNorm (sl i) ≤ primInfeas N inf sl :=
  ⟨(infNorm_range (f := fun i => infNorm (inf i)) (by omega)).trans (le_max_left _ _),
    (infNorm_range (f := fun i => infNorm (sl i)) (by omega)).trans (le_max_right _ _)⟩

/-- A gradient whose components are bounded pairs with every variation accordingly. -/
theorem pair_bound (g : Grad nx nu) (fixed : Prop) (eps : ℝ) (h1 : ∀ i, i ≤ N → (fixed → i ≠ 0) → ∀ k, |g.Lxs i k| ≤ eps)
    (h2 : ∀ i, i < N → ∀ k, |g.Lus i k| ≤ eps) (ex : ∀ i, Fin (nx i) → ℝ) (eu : ∀ i, Fin (nu i) → ℝ)
    (hx : fixed → ex 0 = 0) : |pair g N ex eu| ≤ eps * Spec.norm1 N ex eu := by
  have dotb : ∀ {n : ℕ} (a b : Fin n → ℝ), (∀ k, |a k| ≤ eps) → |a ⬝ᵥ b| ≤ eps * ∑ k, |b k| := by
    intro n a b h
    unfold dotProduct
    refine (Finset.abs_sum_le_sum_abs _ _).trans ?_
    rw [Finset.mul_sum]
    refine Finset.sum_le_sum fun k _ => ?_
    rw [abs_mul]
    exact mul_le_mul_of_nonneg_right (h k) (abs_nonneg _)
  unfold pair Spec.norm1
  refine (abs_add_le _ _).trans ?_
  rw [mul_add]
  refine add_le_add ((Finset.abs_sum_le_sum_abs _ _).trans ?_) ((Finset.abs_sum_le_sum_abs _ _).trans ?_)
  · rw [Finset.mul_sum]
    refine Finset.sum_le_sum fun i hi => ?_
    by_cases hf : fixed ∧ i = 0
    · obtain ⟨hf, rfl⟩ := hf
      rw [hx hf]
      simp
    · exact dotb _ _ fun k => h1 i (Nat.lt_succ_iff.1 (Finset.mem_range.1 hi)) (fun h0 h1 => hf ⟨h0, h1⟩) k
  · rw [Finset.mul_sum]
    exact Finset.sum_le_sum fun i hi => dotb _ _ fun k => h2 i (Finset.mem_range.1 hi) k

/-! ### What holds at a reported convergence -/

/-- The multiplier blocks have the sizes of the constraints. -/
def Shape (P : Prob nx nu N) (v : ℕ → List ℝ) : Prop := ∀ i, i ≤ N → (v i).length = P.nc i

theorem Shape.vShape {P : Prob nx nu N} {v : ℕ → List ℝ} (h : Shape P v) (x : ∀ i, Fin (nx i) → ℝ)
    (u : ∀ i, Fin (nu i) → ℝ) : VShape (P.spec x u) v := by
  refine ⟨fun i hi => ?_, ?_⟩
  · rw [h i hi.le, ← ncOf_spec P x u, ncOf, if_pos hi]
  · rw [h N le_rfl, ← ncOf_spec P x u, ncOf, if_neg (lt_irrefl _)]

/-- The product sets project onto sets of the right dimensions, and the buffers have these dimensions. -/
structure Setup.Fits (S : Setup) (P : Prob nx nu N) (C : ℕ → List ℝ → Prop) : Prop where
  proj : ∀ i, i ≤ N → ProjectsOnto (S.op i) (C i) (P.nc i)
  out : ∀ i, i ≤ N → (S.out i).length = P.nc i
  nc : ∀ i, i ≤ N → S.nc i = P.nc i

theorem vsPlus_length {S : Setup} {P : Prob nx nu N} {C : ℕ → List ℝ → Prop} (hS : S.Fits P C) (mu : ℝ) {v : ℕ → List ℝ}
    (hv : Shape P v) (it : Iter nx nu P.nc0) {i : ℕ} (hi : i ≤ N) :
    (((mult P S mu v it).1.ms i).vsPlus).length = P.nc i := by
  have ls : (List.zipWith (· + ·) ((P.values it.x it.u).c i) ((v i).map (mu * ·))).length = P.nc i := by
    simp [values_c_length, hv i hi]
  show (((S.op i).normalConeProjection _ (S.out i)).map _).length = _
  rw [List.length_map, (hS.proj i hi).cone _ _ _ ls (hS.out i hi) (hS.out i hi),
    sub_length (by rw [ls, (hS.proj i hi).length _ _ ls (hS.out i hi)]), ls]

theorem gradAt_eq (P : Prob nx nu N) (force : Bool) (it : Iter nx nu P.nc0) :
    (∀ i, (force = true → i ≠ 0) →
      (gradAt P force it).Lxs i = (compute (pdata (P.spec it.x it.u)) (some it.lam) it.vs).Lxs i) ∧
    (gradAt P force it).Lus = (compute (pdata (P.spec it.x it.u)) (some it.lam) it.vs).Lus := by
  rw [compute_spec]
  unfold gradAt
  cases force with
  | false => exact ⟨fun i _ => rfl, rfl⟩
  | true => exact ⟨fun i hi => Function.update_of_ne (hi rfl) _ _, rfl⟩

theorem getD_sub {a b : List ℝ} (h : a.length = b.length) (k : ℕ) :
    (CSets.Spec.sub a b).getD k 0 = a.getD k 0 - b.getD k 0 := by
  refine ind2 (P := fun a b => ∀ k, (CSets.Spec.sub a b).getD k 0 = a.getD k 0 - b.getD k 0) (by simp [CSets.Spec.sub]) ?_ h k
  intro x y l m _ ih k
  cases k with
  | zero => simp [sub_cons]
  | succ k => simpa [sub_cons] using ih k

/-- **C56** (partial)  When ProxDDP reports convergence, for every problem, sets, multiplier update mode, parameters, calling
history of the step acceptance and linear solver: at the returned trajectory and multipliers, all derivatives of the Lagrangian
are within the dual tolerance (for variations of the first state only when it is free); initial condition, dynamics and
constraints hold within the tolerance, and some `w` satisfies the sign conditions and complementarity within the tolerance.
What is missing: `w` is not the returned multiplier.  The two differ by at most the last inner criterion over the penalty
parameter, a quantity that the test of convergence does not look at. -/
theorem C56_converged_partial {p : ProxDDP.Params} (hm : 0 < p.muLb) (P : Prob nx nu N) (S : Setup) {C : ℕ → List ℝ → Prop}
    (hS : S.Fits P C)
    (orc : ProxDDP.St (Iter nx nu P.nc0) (ℕ → List ℝ) (WS nx P.nc0) → ProxDDP.StepOutcome (Iter nx nu P.nc0))
    (hne : ∀ s d a, orc s ≠ .step d [] a)
    (ho : ∀ s d l a, Shape P s.x.vs → orc s = .step d l a → ∀ t ∈ l, Shape P t.vs)
    (fuel : ℕ) (v0 : ℕ → List ℝ) (s0 s : ProxDDP.St (Iter nx nu P.nc0) (ℕ → List ℝ) (WS nx P.nc0)) (hv : Shape P v0)
    (hx : Shape P s0.x.vs) (h : ProxDDP.run p (env P S orc) fuel v0 s0 = .done true s)
    (hP : (P.spec s.x.x s.x.u).Right s.x.x s.x.u) :
    ∃ w : ℕ → List ℝ,
      Spec.ApproxStationary (P.spec s.x.x s.x.u) (S.force = true) p.targetDual s.x.lam.init s.x.lam.dyn s.x.vs s.x.x s.x.u ∧
      Spec.ApproxFeasible (P.spec s.x.x s.x.u) C P.nc p.targetTol w s.x.x s.x.u ∧
      (∀ i, i ≤ N → (w i).length = P.nc i ∧ (s.x.vs i).length = P.nc i ∧
        ∀ k, |(w i).getD k 0 - (s.x.vs i).getD k 0| ≤ s.crit / s.mu) ∧ 0 < s.mu := by
  have he : (env P S orc).Regular := ⟨fun _ _ _ => rfl, hne⟩
  obtain ⟨hsx, hmu, hcrit, v, hvs, hmult⟩ := ProxDDP.run_inv hm he (fun it : Iter nx nu P.nc0 => Shape P it.vs) (Shape P)
    ho (by
      intro mu v it hv hit
      show Shape P (nextV S it (mult P S mu v it).1)
      unfold nextV
      cases S.mode with
      | newton => exact hit
      | primal => exact fun i hi => vsPlus_length hS mu hv it hi
      | primalDual => exact fun i hi => by simp [hS.nc i hi]) hx hv h
  obtain ⟨hprim, hdual, hde⟩ := ProxDDP.C16_true_only_at_tolerances p _ fuel v0 s0 s h
  have hdual' : (LQ.computeCriterion N (gradAt P S.force s.x) (fun _ => []) fun _ => []).dual ≤ p.targetDual :=
    le_of_eq_of_le hde.symm hdual
  have hmult' : mult P S s.mu v s.x = (s.ws, some s.prim) := hmult
  have hws : s.ws = (mult P S s.mu v s.x).1 := by rw [hmult']
  have hpe : s.prim = primInfeas N (fun i => (s.ws.ms i).infeas) (slacks s.ws.V) := by
    have := congrArg Prod.snd hmult'
    rw [hws]
    exact (Option.some.inj this).symm
  refine ⟨fun i => (s.ws.ms i).vsPlus, ?_, ?_, ?_, hmu⟩
  · intro ex eu hf
    refine ⟨_, C27_lagrangian_gradient (P.spec s.x.x s.x.u) s.x.x s.x.u hP s.x.lam s.x.vs (hsx.vShape _ _) ex eu, ?_⟩
    refine pair_bound _ (S.force = true) _ ?_ ?_ ex eu hf
    · intro i hi h0 k
      rw [← (gradAt_eq P S.force s.x).1 i h0]
      exact ((dual_bounds (g := gradAt P S.force s.x) (sl := fun _ => []) (Lv := fun _ => [])).1 i hi k).trans hdual'
    · intro i hi k
      rw [← (gradAt_eq P S.force s.x).2]
      exact ((dual_bounds (g := gradAt P S.force s.x) (sl := fun _ => []) (Lv := fun _ => [])).2 i hi k).trans hdual'
  · have hV : s.ws.V = P.values s.x.x s.x.u := by rw [hws]; rfl
    refine ⟨fun k => ?_, fun i hi k => ?_, fun i hi => ?_⟩
    · have h1 := (prim_bounds (inf := fun i => (s.ws.ms i).infeas) (sl := slacks s.ws.V) 0 (Nat.zero_le N)).2
      refine le_trans ?_ (h1.trans (hpe ▸ hprim))
      rw [hV]
      exact ofFn_le_infNorm (P.h (s.x.x 0)) k
    · have h1 := (prim_bounds (inf := fun i => (s.ws.ms i).infeas) (sl := slacks s.ws.V) (i + 1) (by omega : i + 1 ≤ N)).2
      refine le_trans ?_ (h1.trans (hpe ▸ hprim))
      rw [hV]
      exact ofFn_le_infNorm (P.f i (s.x.x i) (s.x.u i) - s.x.x (i + 1)) k
    · obtain ⟨z, hz, hCz, -, -, hn, hinf, -, -⟩ := C26_multiplier_update (hS.proj i hi) s.mu hmu
        ((P.values s.x.x s.x.u).c i) (v i) (s.x.vs i) (S.out i) [] (values_c_length P _ _ i) (hvs i hi) (hsx i hi) (hS.out i hi)
      refine ⟨z, hz, fun k => ?_, ?_⟩
      · rw [← values_c, ← getD_sub (by rw [values_c_length, hz]), ← hinf]
        refine (getD_le_infNorm _ k).trans ?_
        have h1 := (prim_bounds (inf := fun i => (s.ws.ms i).infeas) (sl := slacks s.ws.V) i hi).1
        refine le_trans (le_of_eq ?_) (h1.trans (hpe ▸ hprim))
        rw [hws]
        rfl
      · rw [hws]
        exact hn
  · intro i hi
    have hl : ((s.ws.ms i).vsPlus).length = P.nc i := by rw [hws]; exact vsPlus_length hS s.mu hvs s.x hi
    refine ⟨hl, hsx i hi, fun k => ?_⟩
    rw [le_div_iff₀ hmu]
    have h1 : infNorm ((s.ws.ms i).Lvs) ≤ s.crit := by
      rw [hcrit]
      exact inner_bounds (g := gradAt P S.force s.x) (sl := slacks s.ws.V) (Lv := fun i => (s.ws.ms i).Lvs) i hi
    refine le_trans ?_ ((getD_le_infNorm _ k).trans h1)
    obtain ⟨z, hz, -, -, hmz, -⟩ := C26_multiplier_update (hS.proj i hi) s.mu hmu
        ((P.values s.x.x s.x.u).c i) (v i) (s.x.vs i) (S.out i) [] (values_c_length P _ _ i) (hvs i hi) (hsx i hi) (hS.out i hi)
    have e1 : (s.ws.ms i).Lvs = CSets.Spec.sub ((s.ws.ms i).vsPlus.map (s.mu * ·)) ((s.x.vs i).map (s.mu * ·)) := by
      rw [hws]
      show List.zipWith (· - ·) _ _ = List.zipWith (· - ·) _ _
      congr 1
      show _ = (((S.op i).normalConeProjection _ (S.out i)).map (1 / s.mu * ·)).map (s.mu * ·)
      rw [map_inv_mul s.mu hmu.ne']
    have e2 : ∀ l : List ℝ, (l.map (s.mu * ·)).getD k 0 = s.mu * l.getD k 0 := by
      intro l
      have := List.getD_map (f := (s.mu * ·)) (l := l) (n := k) (d := 0)
      simpa using this
    rw [e1, getD_sub (by simp [hl, hsx i hi]), e2, e2, ← mul_sub, abs_mul, abs_of_pos hmu, mul_comm]

theorem slice_sub_le {v w : List ℝ} {d : ℝ} (h : ∀ k, |w.getD k 0 - v.getD k 0| ≤ d) (s n : ℕ) (j : Fin n) :
    |slice w s n j - slice v s n j| ≤ d := h (s + j)

theorem cstrX_diff {n m : ℕ} {v w : List ℝ} {d : ℝ} (h : ∀ k, |w.getD k 0 - v.getD k 0| ≤ d) (hd : 0 ≤ d)
    (cs : List (CstrData n m)) (s : ℕ) (k : Fin n) :
    |cstrX w cs s k - cstrX v cs s k| ≤ (cs.map fun c => ∑ j, |c.Jx j k|).sum * d := by
  induction cs generalizing s with
  | nil => simp [cstrX]
  | cons c cs ih =>
    simp only [cstrX, Pi.add_apply, List.map_cons, List.sum_cons, add_mul]
    have e : ((c.Jxᵀ *ᵥ slice w s c.dim) k + cstrX w cs (s + c.dim) k) - ((c.Jxᵀ *ᵥ slice v s c.dim) k + cstrX v cs (s + c.dim) k) =
        (∑ j, c.Jx j k * (slice w s c.dim j - slice v s c.dim j)) + (cstrX w cs (s + c.dim) k - cstrX v cs (s + c.dim) k) := by
      simp only [mulVec, dotProduct, transpose_apply, mul_sub, Finset.sum_sub_distrib]
      ring
    rw [e]
    refine (abs_add_le _ _).trans (add_le_add ((Finset.abs_sum_le_sum_abs _ _).trans ?_) (ih _))
    rw [Finset.sum_mul]
    refine Finset.sum_le_sum fun j _ => ?_
    rw [abs_mul]
    exact mul_le_mul_of_nonneg_left (slice_sub_le h s c.dim j) (abs_nonneg _)

theorem cstrU_diff {n m : ℕ} {v w : List ℝ} {d : ℝ} (h : ∀ k, |w.getD k 0 - v.getD k 0| ≤ d) (hd : 0 ≤ d)
    (cs : List (CstrData n m)) (s : ℕ) (k : Fin m) :
    |cstrU w cs s k - cstrU v cs s k| ≤ (cs.map fun c => ∑ j, |c.Ju j k|).sum * d := by
  induction cs generalizing s with
  | nil => simp [cstrU]
  | cons c cs ih =>
    simp only [cstrU, Pi.add_apply, List.map_cons, List.sum_cons, add_mul]
    have e : ((c.Juᵀ *ᵥ slice w s c.dim) k + cstrU w cs (s + c.dim) k) - ((c.Juᵀ *ᵥ slice v s c.dim) k + cstrU v cs (s + c.dim) k) =
        (∑ j, c.Ju j k * (slice w s c.dim j - slice v s c.dim j)) + (cstrU w cs (s + c.dim) k - cstrU v cs (s + c.dim) k) := by
      simp only [mulVec, dotProduct, transpose_apply, mul_sub, Finset.sum_sub_distrib]
      ring
    rw [e]
    refine (abs_add_le _ _).trans (add_le_add ((Finset.abs_sum_le_sum_abs _ _).trans ?_) (ih _))
    rw [Finset.sum_mul]
    refine Finset.sum_le_sum fun j _ => ?_
    rw [abs_mul]
    exact mul_le_mul_of_nonneg_left (slice_sub_le h s c.dim j) (abs_nonneg _)

/-- **C56** (partial)  The returned trajectory satisfies all optimality conditions, for some multipliers, within the tolerance
for the primal conditions and, for stationarity, within the dual tolerance plus the last inner criterion over the penalty
parameter times a bound on the column sums of the constraint Jacobians.  What is missing: nothing in the test of convergence
bounds that last term, see `C56_converged_not_optimal`. -/
theorem C56_approximate_KKT_partial {p : ProxDDP.Params} (hm : 0 < p.muLb) (P : Prob nx nu N) (S : Setup) {C : ℕ → List ℝ → Prop}
    (hS : S.Fits P C)
    (orc : ProxDDP.St (Iter nx nu P.nc0) (ℕ → List ℝ) (WS nx P.nc0) → ProxDDP.StepOutcome (Iter nx nu P.nc0))
    (hne : ∀ s d a, orc s ≠ .step d [] a)
    (ho : ∀ s d l a, Shape P s.x.vs → orc s = .step d l a → ∀ t ∈ l, Shape P t.vs)
    (fuel : ℕ) (v0 : ℕ → List ℝ) (s0 s : ProxDDP.St (Iter nx nu P.nc0) (ℕ → List ℝ) (WS nx P.nc0)) (hv : Shape P v0)
    (hx : Shape P s0.x.vs) (h : ProxDDP.run p (env P S orc) fuel v0 s0 = .done true s)
    (hP : (P.spec s.x.x s.x.u).Right s.x.x s.x.u) (K : ℝ) (hK : Spec.ColumnSums (P.spec s.x.x s.x.u) K) :
    ∃ w : ℕ → List ℝ, Spec.ApproxKKT (P.spec s.x.x s.x.u) (S.force = true) C P.nc p.targetTol
      (p.targetDual + K * (s.crit / s.mu)) s.x.lam.init s.x.lam.dyn w s.x.x s.x.u := by
  obtain ⟨w, hst, hfe, hw, hmu⟩ := C56_converged_partial hm P S hS orc hne ho fuel v0 s0 s hv hx h hP
  refine ⟨w, ?_, hfe⟩
  have hd : 0 ≤ s.crit / s.mu := (abs_nonneg _).trans ((hw 0 (Nat.zero_le N)).2.2 0)
  have hws : Shape P w := fun i hi => (hw i hi).1
  have hvs : Shape P s.x.vs := fun i hi => (hw i hi).2.1
  set Q := P.spec s.x.x s.x.u with hQ
  obtain ⟨a1, a2, a3⟩ := compute_eq (pdata Q) (some s.x.lam) w
  obtain ⟨b1, b2, b3⟩ := compute_eq (pdata Q) (some s.x.lam) s.x.vs
  -- component bounds at the returned multipliers, from the derivatives along unit vectors
  have hgx : ∀ i, i ≤ N → (S.force = true → i ≠ 0) → ∀ k,
      |(compute (pdata Q) (some s.x.lam) s.x.vs).Lxs i k| ≤ p.targetDual := by
    intro i hi h0 k
    obtain ⟨D, h1, h2⟩ := hst (Function.update 0 i (Pi.single k 1)) 0 (fun hf => by
      rw [Function.update_of_ne (h0 hf).symm]; rfl)
    have h3 := (C27_lagrangian_gradient Q s.x.x s.x.u hP s.x.lam s.x.vs (hvs.vShape _ _) _ _).unique h1
    rw [← h3] at h2
    have e1 : pair (compute (pdata Q) (some s.x.lam) s.x.vs) N (Function.update 0 i (Pi.single k 1)) 0 =
        (compute (pdata Q) (some s.x.lam) s.x.vs).Lxs i k := by
      unfold pair
      rw [Finset.sum_eq_single i]
      · simp
      · intro j _ hj
        rw [Function.update_of_ne hj]; simp
      · intro hj
        exact absurd (Finset.mem_range.2 (by omega)) hj
    have e2 : Spec.norm1 (nu := nu) N (Function.update 0 i (Pi.single k 1)) 0 = 1 := by
      unfold Spec.norm1
      rw [Finset.sum_eq_single i]
      · rw [Function.update_self, Finset.sum_eq_single k]
        · simp
        · intro j _ hj
          simp [Pi.single_eq_of_ne hj]
        · simp
      · intro j _ hj
        rw [Function.update_of_ne hj]; simp
      · intro hj
        exact absurd (Finset.mem_range.2 (by omega)) hj
    rw [e1, e2, mul_one] at h2
    exact h2
  have hgu : ∀ i, i < N → ∀ k, |(compute (pdata Q) (some s.x.lam) s.x.vs).Lus i k| ≤ p.targetDual := by
    intro i hi k
    obtain ⟨D, h1, h2⟩ := hst 0 (Function.update 0 i (Pi.single k 1)) (fun _ => rfl)
    have h3 := (C27_lagrangian_gradient Q s.x.x s.x.u hP s.x.lam s.x.vs (hvs.vShape _ _) _ _).unique h1
    rw [← h3] at h2
    have e1 : pair (compute (pdata Q) (some s.x.lam) s.x.vs) N 0 (Function.update 0 i (Pi.single k 1)) =
        (compute (pdata Q) (some s.x.lam) s.x.vs).Lus i k := by
      unfold pair
      rw [Finset.sum_eq_single (s := Finset.range N) i]
      · simp
      · intro j _ hj
        rw [Function.update_of_ne hj]; simp
      · intro hj
        exact absurd (Finset.mem_range.2 (by omega)) hj
    have e2 : Spec.norm1 (nx := nx) N 0 (Function.update 0 i (Pi.single k 1)) = 1 := by
      unfold Spec.norm1
      rw [Finset.sum_eq_single (s := Finset.range N) i]
      · rw [Function.update_self, Finset.sum_eq_single (a := k)]
        · simp
        · intro j _ hj
          simp [Pi.single_eq_of_ne hj]
        · simp
      · intro j _ hj
        rw [Function.update_of_ne hj]; simp
      · intro hj
        exact absurd (Finset.mem_range.2 (by omega)) hj
    rw [e1, e2, mul_one] at h2
    exact h2
  intro ex eu hf
  refine ⟨_, C27_lagrangian_gradient Q s.x.x s.x.u hP s.x.lam w (hws.vShape _ _) ex eu,
    pair_bound _ (S.force = true) _ ?_ ?_ ex eu hf⟩
  · intro i hi h0 k
    have h1 := hgx i hi h0 k
    have h2 : |(compute (pdata Q) (some s.x.lam) w).Lxs i k - (compute (pdata Q) (some s.x.lam) s.x.vs).Lxs i k| ≤
        K * (s.crit / s.mu) := by
      rcases Nat.lt_or_eq_of_le hi with hi' | rfl
      · rw [a1 i hi', b1 i hi']
        refine le_trans (le_of_eq ?_) ((cstrX_diff (hw i hi).2.2 hd ((pdata Q).cstr i) 0 k).trans
          (mul_le_mul_of_nonneg_right ?_ hd))
        · simp only [Pi.add_apply]
          congr 1; ring
        · simp only [pdata, List.map_map]
          exact hK.x i hi' k
      · rw [a2, b2]
        refine le_trans (le_of_eq ?_) ((cstrX_diff (hw i hi).2.2 hd (pdata Q).termCstr 0 k).trans
          (mul_le_mul_of_nonneg_right ?_ hd))
        · simp only [Pi.add_apply]
          congr 1; ring
        · simp only [pdata, List.map_map]
          exact hK.term k
    have h3 := abs_add_le ((compute (pdata Q) (some s.x.lam) w).Lxs i k - (compute (pdata Q) (some s.x.lam) s.x.vs).Lxs i k)
      ((compute (pdata Q) (some s.x.lam) s.x.vs).Lxs i k)
    rw [sub_add_cancel] at h3
    linarith
  · intro i hi k
    have h1 := hgu i hi k
    have h2 : |(compute (pdata Q) (some s.x.lam) w).Lus i k - (compute (pdata Q) (some s.x.lam) s.x.vs).Lus i k| ≤
        K * (s.crit / s.mu) := by
      rw [a3 i hi, b3 i hi]
      refine le_trans (le_of_eq ?_) ((cstrU_diff (hw i hi.le).2.2 hd ((pdata Q).cstr i) 0 k).trans
        (mul_le_mul_of_nonneg_right ?_ hd))
      · simp only [Pi.add_apply]
        congr 1; ring
      · simp only [pdata, List.map_map]
        exact hK.u i hi k
    have h3 := abs_add_le ((compute (pdata Q) (some s.x.lam) w).Lus i k - (compute (pdata Q) (some s.x.lam) s.x.vs).Lus i k)
      ((compute (pdata Q) (some s.x.lam) s.x.vs).Lus i k)
    rw [sub_add_cancel] at h3
    linarith

/-- **C56** For problems with equality constraints only (every set has one element, such as the zero set or a product of zero
sets) the claim holds in full: a reported convergence is an approximate KKT point with the returned multipliers. -/
theorem C56_equality_constrained_KKT {p : ProxDDP.Params} (hm : 0 < p.muLb) (P : Prob nx nu N) (S : Setup) {C : ℕ → List ℝ → Prop}
    (hS : S.Fits P C) (hC : ∀ i, i ≤ N → ∀ z z' : List ℝ, z.length = P.nc i → z'.length = P.nc i → C i z → C i z' → z = z')
    (orc : ProxDDP.St (Iter nx nu P.nc0) (ℕ → List ℝ) (WS nx P.nc0) → ProxDDP.StepOutcome (Iter nx nu P.nc0))
    (hne : ∀ s d a, orc s ≠ .step d [] a)
    (ho : ∀ s d l a, Shape P s.x.vs → orc s = .step d l a → ∀ t ∈ l, Shape P t.vs)
    (fuel : ℕ) (v0 : ℕ → List ℝ) (s0 s : ProxDDP.St (Iter nx nu P.nc0) (ℕ → List ℝ) (WS nx P.nc0)) (hv : Shape P v0)
    (hx : Shape P s0.x.vs) (h : ProxDDP.run p (env P S orc) fuel v0 s0 = .done true s)
    (hP : (P.spec s.x.x s.x.u).Right s.x.x s.x.u) :
    Spec.ApproxKKT (P.spec s.x.x s.x.u) (S.force = true) C P.nc p.targetTol p.targetDual
      s.x.lam.init s.x.lam.dyn s.x.vs s.x.x s.x.u := by
  obtain ⟨w, hst, hfe, hw, hmu⟩ := C56_converged_partial hm P S hS orc hne ho fuel v0 s0 s hv hx h hP
  refine ⟨hst, hfe.init, hfe.dynamics, fun i hi => ?_⟩
  obtain ⟨z, hz, h1, h2⟩ := hfe.constraints i hi
  refine ⟨z, hz, h1, h2.1, fun y hy hCy => ?_⟩
  rw [hC i hi y z hy hz hCy h2.1, dot_sub_right ((hw i hi).2.1.trans hz.symm) rfl, sub_self]

/-! ### The line searches of the model meet the hypotheses -/

theorem armijo_nonempty {o : Linesearch.Options} {qr : Linesearch.Solve2} {fuel : ℕ} {phi0 dphi0 : ℝ} {phi : ℝ → ℝ}
    {r : ℝ × List ℝ} (h : armijo o qr fuel phi0 dphi0 phi = some r) : r.2 ≠ [] := by
  cases fuel with
  | zero => simp [armijo, Linesearch.armijoRun, Linesearch.armijoFirst] at h
  | succ n =>
    have key : ∀ m (s : Linesearch.ASt), s.calls ≠ [] →
        (Linesearch.armijoLoop o qr (fun a => some (.fin (phi a))) phi0 dphi0 m s).calls ≠ [] := by
      intro m
      induction m with
      | zero => intro s hs; exact hs
      | succ m ih =>
        intro s hs
        unfold Linesearch.armijoLoop
        split
        · exact hs
        · dsimp only
          split
          · exact List.cons_ne_nil _ _
          · exact ih _ (List.cons_ne_nil _ _)
    simp only [armijo, Linesearch.armijoRun, Linesearch.armijoFirst, Option.map_eq_some_iff] at h
    obtain ⟨q, hq, rfl⟩ := h
    have : q.2.2 ≠ [] := by
      split at hq
      · cases hq; simp
      · cases hq; exact key _ _ (by simp)
    simpa using this

theorem nonmonotone_nonempty {o : Linesearch.Options} {eta beta : ℝ} {fuel : ℕ} {st : Linesearch.NMSt} {phi0 dphi0 : ℝ}
    {phi : ℝ → ℝ} {r : ℝ × List ℝ} (h : nonmonotone o eta beta fuel st phi0 dphi0 phi = some r) : r.2 ≠ [] := by
  unfold nonmonotone at h
  generalize (1 : ℝ) = a at h
  cases fuel with
  | zero => simp [nmCalls] at h
  | succ n =>
    unfold nmCalls at h
    split at h
    · split at h
      · cases h; simp
      · obtain ⟨q, _, rfl⟩ := Option.map_eq_some_iff.1 h
        simp
    · cases h; simp

/-- **C24** The last trial of the nonmonotone search is the step it returns, so the trial that the solver accepts (the last one
evaluated) is the one at that step; all trials before it violate the condition, and the last one meets it or is `alpha_min` or
less. -/
theorem C24_last_trial_is_the_step {o : Linesearch.Options} {eta beta : ℝ} {fuel : ℕ} {st : Linesearch.NMSt} {phi0 dphi0 : ℝ}
    {phi : ℝ → ℝ} {a : ℝ} {calls : List ℝ} (h : nonmonotone o eta beta fuel st phi0 dphi0 phi = some (a, calls)) :
    ∃ before, calls = before ++ [a] ∧
      (∀ b ∈ before, o.alphaMin < b ∧ (st.update eta phi0).movAvg + o.armijoC1 * b * dphi0 < phi b) ∧
      (phi a ≤ (st.update eta phi0).movAvg + o.armijoC1 * a * dphi0 ∨ a = o.alphaMin) := by
  unfold nonmonotone at h
  generalize (st.update eta phi0).movAvg = M at h ⊢
  generalize (1 : ℝ) = b at h
  induction fuel generalizing b calls with
  | zero => simp [nmCalls] at h
  | succ n ih =>
    unfold nmCalls at h
    split at h
    · rename_i hb
      split at h
      · rename_i hp
        cases h
        exact ⟨[], rfl, by simp, Or.inl hp⟩
      · rename_i hp
        obtain ⟨⟨a', q⟩, hq, e⟩ := Option.map_eq_some_iff.1 h
        obtain ⟨rfl, rfl⟩ := Prod.mk.inj e
        obtain ⟨l, e, h1, h2⟩ := ih _ hq
        simp only at e
        subst e
        refine ⟨b :: l, rfl, fun c hc => ?_, h2⟩
        rcases List.mem_cons.1 hc with rfl | hc
        · exact ⟨hb, not_le.1 hp⟩
        · exact h1 c hc
    · rename_i hb
      cases h
      exact ⟨[], rfl, by simp, Or.inr (max_eq_right (not_lt.1 hb))⟩

/-- Non-vacuity: the merit is too large at 1 and small enough at 1/2. -/
example (o : Linesearch.Options) (h0 : o.armijoC1 = 0) (hm : o.alphaMin = 0.1) :
    nonmonotone o 0.5 0.5 3 Linesearch.NMSt.reset 1 (-1) (fun x => 2 * x) = some (1 * 0.5, [1, 1 * 0.5]) := by
  have e : (Linesearch.NMSt.update 0.5 Linesearch.NMSt.reset 1).movAvg = 1 := by
    norm_num [Linesearch.NMSt.reset, Linesearch.NMSt.update]
  unfold nonmonotone
  rw [e]
  norm_num [nmCalls, h0, hm]

/-- The step acceptance of the model meets the hypotheses of `C56_converged_partial` if the search evaluates the merit function
and the linear solver returns multiplier steps of the right sizes. -/
theorem oracle_fits (P : Prob nx nu N) (S : Setup)
    (search : ProxDDP.St (Iter nx nu P.nc0) (ℕ → List ℝ) (WS nx P.nc0) → Search)
    (solve : ProxDDP.St (Iter nx nu P.nc0) (ℕ → List ℝ) (WS nx P.nc0) → Option (Dir nx nu P.nc0))
    (hse : ∀ s a b f r, search s a b f = some r → r.2 ≠ []) (hso : ∀ s d, solve s = some d → Shape P d.dv) :
    (∀ s d a, oracle P S search solve s ≠ .step d [] a) ∧
    ∀ s d l a, Shape P s.x.vs → oracle P S search solve s = .step d l a → ∀ t ∈ l, Shape P t.vs := by
  constructor
  · intro s d a h
    unfold oracle at h
    split at h
    · cases h
    · dsimp only at h
      split at h
      · cases h
      · rename_i h1
        injection h with _ h2 _
        exact hse _ _ _ _ _ h1 (List.map_eq_nil_iff.1 h2)
  · intro s d l a hs h t ht
    unfold oracle at h
    split at h
    · cases h
    · rename_i dd hd
      dsimp only at h
      split at h
      · cases h
      · injection h with _ h2 _
        subst h2
        obtain ⟨b, -, rfl⟩ := List.mem_map.1 ht
        intro i hi
        have h3 : ((dd.forced S.force).dv i).length = P.nc i := by
          rw [← hso s dd hd i hi]
          unfold Dir.forced
          split <;> rfl
        simp [linearStep, hs i hi, h3]

/-- The step solves the subproblem assembled at the state of the solver (C54). -/
def Solves (P : Prob nx nu N) (S : Setup) (exact : Bool) (H : Hess nx nu N)
    (s : ProxDDP.St (Iter nx nu P.nc0) (ℕ → List ℝ) (WS nx P.nc0)) (d : Dir nx nu P.nc0) : Prop :=
  let I := inputAt (P.data s.x.x s.x.u) H (P.values s.x.x s.x.u) S.op s.mu s.preg exact S.force s.x.lam s.prevV s.x.vs S.out
  Gar.KKT (subproblem I) s.mu 0 d.dlam.init (traj I ⟨d.dx, d.du, d.dlam.init, d.dlam.dyn, d.dv⟩) ∧ Shape P d.dv

/-! ### A reported convergence far from any optimum -/

/-- Minimise `(u + 1)² / 2` subject to `x₁ = x₀`, `x₀ = 0`, `u ≤ 0`. -/
noncomputable def wit : Prob (fun _ => 1) (fun _ => 1) 1 where
  nc0 := 1
  h x := x
  hx _ := 1
  l _ _ u := 1 / 2 * (u 0 + 1) ^ 2
  lx _ _ _ := 0
  lu _ _ u _ := u 0 + 1
  f _ x _ := x
  fx _ _ _ := 1
  fu _ _ _ := 0
  c _ := [⟨1, fun _ u => u, fun _ _ => 0, fun _ _ => 1⟩]
  lN _ := 0
  lNx _ := 0
  cN := []

/-- The product set of one negative orthant. -/
noncomputable def witSet : CSet := (product [negativeOrthant] [1]).getD equality

/-- The product set without components. -/
noncomputable def noSet : CSet := (product [] []).getD equality

/-- The default options: forced initial condition, Newton update of the multipliers. -/
noncomputable def witSetup : Setup where
  op i := if i = 0 then witSet else noSet
  force := true
  mode := .newton
  out i := if i = 0 then [0] else []
  nc i := if i = 0 then 1 else 0

/-- The Hessian of the cost. -/
def witHess : Hess (fun _ => 1) (fun _ => 1) 1 := ⟨0, 0, fun _ => 1, 0, 0, 0, 0, 0⟩

/-- Start at `x = 0`, `u = 1`, multipliers zero. -/
noncomputable def witIter : Iter (fun _ => 1) (fun _ => 1) wit.nc0 where
  x _ _ := 0
  u _ _ := 1
  lam := ⟨0, fun _ => 0⟩
  vs i := if i = 0 then [0] else []

/-- The initial state of the solver. -/
noncomputable def witSt : ProxDDP.St (Iter (fun _ => 1) (fun _ => 1) wit.nc0) (ℕ → List ℝ) (WS (fun _ => 1) wit.nc0) where
  x := witIter
  trial := witIter
  prevV := witIter.vs
  ws := (mult wit witSetup 1 witIter.vs witIter).1
  mu := 0
  innerTol := 0
  primTol := 0
  preg := 0
  pregLast := 0
  prim := 0
  dual := 0
  crit := 0
  numIters := 0
  alIter := 0
  log := []

theorem witSet_cone (z o : ℝ) : witSet.normalConeProjection [z] [o] = [max z 0] := by
  simp [witSet, product, productLoop, blockStart, seg, writeSeg, negativeOrthant]

theorem noSet_cone : noSet.normalConeProjection [] [] = [] := by
  simp [noSet, product, productLoop]

theorem wit_library : Library witSet [.orth] ∧ Library noSet [] := by
  refine ⟨Library.product [(negativeOrthant, [.orth])] _ ?_ rfl, Library.product [] _ (by simp) rfl⟩
  intro c hc
  simp only [List.mem_cons, List.not_mem_nil, or_false] at hc
  subst hc
  exact .negativeOrthant 1

theorem wit_projects : ProjectsOnto witSet (CSets.Spec.Prod [(CSets.Spec.Nonpos, 1)]) 1 ∧
    ProjectsOnto noSet (CSets.Spec.Prod []) 0 := by
  refine ⟨(LibrarySet.product [(negativeOrthant, CSets.Spec.Nonpos, 1)] _ ?_ rfl).projects,
    (LibrarySet.product [] _ (by simp) rfl).projects⟩
  intro c hc
  simp only [List.mem_cons, List.not_mem_nil, or_false] at hc
  subst hc
  exact .negativeOrthant 1

/-- The constraint sets of the example. -/
def witC (i : ℕ) : List ℝ → Prop := CSets.Spec.Prod (if i = 0 then [(CSets.Spec.Nonpos, 1)] else [])

theorem wit_fits : witSetup.Fits wit witC := by
  refine ⟨fun i hi => ?_, fun i hi => ?_, fun i hi => ?_⟩
  · interval_cases i
    · exact wit_projects.1
    · exact wit_projects.2
  · interval_cases i <;> rfl
  · interval_cases i <;> rfl

/-- The solution of the subproblem at the start. -/
theorem wit_solution {s : ProxDDP.St (Iter (fun _ => 1) (fun _ => 1) wit.nc0) (ℕ → List ℝ) (WS (fun _ => 1) wit.nc0)}
    (hx : s.x = witIter)
    (hv : s.prevV = witIter.vs) (hmu : s.mu ≠ 0) {d : Dir (fun _ => 1) (fun _ => 1) wit.nc0} (exact : Bool)
    (h : Solves wit witSetup exact witHess s d) :
    ∃ a b : ℝ, d.dx 0 = 0 ∧ d.dx 1 = 0 ∧ d.dlam.dyn 0 = 0 ∧ d.du 0 = (fun _ => a) ∧ d.dv 0 = [b] ∧ d.dv 1 = [] ∧
      (1 + s.preg) * a + 2 + b = 0 ∧ a + 1 - s.mu * b = 0 := by
  obtain ⟨h, hs⟩ := h
  rw [hx, hv] at h
  have hsh : Shapes (wit.spec witIter.x witIter.u) witSetup.op (fun i => if i = 0 then [.orth] else []) witIter.vs witIter.vs
      witSetup.out d.dv (fun i => if i = 0 then [false] else []) := by
    refine ⟨fun i hi => ?_, fun i hi => ?_, fun i hi => ?_, fun i hi => ?_, fun i hi => ?_, fun i hi => ?_, fun i hi => ?_⟩
    · interval_cases i
      · exact wit_library.1
      · exact wit_library.2
    all_goals try (interval_cases i <;> rfl)
    rw [hs i hi, ncOf_spec]
  have hk := (kkt_rows (P := wit.spec witIter.x witIter.u) (s := ⟨d.dx, d.du, d.dlam.init, d.dlam.dyn, d.dv⟩) witHess s.mu s.preg exact true witIter.lam witIter.x
    witIter.u hmu hsh).1 h
  obtain ⟨h0, h1, h2, h3, h4⟩ := hk
  have ex0 : d.dx 0 = 0 := by
    have e : (1 : Matrix (Fin 1) (Fin 1) ℝ) *ᵥ d.dx 0 + (fun _ => 0) = 0 := h0
    rw [one_mulVec] at e
    exact (add_zero _).symm.trans e
  have ex1 : d.dx 1 = 0 := by
    have e : (1 : Matrix (Fin 1) (Fin 1) ℝ) *ᵥ d.dx 0 + (0 : Matrix (Fin 1) (Fin 1) ℝ) *ᵥ d.du 0 +
      ((fun _ => 0) - fun _ => 0) = d.dx 1 := h1 0 one_pos
    rw [← e, ex0]
    simp
  obtain ⟨b, hb⟩ := List.length_eq_one_iff.1 (show (d.dv 0).length = 1 from hs 0 (by omega))
  have hb1 : d.dv 1 = [] := List.length_eq_zero_iff.1 (show (d.dv 1).length = 0 from hs 1 le_rfl)
  set st : LQ.Spec.Step (fun _ => 1) (fun _ => 1) 1 := ⟨d.dx, d.du, d.dlam.init, d.dlam.dyn, d.dv⟩ with hst
  have g2 : (gradNext (wit.spec witIter.x witIter.u) witIter.lam witIter.vs st).Lxs 1 = -(0 + d.dlam.dyn 0) + (0 + 0) :=
    (compute_eq (pdata (wit.spec witIter.x witIter.u)) (some (lamsNext witIter.lam st))
      (fun i => LQ.Spec.ladd (witIter.vs i) (d.dv i))).2.1
  have g3 : (gradNext (wit.spec witIter.x witIter.u) witIter.lam witIter.vs st).Lus 0 = (fun _ => 1 + 1) +
      (0 : Matrix (Fin 1) (Fin 1) ℝ)ᵀ *ᵥ (0 + d.dlam.dyn 0) +
      ((1 : Matrix (Fin 1) (Fin 1) ℝ)ᵀ *ᵥ slice (LQ.Spec.ladd [0] (d.dv 0)) 0 1 + 0) :=
    (compute_eq (pdata (wit.spec witIter.x witIter.u)) (some (lamsNext witIter.lam st))
      (fun i => LQ.Spec.ladd (witIter.vs i) (d.dv i))).2.2 0 one_pos
  refine ⟨d.du 0 0, b, ex0, ex1, ?_, ?_, hb, hb1, ?_, ?_⟩
  · have e0 := dropped_pos (P := wit.spec witIter.x witIter.u) (op := witSetup.op) (vPrev := witIter.vs) (vs := witIter.vs)
      (out := witSetup.out) witHess s.mu s.preg exact true witIter.lam witIter.x witIter.u 1 one_ne_zero
    have e : -(0 + d.dlam.dyn 0) + (0 + 0) + (curv witHess s.preg exact).QN *ᵥ st.dx 1 = 0 := by
      rw [← g2]
      exact ((add_zero _).symm.trans (congrArg _ e0.symm)).trans h4
    have e2 : (curv witHess s.preg exact).QN *ᵥ st.dx 1 = 0 := by
      show _ *ᵥ d.dx 1 = 0
      rw [ex1]; exact mulVec_zero _
    rw [e2] at e
    simpa using e
  · funext k
    rw [Subsingleton.elim k 0]
  · have e : ((fun _ => 1 + 1 : Fin 1 → ℝ) + (0 : Matrix (Fin 1) (Fin 1) ℝ)ᵀ *ᵥ (0 + d.dlam.dyn 0) +
        ((1 : Matrix (Fin 1) (Fin 1) ℝ)ᵀ *ᵥ slice (LQ.Spec.ladd [0] (d.dv 0)) 0 1 + 0) +
        (((curv witHess s.preg exact).S 0)ᵀ *ᵥ st.dx 0 + (curv witHess s.preg exact).R 0 *ᵥ st.du 0)) 0 = 0 := by
      rw [← g3]
      exact congrFun (h3 0 one_pos).2 0
    have e2 : ((curv witHess s.preg exact).S 0)ᵀ *ᵥ st.dx 0 = 0 := by
      show _ *ᵥ d.dx 0 = 0
      rw [ex0]; exact mulVec_zero _
    have e3 : ((curv witHess s.preg exact).R 0 *ᵥ st.du 0) 0 = (1 + s.preg) * d.du 0 0 := by
      cases exact <;> simp [curv, witHess, mulVec, dotProduct, st]
    rw [e2, hb] at e
    simp only [Pi.add_apply, e3] at e
    simp [slice, LQ.Spec.ladd] at e
    linarith
  · have e1 : shiftedAt (wit.spec witIter.x witIter.u) s.mu witIter.vs witIter.x witIter.u 0 = [1 + s.mu * 0] := rfl
    have e : (if flagAt [.orth] [1 + s.mu * 0] 0 then
        ((0 : Matrix (Fin 1) (Fin 1) ℝ) *ᵥ d.dx 0 + (1 : Matrix (Fin 1) (Fin 1) ℝ) *ᵥ d.du 0) 0 else 0) +
        ((witSet.normalConeProjection [1 + s.mu * 0] [0]).getD 0 0 - s.mu * ([0] : List ℝ).getD 0 0) -
        s.mu * (d.dv 0).getD 0 0 = 0 := h2 0 (by omega) 0 (by rw [ncOf_spec]; exact one_pos)
    rw [witSet_cone, hb] at e
    simp [flagAt, Kind.flag] at e
    linarith

theorem wit_mult (mu : ℝ) (it : Iter (fun _ => 1) (fun _ => 1) wit.nc0) (vPrev : ℕ → List ℝ) (w b : ℝ)
    (hu : it.u 0 = fun _ => w) (hv0 : it.vs 0 = [b]) (hv1 : it.vs 1 = []) (hp0 : vPrev 0 = [0]) (hp1 : vPrev 1 = []) :
    (mult wit witSetup mu vPrev it).1.ms 0 =
      multiplierStep witSet mu [w] [0] [b] [0] [] ∧
    (mult wit witSetup mu vPrev it).1.ms 1 = multiplierStep noSet mu [] [] [] [] [] := by
  constructor
  · show multiplierStep witSet mu (List.ofFn (it.u 0) ++ []) (vPrev 0) (it.vs 0) [0] [] = _
    rw [hu, hv0, hp0]
    simp
  · show multiplierStep noSet mu [] (vPrev 1) (it.vs 1) [] [] = _
    rw [hv1, hp1]

theorem wit_step0 (mu w b : ℝ) : (multiplierStep witSet mu [w] [0] [b] [0] []).vsPlus = [1 / mu * max w 0] ∧
    (multiplierStep witSet mu [w] [0] [b] [0] []).Lvs = [max w 0 - mu * b] ∧
    (multiplierStep witSet mu [w] [0] [b] [0] []).infeas = [mu * (1 / mu * max w 0 - 0)] := by
  simp [multiplierStep, witSet_cone]

theorem wit_step1 (mu : ℝ) : (multiplierStep noSet mu [] [] [] [] []).vsPlus = [] ∧
    (multiplierStep noSet mu [] [] [] [] []).Lvs = [] ∧ (multiplierStep noSet mu [] [] [] [] []).infeas = [] := by
  simp [multiplierStep, noSet_cone]

theorem wit_eval (mu : ℝ) (hmu : 0 < mu) (it : Iter (fun _ => 1) (fun _ => 1) wit.nc0) (vPrev : ℕ → List ℝ) (w b : ℝ)
    (hx0 : it.x 0 = 0) (hx1 : it.x 1 = 0) (hu : it.u 0 = fun _ => w) (hl0 : it.lam.init = 0) (hl : it.lam.dyn 0 = 0)
    (hv0 : it.vs 0 = [b]) (hv1 : it.vs 1 = []) (hp0 : vPrev 0 = [0]) (hp1 : vPrev 1 = []) (orc) :
    (mult wit witSetup mu vPrev it).2 = some (max w 0) ∧
    (env wit witSetup orc).dualInf it = |w + 1 + b| ∧
    (env wit witSetup orc).innerCrit it (mult wit witSetup mu vPrev it).1 = max |w + 1 + b| |max w 0 - mu * b| ∧
    merit wit witSetup mu vPrev it = 1 / 2 * (w + 1) ^ 2 + 1 / 2 * (mu * ((1 / mu * max w 0) * (1 / mu * max w 0))) := by
  obtain ⟨m0, m1⟩ := wit_mult mu it vPrev w b hu hv0 hv1 hp0 hp1
  obtain ⟨s1, s2, s3⟩ := wit_step0 mu w b
  obtain ⟨t1, t2, t3⟩ := wit_step1 mu
  have hsl0 : slacks (mult wit witSetup mu vPrev it).1.V 0 = [0] := by
    show List.ofFn (it.x 0) = _
    rw [hx0]; simp
  have hsl1 : slacks (mult wit witSetup mu vPrev it).1.V 1 = [0] := by
    show List.ofFn (it.x 0 - it.x 1) = _
    rw [hx0, hx1]; simp
  obtain ⟨g1, g2, g3⟩ := compute_eq (wit.data it.x it.u) (some it.lam) it.vs
  have gx0 : (gradAt wit true it).Lxs 0 = 0 := by simp [gradAt, Grad.setX]
  have gx1 : (gradAt wit true it).Lxs 1 = 0 := by
    have e : (gradAt wit true it).Lxs 1 = -it.lam.dyn 0 + (0 + 0) := g2
    rw [e, hl]; simp
  have gu0 : (gradAt wit true it).Lus 0 = fun _ => w + 1 + b := by
    have e : (gradAt wit true it).Lus 0 = (fun _ => it.u 0 0 + 1) + (0 : Matrix (Fin 1) (Fin 1) ℝ)ᵀ *ᵥ it.lam.dyn 0 +
      ((1 : Matrix (Fin 1) (Fin 1) ℝ)ᵀ *ᵥ slice (it.vs 0) 0 1 + 0) := g3 0 one_pos
    rw [e, hu, hv0]
    funext k
    rw [Subsingleton.elim k 0]
    simp [slice]
  have hw : 0 ≤ max w 0 := le_max_right _ _
  refine ⟨?_, ?_, ?_, ?_⟩
  · show some (primInfeas 1 (fun i => ((mult wit witSetup mu vPrev it).1.ms i).infeas)
      (slacks (mult wit witSetup mu vPrev it).1.V)) = _
    congr 1
    simp only [primInfeas, List.range_succ, List.range_zero, List.nil_append, List.map_append, List.map_cons, List.map_nil,
      List.cons_append, hsl0, hsl1, m0, m1, s3, t3, infNorm, List.foldr_cons, List.foldr_nil, zero_add]
    rw [show mu * (1 / mu * max w 0 - 0) = max w 0 by field_simp; ring]
    simp [abs_of_nonneg hw]
  · show (LQ.computeCriterion 1 (gradAt wit true it) (fun _ => []) fun _ => []).dual = _
    simp [LQ.computeCriterion, List.range_succ, gx0, gx1, gu0, infNorm]
  · show (LQ.computeCriterion 1 (gradAt wit true it) (slacks (mult wit witSetup mu vPrev it).1.V)
      fun i => ((mult wit witSetup mu vPrev it).1.ms i).Lvs).inner = _
    simp only [LQ.computeCriterion, List.range_succ, List.range_zero, List.nil_append, List.map_append, List.map_cons, List.map_nil,
      List.cons_append, gx0, gx1, gu0, hsl0, m0, m1, s2, t2, infNorm, List.foldr_cons, List.foldr_nil]
    simp
  · unfold merit
    simp only [meritEvaluate, m0, m1, s1, t1, List.range_succ, List.range_zero, List.nil_append, List.foldl_cons, List.foldl_nil]
    have e1 : (lamsPlus mu (0.1 * mu) it.lam (mult wit witSetup mu vPrev it).1.V).init = 0 := by
      funext k
      show it.lam.init k + it.x 0 k / mu = 0
      rw [hl0, hx0]
      show (0 : ℝ) + 0 / mu = 0
      simp
    have e2 : (lamsPlus mu (0.1 * mu) it.lam (mult wit witSetup mu vPrev it).1.V).dyn 0 = 0 := by
      funext k
      show it.lam.dyn 0 k + (it.x 0 - it.x 1) k / (0.1 * mu) = 0
      rw [hl, hx0, hx1]; simp
    have e3 : (mult wit witSetup mu vPrev it).1.V.cost = 1 / 2 * (w + 1) ^ 2 := by
      show 0 + 1 / 2 * (it.u 0 0 + 1) ^ 2 + 0 = _
      rw [hu]; ring
    rw [e1, e2, e3]
    simp [sqNorm]

/-- A line search that takes the full step under the Armijo condition with the default constant. -/
def TakesFullStep (search : Search) : Prop :=
  ∀ (phi0 dphi0 : ℝ) (phi : ℝ → ℝ), dphi0 ≤ -1 → phi 1 ≤ phi0 + 1e-4 * dphi0 → search phi0 dphi0 phi = some (1, [1])

/-- The default options of the line searches (core/linesearch-base.hpp:14-22). -/
noncomputable def defaultOptions : Linesearch.Options where
  armijoC1 := 1e-4
  dphiThresh := 1e-13
  alphaMin := 1e-6
  maxNumSteps := 20
  interp := .cubic
  contractionMin := 0.5
  contractionMax := 0.8

theorem armijo_fullStep (qr : Linesearch.Solve2) (fuel : ℕ) (hf : 0 < fuel) : TakesFullStep (armijo defaultOptions qr fuel) := by
  intro phi0 dphi0 phi h1 h2
  obtain ⟨n, rfl⟩ : ∃ n, fuel = n + 1 := ⟨fuel - 1, by omega⟩
  unfold armijo Linesearch.armijoRun Linesearch.armijoFirst
  dsimp only
  rw [if_neg, show defaultOptions.maxNumSteps = 19 + 1 from rfl, Linesearch.armijoLoop, if_pos]
  · simp only [Option.map_some, List.reverse_cons, List.reverse_nil, List.nil_append]
    rw [max_eq_left (by norm_num [defaultOptions])]
  · show phi 1 + -phi0 ≤ 1e-4 * 1 * dphi0
    linarith
  · show ¬ |dphi0| < 1e-13
    rw [abs_of_neg (by linarith)]
    norm_num
    linarith

theorem nonmonotone_fullStep (eta beta : ℝ) (fuel : ℕ) (hf : 0 < fuel) :
    TakesFullStep (nonmonotone defaultOptions eta beta fuel .reset) := by
  intro phi0 dphi0 phi h1 h2
  obtain ⟨n, rfl⟩ : ∃ n, fuel = n + 1 := ⟨fuel - 1, by omega⟩
  unfold nonmonotone nmCalls
  rw [if_pos (by norm_num [defaultOptions]), if_pos]
  have : (Linesearch.NMSt.reset.update eta phi0).movAvg = phi0 := by
    simp [Linesearch.NMSt.reset, Linesearch.NMSt.update]
  rw [this]
  show phi 1 ≤ phi0 + 1e-4 * 1 * dphi0
  linarith

theorem wit_run (search : ProxDDP.St (Iter (fun _ => 1) (fun _ => 1) wit.nc0) (ℕ → List ℝ) (WS (fun _ => 1) wit.nc0) → Search)
    (hse : ∀ s, TakesFullStep (search s)) (exact : Bool)
    (solve : ProxDDP.St (Iter (fun _ => 1) (fun _ => 1) wit.nc0) (ℕ → List ℝ) (WS (fun _ => 1) wit.nc0) →
      Option (Dir (fun _ => 1) (fun _ => 1) wit.nc0))
    (hso : ∀ s d, solve s = some d → Solves wit witSetup exact witHess s d)
    (hdef : ∀ s, s.x = witIter → s.prevV = witIter.vs → s.mu = 0.01 → s.preg = 1e-9 → solve s ≠ none)
    (fuel : ℕ) (hf : 0 < fuel) :
    ∃ s, ProxDDP.run ProxDDP.defaultParams (env wit witSetup (oracle wit witSetup search solve)) fuel witIter.vs witSt =
      .done true s ∧ s.numIters = 1 ∧ s.x.x 0 = 0 ∧ s.x.x 1 = 0 ∧ ∃ w, s.x.u 0 = (fun _ => w) ∧ -0.01 ≤ w ∧ w ≤ 0 := by
  set e := env wit witSetup (oracle wit witSetup search solve) with he
  set s := ProxDDP.initRun ProxDDP.defaultParams witIter.vs witSt with hs
  have f4 : s.numIters = 0 := rfl
  have hx : s.x = witIter := rfl
  have hpv : s.prevV = witIter.vs := rfl
  have hmu : s.mu = 0.01 := by
    show max (0.01:ℝ) 1e-8 = 0.01
    norm_num
  have f5 : s.innerTol = 0.01 := by
    show max ((1:ℝ) * (min s.mu 0.99) ^ (1:ℝ)) 1e-6 = 0.01
    rw [hmu, Real.rpow_one]
    norm_num
  have f6 : (1e-6 : ℝ) ≤ s.primTol := le_max_right _ _
  have f7 : s.pregLast = 0 := rfl
  -- the start
  obtain ⟨v1, v2, v3, v4⟩ := wit_eval 0.01 (by norm_num) witIter witIter.vs 1 0 rfl rfl rfl rfl rfl rfl rfl rfl rfl
    (oracle wit witSetup search solve)
  obtain ⟨m0, m1⟩ := wit_mult 0.01 witIter witIter.vs 1 0 rfl rfl rfl rfl rfl
  set s0 : ProxDDP.St (Iter (fun _ => 1) (fun _ => 1) wit.nc0) (ℕ → List ℝ) (WS (fun _ => 1) wit.nc0) :=
    { s.push false with ws := (mult wit witSetup 0.01 witIter.vs witIter).1, prim := 1 } with hs0
  have hcm : ProxDDP.computeMultipliers e s.x (s.push false) = s0 := by
    have h1 : e.mult (s.push false).mu (s.push false).prevV s.x = ((mult wit witSetup 0.01 witIter.vs witIter).1, some 1) := by
      show mult wit witSetup s.mu s.prevV s.x = _
      rw [hmu, hpv, hx]
      refine Prod.ext rfl ?_
      rw [v1]
      norm_num
    unfold ProxDDP.computeMultipliers
    rw [h1]
  set s1 := (ProxDDP.initializeRegularization ProxDDP.defaultParams (ProxDDP.computeCriterion e s0)).push true with hs1
  have hreg : ProxDDP.initializeRegularization ProxDDP.defaultParams (ProxDDP.computeCriterion e s0) =
      { ProxDDP.computeCriterion e s0 with preg := 1e-9 } := by
    unfold ProxDDP.initializeRegularization
    rw [if_pos (show (ProxDDP.computeCriterion e s0).pregLast = 0 from f7)]
    congr 1
    show max (1e-9 : ℝ) 1e-10 = 1e-9
    norm_num
  have g1 : s1.x = witIter := by rw [hs1, hreg]; rfl
  have g2 : s1.prevV = witIter.vs := by rw [hs1, hreg]; rfl
  have g3 : s1.mu = 0.01 := by rw [hs1, hreg]; exact hmu
  have g4 : s1.preg = 1e-9 := by rw [hs1, hreg]; rfl
  have g5 : s1.ws = (mult wit witSetup 0.01 witIter.vs witIter).1 := by rw [hs1, hreg]; rfl
  obtain ⟨d, hd⟩ := Option.ne_none_iff_exists'.1 (hdef s1 g1 g2 g3 g4)
  obtain ⟨a, b, d1, d2, d3, d4, d5, d6, d7, d8⟩ := wit_solution g1 g2 (by rw [g3]; norm_num) exact (hso s1 d hd)
  rw [g4] at d7
  rw [g3] at d8
  have ha1 : a ≤ -1.0099 := by norm_num at d7 d8 ⊢; linarith
  have ha2 : -1.01 ≤ a := by norm_num at d7 d8 ⊢; linarith
  have hb1 : b ≤ -0.99 := by norm_num at d7 d8 ⊢; linarith
  have hb2 : -1 ≤ b := by norm_num at d7 d8 ⊢; linarith
  -- the next iterate
  set nxt := linearStep witIter (d.forced true) 1 with hnxt
  have x0 : nxt.x 0 = 0 := by
    show (fun _ => 0) + (1 : ℝ) • Function.update d.dx 0 0 0 = 0
    rw [Function.update_self]; simp; rfl
  have x1 : nxt.x 1 = 0 := by
    show (fun _ => 0) + (1 : ℝ) • Function.update d.dx 0 0 1 = 0
    rw [Function.update_of_ne one_ne_zero, d2]; simp; rfl
  have u0 : nxt.u 0 = fun _ => 1 + a := by
    show (fun _ => 1) + (1 : ℝ) • d.du 0 = _
    rw [d4]; funext k; simp
  have l0 : nxt.lam.init = 0 := by
    show 0 + (1 : ℝ) • (0 : Fin wit.nc0 → ℝ) = 0
    simp
  have l1 : nxt.lam.dyn 0 = 0 := by
    show 0 + (1 : ℝ) • d.dlam.dyn 0 = 0
    rw [d3]; simp
  have w0 : nxt.vs 0 = [b] := by
    show List.zipWith (· + ·) [0] ((d.dv 0).map ((1 : ℝ) * ·)) = _
    rw [d5]; simp
  have w1 : nxt.vs 1 = [] := by
    show List.zipWith (· + ·) [] ((d.dv 1).map ((1 : ℝ) * ·)) = _
    simp
  obtain ⟨n1, n2, n3, n4⟩ := wit_eval 0.01 (by norm_num) nxt witIter.vs (1 + a) b x0 x1 u0 l0 l1 w0 w1 rfl rfl
    (oracle wit witSetup search solve)
  have hmax : max (1 + a) 0 = 0 := max_eq_right (by norm_num at ha1 ⊢; linarith)
  have hdual : |1 + a + 1 + b| ≤ 1e-6 := by
    rw [abs_le]
    constructor <;> norm_num at * <;> linarith
  have hdphi : directionalDerivative (wit.data s1.x.x s1.x.u) (lamsPlus s1.mu (0.1 * s1.mu) s1.x.lam s1.ws.V)
      (fun i => (s1.ws.ms i).vsPlus) (d.forced true).dx (d.forced true).du = 102 * a := by
    rw [g1, g3, g5]
    set lp := lamsPlus (0.01 : ℝ) (0.1 * 0.01) witIter.lam (mult wit witSetup 0.01 witIter.vs witIter).1.V with hlp
    set vp := fun i => ((mult wit witSetup 0.01 witIter.vs witIter).1.ms i).vsPlus with hvp
    have k3 := (compute_eq (wit.data witIter.x witIter.u) (some lp) vp).2.2 0 one_pos
    have e0 : (compute (wit.data witIter.x witIter.u) (some lp) vp).Lus 0 = (fun _ => 1 + 1 : Fin 1 → ℝ) +
        (0 : Matrix (Fin 1) (Fin 1) ℝ)ᵀ *ᵥ lp.dyn 0 + ((1 : Matrix (Fin 1) (Fin 1) ℝ)ᵀ *ᵥ slice (vp 0) 0 1 + 0) := k3
    have e1 : vp 0 = [1 / 0.01 * max 1 0] := by
      show ((mult wit witSetup 0.01 witIter.vs witIter).1.ms 0).vsPlus = _
      rw [m0, (wit_step0 0.01 1 0).1]
    have e2 : (d.forced true).dx 0 = 0 := by
      show Function.update d.dx 0 0 0 = 0
      rw [Function.update_self]
    have e3 : (d.forced true).dx 1 = 0 := by
      show Function.update d.dx 0 0 1 = 0
      rw [Function.update_of_ne one_ne_zero, d2]
    have e4 : (d.forced true).du 0 = fun _ => a := d4
    show (compute (wit.data witIter.x witIter.u) (some lp) vp).Lxs 0 ⬝ᵥ (d.forced true).dx 0 +
      (compute (wit.data witIter.x witIter.u) (some lp) vp).Lxs 1 ⬝ᵥ (d.forced true).dx 1 +
      (compute (wit.data witIter.x witIter.u) (some lp) vp).Lus 0 ⬝ᵥ (d.forced true).du 0 = _
    rw [e2, e3, e4, e0, e1, dotProduct_zero, dotProduct_zero]
    simp [slice, dotProduct]
    norm_num
  have horc : e.oracle s1 = .step (102 * a) [nxt] 1 := by
    show oracle wit witSetup search solve s1 = _
    unfold oracle
    rw [hd]
    dsimp only
    rw [show witSetup.force = true from rfl, hdphi, g1, g2, g3]
    rw [hse s1 _ _ _ (by norm_num at ha1 ⊢; linarith)]
    · rfl
    · show merit wit witSetup 0.01 witIter.vs nxt ≤ _
      rw [n4, v4, hmax]
      norm_num
      nlinarith
  have hin : ∃ s3, ProxDDP.innerLoop ProxDDP.defaultParams e s = .done true s3 ∧ s3.x = nxt ∧ s3.numIters = 1 ∧
      s3.prim = 0 ∧ s3.dual ≤ 1e-6 ∧ 0.009 ≤ s3.crit ∧ s3.innerTol = 0.01 ∧ s3.primTol = s.primTol ∧ s3.mu = 0.01 := by
    unfold ProxDDP.innerLoop
    dsimp only
    rw [hcm, show ProxDDP.defaultParams.maxIters - s0.numIters = 999 + 1 from rfl, ProxDDP.innerIter]
    dsimp only
    rw [if_neg]
    · rw [← hs1, horc]
      dsimp only
      rw [if_neg, if_neg, show 999 = 998 + 1 from rfl, ProxDDP.innerIter]
      · have hfw : ProxDDP.forwardPass e s1 nxt =
            { s1 with trial := nxt, ws := (mult wit witSetup 0.01 witIter.vs nxt).1, prim := 0 } := by
          have h1 : e.mult s1.mu s1.prevV nxt = ((mult wit witSetup 0.01 witIter.vs nxt).1, some 0) := by
            show mult wit witSetup s1.mu s1.prevV nxt = _
            rw [g3, g2]
            refine Prod.ext rfl ?_
            rw [n1, hmax]
          unfold ProxDDP.forwardPass ProxDDP.computeMultipliers
          dsimp only
          rw [h1]
        simp only [List.foldl_cons, List.foldl_nil, hfw]
        rw [if_pos]
        · refine ⟨_, rfl, rfl, ?_, rfl, ?_, ?_, ?_, ?_, g3⟩
          · show s1.numIters + 1 = 1
            rw [hs1, hreg]; rfl
          · show e.dualInf nxt ≤ 1e-6
            rw [n2]; exact hdual
          · show 0.009 ≤ e.innerCrit nxt (mult wit witSetup 0.01 witIter.vs nxt).1
            rw [n3]
            refine le_trans ?_ (le_max_right _ _)
            rw [hmax]
            refine le_trans ?_ (le_abs_self _)
            norm_num at hb1 ⊢
            linarith
          · show s1.innerTol = 0.01
            rw [hs1, hreg]; exact f5
          · show s1.primTol = s.primTol
            rw [hs1, hreg]; rfl
        · right
          constructor
          · show e.dualInf nxt ≤ 1e-6
            rw [n2]; exact hdual
          · show (0 : ℝ) ≤ 1e-6
            norm_num
      · show ¬ (1 : ℝ) ≤ 1e-6
        norm_num
      · show ¬ |102 * a| ≤ 1e-13
        rw [abs_of_neg (by norm_num at ha1 ⊢; linarith)]
        norm_num at ha1 ⊢
        linarith
    · rintro (h | h)
      · have h2 : e.innerCrit witIter (mult wit witSetup 0.01 witIter.vs witIter).1 ≤ s.innerTol := h
        rw [f5, v3] at h2
        have := (le_max_left _ _).trans h2
        norm_num at this
      · have : (1 : ℝ) ≤ 1e-6 := h.2
        norm_num at this
  obtain ⟨s3, h1, hx1, hn1, hp1, hd1, hc1, hi1, ht1, hm1⟩ := hin
  obtain ⟨n, rfl⟩ : ∃ n, fuel = n + 1 := ⟨fuel - 1, by omega⟩
  unfold ProxDDP.run
  rw [show ProxDDP.defaultParams.maxAlIters = 99 + 1 from rfl, ProxDDP.outer,
    if_pos (by rw [← hs, f4]; show 0 < 1000; omega), ← hs, h1]
  dsimp only
  rw [if_pos (by rw [hp1, ht1]; refine le_trans ?_ f6; norm_num), ProxDDP.tighten]
  rw [if_neg]
  · dsimp only
    rw [if_pos]
    · refine ⟨_, rfl, hn1, ?_, ?_, 1 + a, ?_, ?_, ?_⟩
      · show s3.x.x 0 = 0
        rw [hx1]; exact x0
      · show s3.x.x 1 = 0
        rw [hx1]; exact x1
      · show s3.x.u 0 = _
        rw [hx1]; exact u0
      · norm_num at ha2 ⊢; linarith
      · norm_num at ha1 ⊢; linarith
    · constructor
      · exact hd1
      · show s3.prim ≤ 1e-6
        rw [hp1]; norm_num
  · show ¬ s3.crit < s3.innerTol * (min s3.mu 0.99) ^ (1:ℝ)
    rw [hi1, hm1, Real.rpow_one]
    norm_num at hc1 ⊢
    linarith

/-- The derivatives of the example are right. -/
theorem wit_right (x : ∀ i, Fin ((fun _ => 1 : ℕ → ℕ) i) → ℝ) (u : ∀ i, Fin ((fun _ => 1 : ℕ → ℕ) i) → ℝ) :
    (wit.spec x u).Right x u := by
  have lin : ∀ (a b : Fin 1 → ℝ), HasDerivAt (fun t : ℝ => a + t • b) b 0 := by
    intro a b
    simpa using ((hasDerivAt_id (0 : ℝ)).smul_const b).const_add a
  refine ⟨fun dx => ?_, fun i hi dx du => ?_, fun i hi dx du => ?_, fun i hi c hc dx du => ?_, fun dx => ?_, fun c hc => ?_⟩
  · show HasDerivAt (fun t : ℝ => x 0 + t • dx) ((1 : Matrix (Fin 1) (Fin 1) ℝ) *ᵥ dx) 0
    rw [one_mulVec]
    exact lin _ _
  · show HasDerivAt (fun t : ℝ => 1 / 2 * ((u i + t • du) 0 + 1) ^ 2) ((0 : Fin 1 → ℝ) ⬝ᵥ dx + (fun _ => u i 0 + 1 : Fin 1 → ℝ) ⬝ᵥ du) 0
    have h1 : HasDerivAt (fun t : ℝ => (u i + t • du) 0) (du 0) 0 := hasDerivAt_pi.1 (lin (u i) du) 0
    refine (((h1.add_const 1).pow 2).const_mul (1 / 2)).congr_deriv ?_
    simp [dotProduct]
    ring
  · show HasDerivAt (fun t : ℝ => x i + t • dx) ((1 : Matrix (Fin 1) (Fin 1) ℝ) *ᵥ dx + (0 : Matrix (Fin 1) (Fin 1) ℝ) *ᵥ du) 0
    rw [one_mulVec, zero_mulVec, add_zero]
    exact lin _ _
  · have hc' : c = CFun.spec ⟨1, fun _ u => u, fun _ _ => 0, fun _ _ => 1⟩ (x i) (u i) := List.mem_singleton.1 hc
    subst hc'
    show HasDerivAt (fun t : ℝ => u i + t • du) ((0 : Matrix (Fin 1) (Fin 1) ℝ) *ᵥ dx + (1 : Matrix (Fin 1) (Fin 1) ℝ) *ᵥ du) 0
    rw [one_mulVec, zero_mulVec, zero_add]
    exact lin _ _
  · show HasDerivAt (fun _ : ℝ => (0 : ℝ)) ((0 : Fin 1 → ℝ) ⬝ᵥ dx) 0
    rw [zero_dotProduct]
    exact hasDerivAt_const _ _
  · exact absurd hc (List.not_mem_nil)

/-- The subproblem at the start has a solution. -/
theorem wit_solvable {s : ProxDDP.St (Iter (fun _ => 1) (fun _ => 1) wit.nc0) (ℕ → List ℝ) (WS (fun _ => 1) wit.nc0)}
    (hx : s.x = witIter) (hv : s.prevV = witIter.vs) (hmu : 0 < s.mu) (hp : 0 ≤ s.preg) (exact : Bool) :
    ∃ d, Solves wit witSetup exact witHess s d := by
  have hne : (1 + s.preg) * s.mu + 1 ≠ 0 := by positivity
  set a := -(2 * s.mu + 1) / ((1 + s.preg) * s.mu + 1) with ha
  have ha' : a * ((1 + s.preg) * s.mu + 1) = -(2 * s.mu + 1) := div_mul_cancel₀ _ hne
  set b := (a + 1) / s.mu with hb
  have hb' : b * s.mu = a + 1 := div_mul_cancel₀ _ hmu.ne'
  have hab : (1 + s.preg) * a + 2 + b = 0 := by
    have : s.mu * ((1 + s.preg) * a + 2 + b) = 0 := by linarith
    exact (mul_eq_zero.1 this).resolve_left hmu.ne'
  let dv : ℕ → List ℝ := fun i => if i = 0 then [b] else []
  have hs : Shape wit dv := by
    intro i hi
    interval_cases i <;> rfl
  refine ⟨⟨fun _ => 0, fun _ _ => a, ⟨0, fun _ => 0⟩, dv⟩, ?_, hs⟩
  rw [hx, hv]
  have hsh : Shapes (wit.spec witIter.x witIter.u) witSetup.op (fun i => if i = 0 then [.orth] else []) witIter.vs witIter.vs
      witSetup.out dv (fun i => if i = 0 then [false] else []) := by
    refine ⟨fun i hi => ?_, fun i hi => ?_, fun i hi => ?_, fun i hi => ?_, fun i hi => ?_, fun i hi => ?_, fun i hi => ?_⟩
    · interval_cases i
      · exact wit_library.1
      · exact wit_library.2
    all_goals (interval_cases i <;> rfl)
  set st : LQ.Spec.Step (fun _ => 1) (fun _ => 1) 1 := ⟨fun _ => 0, fun _ _ => a, 0, fun _ => 0, dv⟩ with hst
  have gg := compute_eq (pdata (wit.spec witIter.x witIter.u)) (some (lamsNext witIter.lam st))
      (fun i => LQ.Spec.ladd (witIter.vs i) (dv i))
  have g1 : (gradNext (wit.spec witIter.x witIter.u) witIter.lam witIter.vs st).Lxs 0 =
      (1 : Matrix (Fin 1) (Fin 1) ℝ)ᵀ *ᵥ ((0 : Fin 1 → ℝ) + 0) + (0 + (1 : Matrix (Fin 1) (Fin 1) ℝ)ᵀ *ᵥ ((0 : Fin 1 → ℝ) + 0) +
        ((0 : Matrix (Fin 1) (Fin 1) ℝ)ᵀ *ᵥ slice (LQ.Spec.ladd [0] [b]) 0 1 + 0)) := gg.1 0 one_pos
  have g2 : (gradNext (wit.spec witIter.x witIter.u) witIter.lam witIter.vs st).Lxs 1 = -((0 : Fin 1 → ℝ) + 0) + (0 + 0) :=
    gg.2.1
  have g3 : (gradNext (wit.spec witIter.x witIter.u) witIter.lam witIter.vs st).Lus 0 = (fun _ => 1 + 1) +
      (0 : Matrix (Fin 1) (Fin 1) ℝ)ᵀ *ᵥ ((0 : Fin 1 → ℝ) + 0) +
      ((1 : Matrix (Fin 1) (Fin 1) ℝ)ᵀ *ᵥ slice (LQ.Spec.ladd [0] [b]) 0 1 + 0) := gg.2.2 0 one_pos
  have n0 := (compute_eq (pdata (wit.spec witIter.x witIter.u)) (some witIter.lam) witIter.vs).1 0 one_pos
  have d0 : dropped (wit.spec witIter.x witIter.u) witHess witSetup.op s.mu s.preg exact true witIter.lam witIter.vs witIter.vs
      witSetup.out witIter.x witIter.u 0 = 0 := by
    have e : (gradNow (wit.spec witIter.x witIter.u) witIter.lam witIter.vs).Lxs 0 =
      (1 : Matrix (Fin 1) (Fin 1) ℝ)ᵀ *ᵥ (0 : Fin 1 → ℝ) + (0 + (1 : Matrix (Fin 1) (Fin 1) ℝ)ᵀ *ᵥ (0 : Fin 1 → ℝ) +
        ((0 : Matrix (Fin 1) (Fin 1) ℝ)ᵀ *ᵥ slice [0] 0 1 + 0)) := n0
    unfold dropped
    rw [e]
    show (0 : Fin 1 → ℝ) - _ = 0
    simp
  refine (kkt_rows (P := wit.spec witIter.x witIter.u) (s := st) witHess s.mu s.preg exact true witIter.lam witIter.x
    witIter.u hmu.ne' hsh).2 ⟨?_, ?_, ?_, ?_, ?_⟩
  · have e : (1 : Matrix (Fin 1) (Fin 1) ℝ) *ᵥ (0 : Fin 1 → ℝ) + (fun _ => 0 : Fin 1 → ℝ) = 0 := by
      rw [mulVec_zero]; exact add_zero _
    exact e
  · intro i hi
    obtain rfl : i = 0 := by omega
    show (1 : Matrix (Fin 1) (Fin 1) ℝ) *ᵥ (0 : Fin 1 → ℝ) + (0 : Matrix (Fin 1) (Fin 1) ℝ) *ᵥ (fun _ => a : Fin 1 → ℝ) +
      ((fun _ => 0 : Fin 1 → ℝ) - fun _ => 0) = 0
    simp
  · intro i hi k hk
    rw [ncOf_spec] at hk
    interval_cases i
    · have hk' : k < 1 := hk
      interval_cases k
      show (if flagAt [.orth] [1 + s.mu * 0] 0 then
        ((0 : Matrix (Fin 1) (Fin 1) ℝ) *ᵥ (0 : Fin 1 → ℝ) + (1 : Matrix (Fin 1) (Fin 1) ℝ) *ᵥ (fun _ => a : Fin 1 → ℝ)) 0 else 0) +
        ((witSet.normalConeProjection [1 + s.mu * 0] [0]).getD 0 0 - s.mu * ([0] : List ℝ).getD 0 0) -
        s.mu * ([b] : List ℝ).getD 0 0 = 0
      rw [witSet_cone]
      simp [flagAt, Kind.flag]
      linarith
    · exact absurd hk (Nat.not_lt_zero k)
  · intro i hi
    obtain rfl : i = 0 := by omega
    constructor
    · rw [d0]
      unfold rX
      rw [g1]
      show _ + ((curv witHess s.preg exact).Q 0 *ᵥ (0 : Fin 1 → ℝ) + (curv witHess s.preg exact).S 0 *ᵥ (fun _ => a : Fin 1 → ℝ)) + _ = 0
      cases exact <;> simp [curv, witHess]
    · unfold rU
      rw [g3]
      show _ + (((curv witHess s.preg exact).S 0)ᵀ *ᵥ (0 : Fin 1 → ℝ) + (curv witHess s.preg exact).R 0 *ᵥ (fun _ => a : Fin 1 → ℝ)) = 0
      rw [mulVec_zero]
      have e3 : ((curv witHess s.preg exact).R 0 *ᵥ (fun _ => a : Fin 1 → ℝ)) 0 = (1 + s.preg) * a := by
        cases exact <;> simp [curv, witHess, mulVec, dotProduct]
      funext k
      rw [Subsingleton.elim k 0]
      simp only [Pi.add_apply, e3]
      simp [slice, LQ.Spec.ladd]
      linarith
  · have e0 := dropped_pos (P := wit.spec witIter.x witIter.u) (op := witSetup.op) (vPrev := witIter.vs) (vs := witIter.vs)
      (out := witSetup.out) witHess s.mu s.preg exact true witIter.lam witIter.x witIter.u 1 one_ne_zero
    refine (congrArg _ e0).trans ?_
    unfold rXN
    rw [g2]
    show _ + (curv witHess s.preg exact).QN *ᵥ (0 : Fin 1 → ℝ) + 0 = 0
    rw [mulVec_zero]
    simp

/-- The trajectory the run returns is not an approximate KKT point, whatever the multipliers. -/
theorem wit_not_KKT {x u : ∀ i, Fin ((fun _ => 1 : ℕ → ℕ) i) → ℝ} {w : ℝ} (hu : u 0 = fun _ => w) (hw : -0.01 ≤ w)
    (lam0 : Fin wit.nc0 → ℝ) (lam : ∀ i, Fin ((fun _ => 1 : ℕ → ℕ) (i + 1)) → ℝ) (v : ℕ → List ℝ) (epsP : ℝ) :
    ¬ Spec.ApproxKKT (wit.spec x u) True witC wit.nc epsP 0.98 lam0 lam v x u := by
  rintro ⟨hst, hfe⟩
  obtain ⟨z, hz, -, hzC, hcone⟩ := hfe.constraints 0 (by omega)
  have hz' : z.length = 1 := hz
  obtain ⟨y, rfl⟩ := List.length_eq_one_iff.1 hz'
  have hy : y ≤ 0 := by
    obtain ⟨a, b, hab, hl, ha, hb⟩ := hzC
    obtain rfl : b = [] := hb
    rw [List.append_nil] at hab
    subst hab
    exact ha y (List.mem_singleton_self y)
  have hc := hcone [y - 1] rfl ⟨[y - 1], [], rfl, rfl, fun a ha => by rw [List.mem_singleton.1 ha]; linarith, rfl⟩
  have lag : ∀ X U, Lag.Spec.lagrangian (wit.spec x u) lam0 lam v X U = ((∑ i ∈ Finset.range 1, 1 / 2 * (U i 0 + 1) ^ 2) + 0) +
      lam0 ⬝ᵥ X 0 + (∑ i ∈ Finset.range 1, (lam i ⬝ᵥ (X i - X (i + 1)) + Lag.Spec.ldot (v i) (List.ofFn (U i) ++ []))) +
      Lag.Spec.ldot (v 1) [] := fun X U => rfl
  obtain ⟨D, hD, hle⟩ := hst (fun _ => 0) (fun _ _ => 1) (fun _ => rfl)
  obtain ⟨c, hc0, hcv⟩ : ∃ c : ℝ, 0 ≤ c ∧ ∀ r : ℝ, Lag.Spec.ldot (v 0) [r] = c * r := by
    cases h0 : v 0 with
    | nil => exact ⟨0, le_rfl, fun r => by simp [Lag.Spec.ldot]⟩
    | cons c l =>
      refine ⟨c, ?_, fun r => by simp [Lag.Spec.ldot]⟩
      rw [h0] at hc
      simp [CSets.Spec.dot, CSets.Spec.sub] at hc
      exact hc
  have hD' : HasDerivAt (fun t : ℝ => 1 / 2 * (w + t + 1) ^ 2 + c * (w + t) +
      (lam0 ⬝ᵥ x 0 + lam 0 ⬝ᵥ (x 0 - x 1) + Lag.Spec.ldot (v 1) [])) (w + 1 + c) 0 := by
    have h1 : HasDerivAt (fun t : ℝ => w + t) 1 0 := (hasDerivAt_id (0 : ℝ)).const_add w
    refine ((((((h1.add_const 1).pow 2).const_mul (1 / 2))).add (h1.const_mul c)).add_const _).congr_deriv ?_
    simp
  have hDe : D = w + 1 + c := by
    refine hD.unique ?_
    refine hD'.congr_of_eventuallyEq (Filter.Eventually.of_forall fun t => ?_)
    simp only []
    rw [lag]
    simp only [Finset.sum_range_one, hu, List.append_nil, smul_zero, add_zero]
    simp [List.ofFn_succ, hcv]
    ring
  have hn : Spec.norm1 (nx := fun _ => 1) (nu := fun _ => 1) 1 (fun _ => (0 : Fin 1 → ℝ)) (fun _ _ => (1 : ℝ)) = 1 := by
    simp [Spec.norm1]
  rw [hDe, hn, abs_of_nonneg (by norm_num at hw ⊢; linarith)] at hle
  norm_num at hw hle
  linarith

/-- **C56 is false.** With default parameters, the exact solution of every subproblem and a line search that takes the full step
when it satisfies the condition of Armijo, the solver reports convergence after one iteration on a strictly convex quadratic
program; the cost it returns is at least 0.49, the optimal cost is 0, and the trajectory is not an approximate KKT point with any
multipliers: a derivative of the Lagrangian is at least 0.99. -/
theorem C56_converged_not_optimal
    (search : ProxDDP.St (Iter (fun _ => 1) (fun _ => 1) wit.nc0) (ℕ → List ℝ) (WS (fun _ => 1) wit.nc0) → Search)
    (hse : ∀ s, TakesFullStep (search s)) (exact : Bool)
    (solve : ProxDDP.St (Iter (fun _ => 1) (fun _ => 1) wit.nc0) (ℕ → List ℝ) (WS (fun _ => 1) wit.nc0) →
      Option (Dir (fun _ => 1) (fun _ => 1) wit.nc0))
    (hso : ∀ s d, solve s = some d → Solves wit witSetup exact witHess s d)
    (hdef : ∀ s, (∃ d, Solves wit witSetup exact witHess s d) → solve s ≠ none)
    (fuel : ℕ) (hf : 0 < fuel) :
    ∃ s, ProxDDP.run ProxDDP.defaultParams (env wit witSetup (oracle wit witSetup search solve)) fuel witIter.vs witSt =
      .done true s ∧ s.numIters = 1 ∧ 0.49 ≤ Lag.Spec.cost (wit.spec s.x.x s.x.u) s.x.x s.x.u ∧
      (∃ x u : ℕ → Fin 1 → ℝ, x 0 = 0 ∧ x 1 = x 0 ∧ u 0 0 ≤ 0 ∧ Lag.Spec.cost (wit.spec s.x.x s.x.u) x u = 0) ∧
      ∀ lam0 lam v epsP, ¬ Spec.ApproxKKT (wit.spec s.x.x s.x.u) (witSetup.force = true) witC wit.nc epsP 0.98
        lam0 lam v s.x.x s.x.u := by
  obtain ⟨s, h1, h2, h3, h4, w, h5, h6, h7⟩ := wit_run search hse exact solve hso (fun s a b c d => hdef s
    (wit_solvable a b (by rw [c]; norm_num) (by rw [d]; norm_num) exact)) fuel hf
  have cost_eq : ∀ x u, Lag.Spec.cost (wit.spec s.x.x s.x.u) x u = 1 / 2 * (u 0 0 + 1) ^ 2 := by
    intro x u
    have : Lag.Spec.cost (wit.spec s.x.x s.x.u) x u = (∑ i ∈ Finset.range 1, 1 / 2 * (u i 0 + 1) ^ 2) + 0 := rfl
    rw [this]; simp
  refine ⟨s, h1, h2, ?_, ⟨fun _ => 0, fun _ _ => -1, rfl, rfl, by norm_num, ?_⟩, ?_⟩
  · rw [cost_eq, h5]
    norm_num at h6 ⊢
    nlinarith
  · rw [cost_eq]; norm_num
  · intro lam0 lam v epsP hk
    have e : (witSetup.force = true) = True := by simp [witSetup]
    rw [e] at hk
    exact wit_not_KKT h5 h6 lam0 lam v epsP hk

/-- A linear solver that returns a solution whenever there is one. -/
noncomputable def anySolve (exact : Bool)
    (s : ProxDDP.St (Iter (fun _ => 1) (fun _ => 1) wit.nc0) (ℕ → List ℝ) (WS (fun _ => 1) wit.nc0)) :
    Option (Dir (fun _ => 1) (fun _ => 1) wit.nc0) :=
  open Classical in if h : ∃ d, Solves wit witSetup exact witHess s d then some h.choose else none

theorem anySolve_right (exact : Bool) : (∀ s d, anySolve exact s = some d → Solves wit witSetup exact witHess s d) ∧
    ∀ s, (∃ d, Solves wit witSetup exact witHess s d) → anySolve exact s ≠ none := by
  constructor
  · intro s d h
    unfold anySolve at h
    split at h
    · rename_i h'
      cases h
      exact h'.choose_spec
    · cases h
  · intro s h
    unfold anySolve
    rw [dif_pos h]
    exact Option.some_ne_none _

/-- Both line searches of the solver, with default options, meet the hypotheses: the nonmonotone search (the default). -/
example (eta beta : ℝ) (exact : Bool) := C56_converged_not_optimal (fun _ => nonmonotone defaultOptions eta beta 1000 .reset)
  (fun _ => nonmonotone_fullStep eta beta 1000 (by norm_num)) exact (anySolve exact) (anySolve_right exact).1 (anySolve_right exact).2
  1000 (by norm_num)

/-- The Armijo search. -/
example (qr : Linesearch.Solve2) (exact : Bool) := C56_converged_not_optimal (fun _ => armijo defaultOptions qr 1000)
  (fun _ => armijo_fullStep qr 1000 (by norm_num)) exact (anySolve exact) (anySolve_right exact).1 (anySolve_right exact).2
  1000 (by norm_num)

/-- The same run meets the hypotheses of `C56_converged_partial` (and of `C56_approximate_KKT_partial`, with `K = 1`). -/
example : ∃ s w, ProxDDP.run ProxDDP.defaultParams (env wit witSetup (oracle wit witSetup
      (fun _ => nonmonotone defaultOptions 0.85 0.5 1000 .reset) (anySolve false))) 1000 witIter.vs witSt = .done true s ∧
    Spec.ApproxFeasible (wit.spec s.x.x s.x.u) witC wit.nc 1e-6 w s.x.x s.x.u ∧ Spec.ColumnSums (wit.spec s.x.x s.x.u) 1 := by
  obtain ⟨s, h, -⟩ := C56_converged_not_optimal (fun _ => nonmonotone defaultOptions 0.85 0.5 1000 .reset)
    (fun _ => nonmonotone_fullStep 0.85 0.5 1000 (by norm_num)) false (anySolve false) (anySolve_right false).1
    (anySolve_right false).2 1000 (by norm_num)
  obtain ⟨h1, h2⟩ := oracle_fits wit witSetup (fun _ => nonmonotone defaultOptions 0.85 0.5 1000 .reset) (anySolve false)
    (fun _ _ _ _ _ hr => nonmonotone_nonempty hr) (fun s d hd => ((anySolve_right false).1 s d hd).2)
  have hv : Shape wit witIter.vs := by intro i hi; interval_cases i <;> rfl
  obtain ⟨w, -, hw, -⟩ := C56_converged_partial (p := ProxDDP.defaultParams) (by norm_num [ProxDDP.defaultParams]) wit witSetup
    wit_fits _ h1 h2 1000 witIter.vs witSt s hv hv h (wit_right _ _)
  refine ⟨s, w, h, hw, ⟨fun i hi k => ?_, fun i hi k => ?_, fun k => ?_⟩⟩
  · show ([∑ j, |(0 : Matrix (Fin 1) (Fin 1) ℝ) j k|] : List ℝ).sum ≤ 1
    simp
  · show ([∑ j, |(1 : Matrix (Fin 1) (Fin 1) ℝ) j k|] : List ℝ).sum ≤ 1
    rw [Subsingleton.elim k 0]
    simp
  · exact zero_le_one

/-! ### An equality-constrained run -/

/-- The product set of one zero set. -/
noncomputable def eqSet : CSet := (product [equality] [1]).getD equality

/-- The setup of the same problem with the constraint `u = 0` in place of `u ≤ 0`. -/
noncomputable def eqSetup : Setup := { witSetup with op := fun i => if i = 0 then eqSet else noSet }

/-- Its solution, `x = 0`, `u = 0`, with the multiplier `-1`. -/
noncomputable def eqIter : Iter (fun _ => 1) (fun _ => 1) wit.nc0 where
  x _ _ := 0
  u _ _ := 0
  lam := ⟨0, fun _ => 0⟩
  vs i := if i = 0 then [-1] else []

/-- The sets of the example. -/
def eqC (i : ℕ) : List ℝ → Prop := CSets.Spec.Prod (if i = 0 then [(CSets.Spec.Zero, 1)] else [])

theorem eq_fits : eqSetup.Fits wit eqC := by
  refine ⟨fun i hi => ?_, fun i hi => ?_, fun i hi => ?_⟩
  · interval_cases i
    · refine (LibrarySet.product [(equality, CSets.Spec.Zero, 1)] _ ?_ rfl).projects
      intro c hc
      simp only [List.mem_cons, List.not_mem_nil, or_false] at hc
      subst hc
      exact .equality 1
    · exact wit_projects.2
  · interval_cases i <;> rfl
  · interval_cases i <;> rfl

/-- The same setup with another multiplier update mode. -/
noncomputable def eqSetupM (md : Mode) : Setup := { eqSetup with mode := md }

/-- A warm start at the solution: the run converges, whatever the multiplier update mode. -/
theorem eq_run (md : Mode) (orc) :
    ∃ s, ProxDDP.run ProxDDP.defaultParams (env wit (eqSetupM md) orc) 1 witIter.vs { witSt with x := eqIter } =
      .done true s := by
  set e := env wit (eqSetupM md) orc with he
  set s := ProxDDP.initRun ProxDDP.defaultParams witIter.vs { witSt with x := eqIter } with hs
  have hmu : s.mu = 0.01 := by
    show max (0.01:ℝ) 1e-8 = 0.01
    norm_num
  have f5 : s.innerTol = 0.01 := by
    show max ((1:ℝ) * (min s.mu 0.99) ^ (1:ℝ)) 1e-6 = 0.01
    rw [hmu, Real.rpow_one]
    norm_num
  have f6 : (1e-6 : ℝ) ≤ s.primTol := le_max_right _ _
  have hcone : eqSet.normalConeProjection [0] [0] = [0] := by
    simp [eqSet, product, productLoop, blockStart, seg, writeSeg, equality]
  have m0 : (mult wit eqSetup 0.01 witIter.vs eqIter).1.ms 0 = multiplierStep eqSet 0.01 [0] [0] [-1] [0] [] := rfl
  have m1 : (mult wit eqSetup 0.01 witIter.vs eqIter).1.ms 1 = multiplierStep noSet 0.01 [] [] [] [] [] := rfl
  have s2 : (multiplierStep eqSet 0.01 [0] [0] [-1] [0] []).Lvs = [0.01] := by
    simp [multiplierStep, hcone]
  have s3 : (multiplierStep eqSet 0.01 [0] [0] [-1] [0] []).infeas = [0] := by
    simp [multiplierStep, hcone]
  obtain ⟨-, t2, t3⟩ := wit_step1 0.01
  have hsl0 : slacks (mult wit eqSetup 0.01 witIter.vs eqIter).1.V 0 = [0] := rfl
  have hsl1 : slacks (mult wit eqSetup 0.01 witIter.vs eqIter).1.V 1 = [0 - 0] := rfl
  obtain ⟨g1, g2, g3⟩ := compute_eq (wit.data eqIter.x eqIter.u) (some eqIter.lam) eqIter.vs
  have gx0 : (gradAt wit true eqIter).Lxs 0 = 0 := by simp [gradAt, Grad.setX]
  have gx1 : (gradAt wit true eqIter).Lxs 1 = 0 := by
    have e : (gradAt wit true eqIter).Lxs 1 = -(0 : Fin 1 → ℝ) + (0 + 0) := g2
    rw [e]; simp
  have gu0 : (gradAt wit true eqIter).Lus 0 = fun _ => 0 := by
    have e : (gradAt wit true eqIter).Lus 0 = (fun _ => 0 + 1) + (0 : Matrix (Fin 1) (Fin 1) ℝ)ᵀ *ᵥ (0 : Fin 1 → ℝ) +
      ((1 : Matrix (Fin 1) (Fin 1) ℝ)ᵀ *ᵥ slice [-1] 0 1 + 0) := g3 0 one_pos
    rw [e]
    funext k
    rw [Subsingleton.elim k 0]
    simp [slice]
  have hprim : (mult wit eqSetup 0.01 witIter.vs eqIter).2 = some 0 := by
    show some (primInfeas 1 (fun i => ((mult wit eqSetup 0.01 witIter.vs eqIter).1.ms i).infeas)
      (slacks (mult wit eqSetup 0.01 witIter.vs eqIter).1.V)) = _
    congr 1
    simp only [primInfeas, List.range_succ, List.range_zero, List.nil_append, List.map_append, List.map_cons, List.map_nil,
      List.cons_append, hsl0, hsl1, m0, m1, s3, t3, infNorm, List.foldr_cons, List.foldr_nil, zero_add]
    simp
  have hdual : e.dualInf eqIter = 0 := by
    show (LQ.computeCriterion 1 (gradAt wit true eqIter) (fun _ => []) fun _ => []).dual = _
    simp [LQ.computeCriterion, List.range_succ, gx0, gx1, gu0, infNorm]
  have hcrit : e.innerCrit eqIter (mult wit eqSetup 0.01 witIter.vs eqIter).1 = 0.01 := by
    show (LQ.computeCriterion 1 (gradAt wit true eqIter) (slacks (mult wit eqSetup 0.01 witIter.vs eqIter).1.V)
      fun i => ((mult wit eqSetup 0.01 witIter.vs eqIter).1.ms i).Lvs).inner = _
    simp only [LQ.computeCriterion, List.range_succ, List.range_zero, List.nil_append, List.map_append, List.map_cons, List.map_nil,
      List.cons_append, gx0, gx1, gu0, hsl0, m0, m1, s2, t2, infNorm, List.foldr_cons, List.foldr_nil]
    simp
    norm_num
  set s0 : ProxDDP.St (Iter (fun _ => 1) (fun _ => 1) wit.nc0) (ℕ → List ℝ) (WS (fun _ => 1) wit.nc0) :=
    { s.push false with ws := (mult wit eqSetup 0.01 witIter.vs eqIter).1, prim := 0 } with hs0
  have hcm : ProxDDP.computeMultipliers e s.x (s.push false) = s0 := by
    have h1 : e.mult (s.push false).mu (s.push false).prevV s.x = ((mult wit eqSetup 0.01 witIter.vs eqIter).1, some 0) := by
      show mult wit eqSetup s.mu witIter.vs eqIter = _
      rw [hmu]
      exact Prod.ext rfl hprim
    unfold ProxDDP.computeMultipliers
    rw [h1]
  unfold ProxDDP.run
  rw [show ProxDDP.defaultParams.maxAlIters = 99 + 1 from rfl, ProxDDP.outer,
    if_pos (by show 0 < 1000; omega), ← hs]
  have hin : ProxDDP.innerLoop ProxDDP.defaultParams e s = .done true (ProxDDP.computeCriterion e s0) := by
    unfold ProxDDP.innerLoop
    rw [hcm]
    dsimp only
    rw [show ProxDDP.defaultParams.maxIters - s0.numIters = 999 + 1 from rfl, ProxDDP.innerIter, if_pos]
    right
    exact ⟨by show e.dualInf eqIter ≤ 1e-6; rw [hdual]; norm_num, by show (0 : ℝ) ≤ 1e-6; norm_num⟩
  rw [hin]
  dsimp only
  rw [if_pos (by show (0 : ℝ) ≤ s.primTol; refine le_trans ?_ f6; norm_num), ProxDDP.tighten, if_neg]
  · dsimp only
    rw [if_pos]
    · exact ⟨_, rfl⟩
    · exact ⟨by show e.dualInf eqIter ≤ 1e-6; rw [hdual]; norm_num, by show (0 : ℝ) ≤ 1e-6; norm_num⟩
  · show ¬ e.innerCrit eqIter (mult wit eqSetup 0.01 witIter.vs eqIter).1 < s.innerTol * (min s.mu 0.99) ^ (1:ℝ)
    rw [hcrit, f5, hmu, Real.rpow_one]
    norm_num

/-- The run meets the hypotheses of `C56_equality_constrained_KKT`. -/
example (orc) (hne : ∀ s d a, orc s ≠ .step d [] a)
    (ho : ∀ s d l a, Shape wit s.x.vs → orc s = .step d l a → ∀ t ∈ l, Shape wit t.vs) :
    ∃ s, ProxDDP.run ProxDDP.defaultParams (env wit eqSetup orc) 1 witIter.vs { witSt with x := eqIter } = .done true s ∧
      Spec.ApproxKKT (wit.spec s.x.x s.x.u) (eqSetup.force = true) eqC wit.nc 1e-6 1e-6
        s.x.lam.init s.x.lam.dyn s.x.vs s.x.x s.x.u := by
  obtain ⟨s', h⟩ := eq_run .newton orc
  refine ⟨s', h, C56_equality_constrained_KKT (p := ProxDDP.defaultParams) (by norm_num [ProxDDP.defaultParams]) wit eqSetup
    eq_fits ?_ orc hne ho 1 witIter.vs _ s' (by intro i hi; interval_cases i <;> rfl) (by intro i hi; interval_cases i <;> rfl)
    h (wit_right _ _)⟩
  intro i hi z z' h1 h2 h3 h4
  interval_cases i
  · obtain ⟨a, b, rfl, ha, ha0, hb⟩ := h3
    obtain ⟨a', b', rfl, ha', ha0', hb'⟩ := h4
    obtain ⟨c, rfl⟩ := List.length_eq_one_iff.1 ha
    obtain ⟨c', rfl⟩ := List.length_eq_one_iff.1 ha'
    obtain rfl : b = [] := hb
    obtain rfl : b' = [] := hb'
    rw [ha0 c (List.mem_singleton_self c), ha0' c' (List.mem_singleton_self c')]
  · exact h3.trans h4.symm

end Aligator.Link
