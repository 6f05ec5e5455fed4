import Verif.Model.ProblemData
import Verif.Spec.ProblemData
import Verif.Props.LQSubproblem
import Mathlib.Analysis.Calculus.Deriv.Pow

/-!
# Properties of the problem data: the second-order terms of the subproblem (C57)
-/

namespace Aligator.PData

open Matrix Lag LQ

variable {nx nu : ℕ → ℕ} {N : ℕ}

/-! ### What the calls keep -/

/-- The callbacks of the dynamics and of the initial condition do not touch the buffers of the vector-Hessian products; true of all
the dynamics and initial conditions of the library. -/
structure Keeps (M : Model nx nu N) : Prop where
  forward : ∀ i x u d, ((M.dyn i).forward x u d).Hxx = d.Hxx ∧ ((M.dyn i).forward x u d).Hxu = d.Hxu ∧
    ((M.dyn i).forward x u d).Huu = d.Huu
  dForward : ∀ i x u d, ((M.dyn i).dForward x u d).Hxx = d.Hxx ∧ ((M.dyn i).dForward x u d).Hxu = d.Hxu ∧
    ((M.dyn i).dForward x u d).Huu = d.Huu
  evaluate : ∀ x u d, (M.init.evaluate x u d).Hxx = d.Hxx
  jacobians : ∀ x u d, (M.init.computeJacobians x u d).Hxx = d.Hxx

/-- The buffers are zero. -/
structure Data.Zero {M : Model nx nu N} (d : Data M) : Prop where
  dyn : ∀ i, (d.dyn i).Hxx = 0 ∧ (d.dyn i).Hxu = 0 ∧ (d.dyn i).Huu = 0
  init : d.init.Hxx = 0

theorem create_zero (M : Model nx nu N) : (Data.create M).Zero := ⟨fun _ => ⟨rfl, rfl, rfl⟩, rfl⟩

theorem step_zero {M : Model nx nu N} (hM : Keeps M) {d : Data M} (h : d.Zero) (c : Call nx nu) : (step M d c).Zero := by
  cases c with
  | evaluate x u =>
    refine ⟨fun i => ?_, (hM.evaluate _ _ _).trans h.init⟩
    obtain ⟨a, b, c⟩ := hM.forward i (x i) (u i) (d.dyn i)
    obtain ⟨a', b', c'⟩ := h.dyn i
    exact ⟨a.trans a', b.trans b', c.trans c'⟩
  | rollout x u =>
    refine ⟨fun i => ?_, h.init⟩
    obtain ⟨a, b, c⟩ := hM.forward i (x i) (u i) (d.dyn i)
    obtain ⟨a', b', c'⟩ := h.dyn i
    exact ⟨a.trans a', b.trans b', c.trans c'⟩
  | derivatives x u s =>
    refine ⟨fun i => ?_, (hM.jacobians _ _ _).trans h.init⟩
    obtain ⟨a, b, c⟩ := hM.dForward i (x i) (u i) (d.dyn i)
    obtain ⟨a', b', c'⟩ := h.dyn i
    exact ⟨a.trans a', b.trans b', c.trans c'⟩

theorem calls_zero {M : Model nx nu N} (hM : Keeps M) (cs : List (Call nx nu)) : (calls M cs).Zero := by
  unfold calls
  generalize hd : Data.create M = d
  have h : d.Zero := hd ▸ create_zero M
  clear hd
  induction cs generalizing d with
  | nil => exact h
  | cons c cs ih => exact ih _ (step_zero hM h c)

theorem build_congr (I J : Input nx nu N) : ∀ (k : ℕ) (tl : Gar.Chain ℝ 0 (nx k)), (hpd : J.pd = I.pd) →
    (∀ i, HEq (knot I i) (knot J i)) → build I k tl = build J k tl
  | 0, _, _, _ => rfl
  | k + 1, tl, hpd, h => by
    show build I k (.cons (knot I k) tl) = build J k (.cons (knot J k) tl)
    have : (Gar.Chain.cons (knot I k) tl : Gar.Chain ℝ 0 (nx k)) = .cons (knot J k) tl := by
      have hk := h k
      have hd : dim (I.pd.cstr k) = dim (J.pd.cstr k) := by rw [hpd]
      generalize knot I k = a at hk ⊢
      generalize knot J k = b at hk ⊢
      revert a b
      rw [hd]
      intro a b hk
      rw [eq_of_heq hk]
    rw [this]
    exact build_congr I J k _ hpd h

/-- **C57** (negative)  With any dynamics and initial condition of the library the option EXACT assembles the same subproblem as
GAUSS_NEWTON, after any sequence of calls. -/
theorem C57_exact_is_gauss_newton {M : Model nx nu N} (hM : Keeps M) (cs : List (Call nx nu)) (I : Input nx nu N)
    (hI : I.hess = (calls M cs).hess) :
    subproblem { I with exact := true } = subproblem { I with exact := false } := by
  obtain ⟨hd, hi⟩ := calls_zero hM cs
  unfold subproblem
  congr 1
  refine build_congr _ _ _ _ rfl fun i => heq_of_eq ?_
  have h1 : I.hess.Hxx i = 0 := by rw [hI]; exact (hd i).1
  have h2 : I.hess.Hxu i = 0 := by rw [hI]; exact (hd i).2.1
  have h3 : I.hess.Huu i = 0 := by rw [hI]; exact (hd i).2.2
  simp [knot, h1, h2, h3]

/-! ### Second derivatives -/

namespace Spec

theorem HasSecond.add {F G : ℝ → ℝ} {D E : ℝ} (hF : HasSecond F D) (hG : HasSecond G E) :
    HasSecond (fun t => F t + G t) (D + E) := by
  obtain ⟨F', h1, h2⟩ := hF
  obtain ⟨G', h3, h4⟩ := hG
  exact ⟨fun t => F' t + G' t, (h1.and h3).mono fun t h => h.1.add h.2, h2.add h4⟩

theorem HasSecond.const_mul {F : ℝ → ℝ} {D : ℝ} (a : ℝ) (hF : HasSecond F D) : HasSecond (fun t => a * F t) (a * D) := by
  obtain ⟨F', h1, h2⟩ := hF
  exact ⟨fun t => a * F' t, h1.mono fun t h => h.const_mul a, h2.const_mul a⟩

theorem HasSecond.const (a : ℝ) : HasSecond (fun _ => a) 0 :=
  ⟨fun _ => 0, Filter.Eventually.of_forall fun t => hasDerivAt_const t a, hasDerivAt_const 0 0⟩

theorem HasSecond.linear (a b : ℝ) : HasSecond (fun t => a + t * b) 0 := by
  refine ⟨fun _ => b, Filter.Eventually.of_forall fun t => ?_, hasDerivAt_const 0 b⟩
  simpa using ((hasDerivAt_id t).mul_const b).const_add a

theorem HasSecond.sum {ι : Type*} (s : Finset ι) {F : ι → ℝ → ℝ} {D : ι → ℝ} (h : ∀ i ∈ s, HasSecond (F i) (D i)) :
    HasSecond (fun t => ∑ i ∈ s, F i t) (∑ i ∈ s, D i) := by
  classical
  induction s using Finset.induction_on with
  | empty => simpa using HasSecond.const 0
  | insert a s ha ih =>
    simp only [Finset.sum_insert ha]
    exact (h a (Finset.mem_insert_self a s)).add (ih fun i hi => h i (Finset.mem_insert_of_mem hi))

theorem HasSecond.unique {F : ℝ → ℝ} {D E : ℝ} (h : HasSecond F D) (h' : HasSecond F E) : D = E := by
  obtain ⟨F', h1, h2⟩ := h
  obtain ⟨G', h3, h4⟩ := h'
  refine h2.unique (h4.congr_of_eventuallyEq ?_)
  filter_upwards [h1, h3] with t a b using a.unique b

theorem HasSecond.dot {n : ℕ} (a : Fin n → ℝ) {F : ℝ → Fin n → ℝ} {D : Fin n → ℝ} (h : ∀ k, HasSecond (fun t => F t k) (D k)) :
    HasSecond (fun t => a ⬝ᵥ F t) (a ⬝ᵥ D) :=
  HasSecond.sum _ fun k _ => (h k).const_mul (a k)

theorem ldot_eq (v l : List ℝ) : Lag.Spec.ldot v l = ∑ k ∈ Finset.range v.length, v.getD k 0 * l.getD k 0 := by
  induction v generalizing l with
  | nil => simp [Lag.Spec.ldot]
  | cons a v ih =>
    rw [List.length_cons, Finset.sum_range_succ']
    cases l with
    | nil => simp [Lag.Spec.ldot]
    | cons b l =>
      have := ih l
      simp only [Lag.Spec.ldot, List.zipWith_cons_cons, List.sum_cons] at this ⊢
      rw [this]
      simp [add_comm]

theorem HasSecond.ldot (v : List ℝ) {F : ℝ → List ℝ} {D : List ℝ} (h : ∀ k, HasSecond (fun t => (F t).getD k 0) (D.getD k 0)) :
    HasSecond (fun t => Lag.Spec.ldot v (F t)) (Lag.Spec.ldot v D) := by
  simp only [ldot_eq]
  exact HasSecond.sum _ fun k _ => (h k).const_mul _

/-- The second derivative of the Lagrangian. -/
theorem lagrangian_second {P : Lag.Spec.Problem nx nu N} (S : Second P) {x ex : ∀ i, Fin (nx i) → ℝ} {u eu : ∀ i, Fin (nu i) → ℝ}
    (h : S.Right x u ex eu) (lam0 : Fin P.nc0 → ℝ) (lam : ∀ i, Fin (nx (i + 1)) → ℝ) (v : ℕ → List ℝ) :
    HasSecond (fun t => Lag.Spec.lagrangian P lam0 lam v (fun i => x i + t • ex i) (fun i => u i + t • eu i))
      ((∑ i ∈ Finset.range N, S.l i) + S.lN + S.weighted lam0 lam v) := by
  have h1 : HasSecond (fun t => Lag.Spec.cost P (fun i => x i + t • ex i) (fun i => u i + t • eu i))
      ((∑ i ∈ Finset.range N, S.l i) + S.lN) :=
    (HasSecond.sum _ fun i hi => h.l i (Finset.mem_range.1 hi)).add h.lN
  have h2 : HasSecond (fun t => lam0 ⬝ᵥ P.h (x 0 + t • ex 0)) (lam0 ⬝ᵥ S.h) := HasSecond.dot lam0 h.h
  have h3 : ∀ i ∈ Finset.range N, HasSecond (fun t => lam i ⬝ᵥ (P.f i (x i + t • ex i) (u i + t • eu i) - (x (i + 1) + t • ex (i + 1))) +
      Lag.Spec.ldot (v i) (Lag.Spec.stack (P.c i) (x i + t • ex i) (u i + t • eu i)))
      (lam i ⬝ᵥ S.f i + Lag.Spec.ldot (v i) (S.c i)) := by
    intro i hi
    have hi := Finset.mem_range.1 hi
    refine HasSecond.add (HasSecond.dot (lam i) fun k => ?_) (HasSecond.ldot (v i) fun k => ?_)
    · have := (h.f i hi k).add ((HasSecond.linear (x (i + 1) k) (ex (i + 1) k)).const_mul (-1))
      simp only [mul_zero, add_zero] at this
      refine Eq.mp (congrArg (fun F => HasSecond F _) ?_) this
      funext t
      simp
      ring
    · have := h.c i hi.le k
      simp only [LQ.Spec.cstr, if_pos hi] at this
      exact this
  have h4 : HasSecond (fun t => Lag.Spec.ldot (v N) (Lag.Spec.stack P.cN (x N + t • ex N) 0)) (Lag.Spec.ldot (v N) (S.c N)) := by
    refine HasSecond.ldot (v N) fun k => ?_
    have := h.c N le_rfl k
    simp only [LQ.Spec.cstr, if_neg (lt_irrefl N)] at this
    exact this
  have := ((h1.add h2).add (HasSecond.sum _ h3)).add h4
  unfold Second.weighted
  refine Eq.mp (congrArg (fun D => HasSecond _ D) ?_) this
  ring

end Spec

/-! ### The curvature of the subproblem against the Hessian of the Lagrangian -/

/-- The Hessians that the cost callbacks stored are the second derivatives of the costs along the variation. -/
structure CostsRight {P : Lag.Spec.Problem nx nu N} (S : Spec.Second P) (H : Hess nx nu N) (ex : ∀ i, Fin (nx i) → ℝ)
    (eu : ∀ i, Fin (nu i) → ℝ) : Prop where
  l : ∀ i, i < N → S.l i = ex i ⬝ᵥ (H.Lxx i *ᵥ ex i + H.Lxu i *ᵥ eu i) + eu i ⬝ᵥ ((H.Lxu i)ᵀ *ᵥ ex i + H.Luu i *ᵥ eu i)
  lN : S.lN = ex N ⬝ᵥ H.termLxx *ᵥ ex N

theorem form_eq {M : Model nx nu N} {d : Data M} (h : d.Zero) (preg : ℝ) (exact : Bool) {P : Lag.Spec.Problem nx nu N}
    {S : Spec.Second P} {ex : ∀ i, Fin (nx i) → ℝ} {eu : ∀ i, Fin (nu i) → ℝ} (hc : CostsRight S d.hess ex eu) :
    (curv d.hess preg exact).form ex eu ex eu - preg * Spec.sqLen N ex eu = (∑ i ∈ Finset.range N, S.l i) + S.lN := by
  have hi : ∀ i, initHess (nx := nx) d.hess.initHxx i = 0 := by
    intro i
    cases i with
    | zero => exact h.init
    | succ i => rfl
  have hs : ∀ i ∈ Finset.range N, ex i ⬝ᵥ ((curv d.hess preg exact).Q i *ᵥ ex i + (curv d.hess preg exact).S i *ᵥ eu i) +
      eu i ⬝ᵥ (((curv d.hess preg exact).S i)ᵀ *ᵥ ex i + (curv d.hess preg exact).R i *ᵥ eu i) =
      S.l i + preg * (ex i ⬝ᵥ ex i + eu i ⬝ᵥ eu i) := by
    intro i hir
    obtain ⟨a, b, c⟩ := h.dyn i
    have e1 : (curv d.hess preg exact).Q i = d.hess.Lxx i + preg • 1 := by
      show d.hess.Lxx i + preg • 1 + (if exact then (d.dyn i).Hxx else 0) + _ = _
      rw [hi, a]; simp
    have e2 : (curv d.hess preg exact).S i = d.hess.Lxu i := by
      show d.hess.Lxu i + (if exact then (d.dyn i).Hxu else 0) = _
      rw [b]; simp
    have e3 : (curv d.hess preg exact).R i = d.hess.Luu i + preg • 1 := by
      show d.hess.Luu i + preg • 1 + (if exact then (d.dyn i).Huu else 0) = _
      rw [c]; simp
    rw [e1, e2, e3, hc.l i (Finset.mem_range.1 hir)]
    simp only [add_mulVec, smul_mulVec, one_mulVec, dotProduct_add, dotProduct_smul, smul_eq_mul]
    ring
  have hN : (curv d.hess preg exact).QN = d.hess.termLxx + preg • 1 := by
    show d.hess.termLxx + preg • 1 + _ = _
    rw [hi, add_zero]
  unfold LQ.Spec.Curv.form Spec.sqLen
  rw [Finset.sum_congr rfl hs, hN, hc.lN, Finset.sum_add_distrib, ← Finset.mul_sum]
  simp only [add_mulVec, smul_mulVec, one_mulVec, dotProduct_add, dotProduct_smul, smul_eq_mul]
  ring

/-- **C57** (partial)  With either option the curvature of the subproblem is the Hessian of the Lagrangian plus the proximal
regularisation if and only if the second-order terms of initial condition, dynamics and constraints, weighted with the
multipliers, cancel; they are never accounted for.  Every history of calls, every dimensions and horizon.  What is missing: the
property asks for the Hessian without that condition when EXACT is chosen. -/
theorem C57_exact_iff_no_curvature_partial {M : Model nx nu N} (hM : Keeps M) (cs : List (Call nx nu)) (preg : ℝ) (exact : Bool)
    (P : Lag.Spec.Problem nx nu N) (x : ∀ i, Fin (nx i) → ℝ) (u : ∀ i, Fin (nu i) → ℝ)
    (S : ∀ (ex : ∀ i, Fin (nx i) → ℝ) (eu : ∀ i, Fin (nu i) → ℝ), Spec.Second P) (hS : ∀ ex eu, (S ex eu).Right x u ex eu)
    (hc : ∀ ex eu, CostsRight (S ex eu) (calls M cs).hess ex eu)
    (lam0 : Fin P.nc0 → ℝ) (lam : ∀ i, Fin (nx (i + 1)) → ℝ) (v : ℕ → List ℝ) :
    Spec.IsLagrangianHessian P (curv (calls M cs).hess preg exact) preg lam0 lam v x u ↔
      ∀ ex eu, (S ex eu).weighted lam0 lam v = 0 := by
  have hz := calls_zero hM cs
  have key := fun ex eu => Spec.lagrangian_second (S ex eu) (hS ex eu) lam0 lam v
  unfold Spec.IsLagrangianHessian
  refine forall₂_congr fun ex eu => ?_
  rw [form_eq hz preg exact (hc ex eu)]
  constructor
  · intro h
    have := h.unique (key ex eu)
    linarith
  · intro h
    have := key ex eu
    rwa [h, add_zero] at this

/-- **C57** For problems with affine initial condition, dynamics and constraints both options give the Hessian of the Lagrangian
plus the regularisation, for all multipliers. -/
theorem C57_affine_problems {M : Model nx nu N} (hM : Keeps M) (cs : List (Call nx nu)) (preg : ℝ) (exact : Bool)
    (P : Lag.Spec.Problem nx nu N) (x : ∀ i, Fin (nx i) → ℝ) (u : ∀ i, Fin (nu i) → ℝ)
    (S : ∀ (ex : ∀ i, Fin (nx i) → ℝ) (eu : ∀ i, Fin (nu i) → ℝ), Spec.Second P) (hS : ∀ ex eu, (S ex eu).Right x u ex eu)
    (hc : ∀ ex eu, CostsRight (S ex eu) (calls M cs).hess ex eu)
    (hh : ∀ ex eu, (S ex eu).h = 0) (hf : ∀ ex eu i, (S ex eu).f i = 0) (hcs : ∀ ex eu i, ∀ k, ((S ex eu).c i).getD k 0 = 0)
    (lam0 : Fin P.nc0 → ℝ) (lam : ∀ i, Fin (nx (i + 1)) → ℝ) (v : ℕ → List ℝ) :
    Spec.IsLagrangianHessian P (curv (calls M cs).hess preg exact) preg lam0 lam v x u := by
  rw [C57_exact_iff_no_curvature_partial hM cs preg exact P x u S hS hc lam0 lam v]
  intro ex eu
  unfold Spec.Second.weighted
  simp only [Spec.ldot_eq, hh, hf, hcs, dotProduct_zero, mul_zero, Finset.sum_const_zero, add_zero]

/-- Zero cost, dynamics `f(x, u) = u²`, one stage. -/
noncomputable def sq : Lag.Spec.Problem (fun _ => 1) (fun _ => 1) 1 where
  nc0 := 0
  h _ := 0
  hx := 0
  l _ _ _ := 0
  lx _ := 0
  lu _ := 0
  f _ _ u k := u k ^ 2
  fx _ := 0
  fu _ := 0
  c _ := []
  lN _ := 0
  lNx := 0
  cN := []

theorem sq_second (lam : ℝ) (x u : ℕ → Fin 1 → ℝ) :
    Spec.HasSecond (fun t => Lag.Spec.lagrangian sq (fun i => i.elim0) (fun _ _ => lam) (fun _ => []) (fun i => x i + t • (0 : Fin 1 → ℝ))
      (fun i => u i + t • (fun _ => 1 : Fin 1 → ℝ))) (2 * lam) := by
  have e : (fun t => Lag.Spec.lagrangian sq (fun i => i.elim0) (fun _ _ => lam) (fun _ => []) (fun i => x i + t • (0 : Fin 1 → ℝ))
      (fun i => u i + t • (fun _ => 1 : Fin 1 → ℝ))) = fun t => lam * (u 0 0 + t) ^ 2 + -(lam * x 1 0) := by
    funext t
    simp [Lag.Spec.lagrangian, Lag.Spec.cost, sq, Lag.Spec.ldot, Lag.Spec.stack, dotProduct]
    ring
  rw [e]
  have h1 : ∀ t : ℝ, HasDerivAt (fun t : ℝ => u 0 0 + t) 1 t := fun t => (hasDerivAt_id t).const_add _
  refine ⟨fun t => 2 * lam * (u 0 0 + t), Filter.Eventually.of_forall fun t => ?_, ?_⟩
  · refine ((((h1 t).pow 2).const_mul lam).add_const _).congr_deriv ?_
    simp
    ring
  · exact ((h1 0).const_mul (2 * lam)).congr_deriv (mul_one _)

/-- **C57** (negative)  No callbacks can make the option EXACT exact: whatever the callbacks store and whatever the calls, already
for one stage with dynamics `u²` there are multipliers for which the curvature of the subproblem is not the Hessian of the
Lagrangian.  No callback receives the multipliers. -/
theorem C57_no_callbacks_are_exact (M : Model (fun _ => 1) (fun _ => 1) 1) (cs : List (Call (fun _ => 1) (fun _ => 1))) (preg : ℝ)
    (exact : Bool) (x u : ℕ → Fin 1 → ℝ) :
    ∃ lam : ℕ → Fin 1 → ℝ, ¬ Spec.IsLagrangianHessian sq (curv (calls M cs).hess preg exact) preg (fun i => i.elim0) lam
      (fun _ => []) x u := by
  by_contra hall
  push Not at hall
  have h0 := (hall (fun _ _ => 0) (fun _ => 0) (fun _ _ => 1)).unique (sq_second 0 x u)
  have h1 := (hall (fun _ _ => 1) (fun _ => 0) (fun _ _ => 1)).unique (sq_second 1 x u)
  rw [h0] at h1
  norm_num at h1

/-! ### Examples -/

/-- Callbacks of the dynamics `f` with Jacobians `fx`, `fu` and the cost `u² / 2`, written the way the library does. -/
noncomputable def exModel (f : (Fin 1 → ℝ) → (Fin 1 → ℝ) → Fin 1 → ℝ) (fx fu : (Fin 1 → ℝ) → (Fin 1 → ℝ) → Matrix (Fin 1) (Fin 1) ℝ) :
    Model (fun _ => 1) (fun _ => 1) 1 where
  nc0 := 0
  init := ⟨fun _ _ d => d, fun _ _ d => d, fun _ _ _ d => d⟩
  dyn _ := ⟨0, fun x u d => { d with xnext := f x u }, fun x u d => { d with Jx := fx x u, Ju := fu x u }⟩
  cost _ := ⟨fun _ u d => { d with value := u 0 ^ 2 / 2 }, fun _ u d => { d with Lu := u }, fun _ _ d => { d with Luu := 1 }⟩
  ncs _ := 0
  dim _ _ := 0
  cstr _ _ := ⟨fun _ _ d => d, fun _ _ d => d, fun _ _ _ d => d⟩
  termCost := ⟨fun _ _ d => d, fun _ _ d => d, fun _ _ d => d⟩
  ncsN := 0
  dimN _ := 0
  termCstr _ := ⟨fun _ _ d => d, fun _ _ d => d, fun _ _ _ d => d⟩

theorem exModel_keeps (f fx fu) : Keeps (exModel f fx fu) :=
  ⟨fun _ _ _ _ => ⟨rfl, rfl, rfl⟩, fun _ _ _ _ => ⟨rfl, rfl, rfl⟩, fun _ _ _ => rfl, fun _ _ _ => rfl⟩

/-- The problem that these callbacks implement. -/
noncomputable def exProb (f : (Fin 1 → ℝ) → (Fin 1 → ℝ) → Fin 1 → ℝ) : Lag.Spec.Problem (fun _ => 1) (fun _ => 1) 1 :=
  { sq with f := fun _ => f, l := fun _ _ u => u 0 ^ 2 / 2 }

theorem ex_cost (x u ex eu : ℕ → Fin 1 → ℝ) (f : (Fin 1 → ℝ) → (Fin 1 → ℝ) → Fin 1 → ℝ) (i : ℕ) :
    Spec.HasSecond (fun t => (exProb f).l i (x i + t • ex i) (u i + t • eu i)) (eu i 0 * eu i 0) := by
  have h1 : ∀ t : ℝ, HasDerivAt (fun t : ℝ => u i 0 + t * eu i 0) (eu i 0) t := fun t => by
    simpa using ((hasDerivAt_id t).mul_const (eu i 0)).const_add (u i 0)
  refine ⟨fun t => (u i 0 + t * eu i 0) * eu i 0, Filter.Eventually.of_forall fun t => ?_, (h1 0).mul_const _⟩
  refine (((h1 t).pow 2).div_const 2).congr_deriv ?_
  simp
  ring

theorem ex_costsRight (f fx fu) (cs : List (Call (fun _ => 1) (fun _ => 1))) (x u ex eu : ℕ → Fin 1 → ℝ)
    (S : Spec.Second (exProb f)) (h1 : S.l = fun i => eu i 0 * eu i 0) (h2 : S.lN = 0) :
    CostsRight S (calls (exModel f fx fu) (cs ++ [.derivatives x u true])).hess ex eu := by
  have hL : ∀ (cs : List (Call (fun _ => 1) (fun _ => 1))), (∀ i, ((calls (exModel f fx fu) cs).cost i).Lxx = 0 ∧
      ((calls (exModel f fx fu) cs).cost i).Lxu = 0) ∧ (calls (exModel f fx fu) cs).termCost.Lxx = 0 := by
    intro cs
    unfold calls
    have h0 : (∀ i, ((Data.create (exModel f fx fu)).cost i).Lxx = 0 ∧ ((Data.create (exModel f fx fu)).cost i).Lxu = 0) ∧
        (Data.create (exModel f fx fu)).termCost.Lxx = 0 := ⟨fun _ => ⟨rfl, rfl⟩, rfl⟩
    revert h0
    generalize Data.create (exModel f fx fu) = d
    intro h
    induction cs generalizing d with
    | nil => exact h
    | cons c cs ih =>
      refine ih _ ?_
      cases c with
      | evaluate x u => exact h
      | rollout x u => exact h
      | derivatives x u s => cases s <;> exact h
  obtain ⟨a, b⟩ := hL (cs ++ [.derivatives x u true])
  have hu : ∀ i, (calls (exModel f fx fu) (cs ++ [.derivatives x u true])).hess.Luu i = 1 := by
    intro i
    simp [calls, Data.hess, step, computeDerivatives, exModel]
  refine ⟨fun i _ => ?_, ?_⟩
  · have e1 : (calls (exModel f fx fu) (cs ++ [.derivatives x u true])).hess.Lxx i = 0 := (a i).1
    have e2 : (calls (exModel f fx fu) (cs ++ [.derivatives x u true])).hess.Lxu i = 0 := (a i).2
    rw [e1, e2, hu, h1]
    simp [dotProduct]
  · have e1 : (calls (exModel f fx fu) (cs ++ [.derivatives x u true])).hess.termLxx = 0 := b
    rw [e1, h2]
    simp

/-- An affine problem: `x + u`. -/
example (cs : List (Call (fun _ => 1) (fun _ => 1))) (x u : ℕ → Fin 1 → ℝ) (preg : ℝ) (lam : ℕ → Fin 1 → ℝ) :
    Spec.IsLagrangianHessian (exProb fun x u => x + u)
      (curv (calls (exModel (fun x u => x + u) (fun _ _ => 1) (fun _ _ => 1)) (cs ++ [.derivatives x u true])).hess preg true) preg
      (fun i => i.elim0) lam (fun _ => []) x u := by
  refine C57_affine_problems (exModel_keeps _ _ _) _ preg true _ x u
    (fun _ eu => ⟨fun i => eu i 0 * eu i 0, 0, 0, fun _ => 0, fun _ => []⟩) (fun ex eu => ?_)
    (fun ex eu => ex_costsRight _ _ _ cs x u ex eu _ rfl rfl) (fun _ _ => rfl) (fun _ _ _ => rfl) (fun _ _ _ _ => rfl) _ lam _
  refine ⟨fun i _ => ex_cost x u ex eu _ i, Spec.HasSecond.const 0, fun k => k.elim0, fun i _ k => ?_, fun i hi k => ?_, fun i hi => ?_⟩
  · have := Spec.HasSecond.linear (x i k + u i k) (ex i k + eu i k)
    refine Eq.mp (congrArg (fun F => Spec.HasSecond F _) ?_) this
    funext t
    show _ = x i k + t * ex i k + (u i k + t * eu i k)
    ring
  · interval_cases i <;> exact Spec.HasSecond.const 0
  · interval_cases i <;> rfl

/-- A nonlinear problem, `u²`: the subproblem is exact only for a zero multiplier, with either option. -/
example (cs : List (Call (fun _ => 1) (fun _ => 1))) (x u : ℕ → Fin 1 → ℝ) (preg : ℝ) (exact : Bool) (lam : ℕ → Fin 1 → ℝ) :
    Spec.IsLagrangianHessian (exProb fun _ u k => u k ^ 2)
      (curv (calls (exModel (fun _ u k => u k ^ 2) (fun _ _ => 0) (fun _ u => Matrix.of fun _ _ => 2 * u 0)) (cs ++ [.derivatives x u true])).hess
        preg exact) preg (fun i => i.elim0) lam (fun _ => []) x u ↔ lam 0 0 = 0 := by
  refine (C57_exact_iff_no_curvature_partial (exModel_keeps _ _ _) _ preg exact _ x u
    (fun _ eu => ⟨fun i => eu i 0 * eu i 0, 0, 0, fun i k => 2 * (eu i k * eu i k), fun _ => []⟩) (fun ex eu => ?_)
    (fun ex eu => ex_costsRight _ _ _ cs x u ex eu _ rfl rfl) _ lam _).trans ?_
  · refine ⟨fun i _ => ex_cost x u ex eu _ i, Spec.HasSecond.const 0, fun k => k.elim0, fun i _ k => ?_, fun i hi k => ?_, fun i hi => ?_⟩
    · have h1 : ∀ t : ℝ, HasDerivAt (fun t : ℝ => u i k + t * eu i k) (eu i k) t := fun t => by
        simpa using ((hasDerivAt_id t).mul_const (eu i k)).const_add (u i k)
      refine ⟨fun t => 2 * ((u i k + t * eu i k) * eu i k), Filter.Eventually.of_forall fun t => ?_,
        (((h1 0).mul_const _).const_mul 2)⟩
      refine ((h1 t).pow 2).congr_deriv ?_
      simp
      ring
    · interval_cases i <;> exact Spec.HasSecond.const 0
    · interval_cases i <;> rfl
  · have e : ∀ eu : ℕ → Fin 1 → ℝ, (⟨fun i => eu i 0 * eu i 0, 0, 0, fun i k => 2 * (eu i k * eu i k), fun _ => []⟩ :
        Spec.Second (exProb fun _ u k => u k ^ 2)).weighted (fun i => i.elim0) lam (fun _ => []) = lam 0 0 * (2 * (eu 0 0 * eu 0 0)) := by
      intro eu
      simp [Spec.Second.weighted, Lag.Spec.ldot, dotProduct]
    constructor
    · intro h
      have := (e _).symm.trans (h (fun _ => 0) (fun _ _ => 1))
      norm_num at this
      exact this
    · intro h ex eu
      rw [e, h, zero_mul]

end Aligator.PData
