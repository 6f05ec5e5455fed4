import Verif.Lemmas.Lagrangian
import Verif.Props.ConstraintSets
import Mathlib.Analysis.Calculus.Deriv.Mul
import Mathlib.Analysis.Calculus.Deriv.Pi
import Mathlib.Analysis.Calculus.Deriv.Prod
import Mathlib.Analysis.Calculus.Deriv.Pow

/-!
# Lagrangian gradient (C27) and merit function (C28)
-/

namespace Aligator.Lag

open Matrix CSets Spec

variable {nx nu : ℕ → ℕ} {N : ℕ}

/-- The data that the code reads. -/
def cdata {n m : ℕ} (c : CFun n m) : CstrData n m := ⟨c.dim, c.Jx, c.Ju⟩

/-- The data that the code reads. -/
def pdata (P : Problem nx nu N) : ProbData nx nu N where
  nc0 := P.nc0
  initJx := P.hx
  Lx := P.lx
  Lu := P.lu
  fx := P.fx
  fu := P.fu
  cstr i := (P.c i).map cdata
  termLx := P.lNx
  termCstr := P.cN.map cdata

/-- The stacked directional derivative of the constraints of a stage. -/
def stackDir {n m : ℕ} (cs : List (CFun n m)) (dx : Fin n → ℝ) (du : Fin m → ℝ) : List ℝ :=
  cs.flatMap fun c => List.ofFn (c.Jx *ᵥ dx + c.Ju *ᵥ du)

theorem slice_dot (v : List ℝ) (s : ℕ) {n : ℕ} (w : Fin n → ℝ) (h : s + n ≤ v.length) :
    slice v s n ⬝ᵥ w = ldot ((v.drop s).take n) (List.ofFn w) := by
  induction n generalizing s with
  | zero => simp [ldot]
  | succ n ih =>
    have hs : s < v.length := by omega
    have h1 : (v.drop s).take (n + 1) = v[s] :: (v.drop (s + 1)).take n := by
      rw [List.drop_eq_getElem_cons hs, List.take_succ_cons]
    rw [h1, List.ofFn_succ]
    unfold ldot at ih ⊢
    rw [List.zipWith_cons_cons, List.sum_cons, ← ih (s + 1) (fun k => w k.succ) (by omega)]
    simp only [dotProduct, Fin.sum_univ_succ, slice]
    congr 1
    · simp [hs]
    · refine Finset.sum_congr rfl fun k _ => ?_
      rw [Fin.val_succ, show s + (k.val + 1) = s + 1 + k.val by omega]

theorem ldot_append {a b c d : List ℝ} (h : a.length = c.length) : ldot (a ++ b) (c ++ d) = ldot a c + ldot b d := by
  unfold ldot
  rw [List.zipWith_append h, List.sum_append]

/-- The constraint contributions pair with a direction as the stacked multiplier with the stacked derivative. -/
theorem cstr_pair {n m : ℕ} (v : List ℝ) (cs : List (CFun n m)) (s : ℕ) (dx : Fin n → ℝ) (du : Fin m → ℝ)
    (h : v.length = s + (cs.map (·.dim)).sum) :
    cstrX v (cs.map cdata) s ⬝ᵥ dx + cstrU v (cs.map cdata) s ⬝ᵥ du = ldot (v.drop s) (stackDir cs dx du) := by
  induction cs generalizing s with
  | nil => simp [cstrX, cstrU, stackDir, ldot]
  | cons c cs ih =>
    simp only [List.map_cons, List.sum_cons] at h
    have := ih (s + c.dim) (by omega)
    have e : v.drop s = (v.drop s).take c.dim ++ v.drop (s + c.dim) := by
      conv_lhs => rw [← List.take_append_drop c.dim (v.drop s), List.drop_drop]
    rw [e]
    have h1 : stackDir (c :: cs) dx du = List.ofFn (c.Jx *ᵥ dx + c.Ju *ᵥ du) ++ stackDir cs dx du := rfl
    rw [h1, ldot_append (by simp; omega), ← slice_dot v s _ (by omega), ← this]
    simp only [List.map_cons, cstrX, cstrU, cdata, add_dotProduct, dotProduct_add]
    have hx : (c.Jxᵀ *ᵥ slice v s c.dim) ⬝ᵥ dx = slice v s c.dim ⬝ᵥ c.Jx *ᵥ dx := by
      rw [Matrix.mulVec_transpose, dotProduct_mulVec]
    have hu : (c.Juᵀ *ᵥ slice v s c.dim) ⬝ᵥ du = slice v s c.dim ⬝ᵥ c.Ju *ᵥ du := by
      rw [Matrix.mulVec_transpose, dotProduct_mulVec]
    rw [hx, hu]
    ring

/-- Shape of the stacked multipliers. -/
structure VShape (P : Problem nx nu N) (v : ℕ → List ℝ) : Prop where
  stage : ∀ i, i < N → (v i).length = ((P.c i).map (·.dim)).sum
  term : (v N).length = (P.cN.map (·.dim)).sum

/-- The pairing of the code's gradient with a direction. -/
def pair (g : Grad nx nu) (N : ℕ) (dx : ∀ i, Fin (nx i) → ℝ) (du : ∀ i, Fin (nu i) → ℝ) : ℝ :=
  (∑ i ∈ Finset.range (N + 1), g.Lxs i ⬝ᵥ dx i) + ∑ i ∈ Finset.range N, g.Lus i ⬝ᵥ du i

theorem pair_eq (P : Problem nx nu N) (l : Lams nx P.nc0) (v : ℕ → List ℝ) (hv : VShape P v)
    (dx : ∀ i, Fin (nx i) → ℝ) (du : ∀ i, Fin (nu i) → ℝ) :
    pair (compute (pdata P) (some l) v) N dx du =
      (∑ i ∈ Finset.range N, (P.lx i ⬝ᵥ dx i + P.lu i ⬝ᵥ du i)) + P.lNx ⬝ᵥ dx N + l.init ⬝ᵥ P.hx *ᵥ dx 0 +
      (∑ i ∈ Finset.range N, (l.dyn i ⬝ᵥ (P.fx i *ᵥ dx i + P.fu i *ᵥ du i - dx (i + 1)) +
        ldot (v i) (stackDir (P.c i) (dx i) (du i)))) + ldot (v N) (stackDir P.cN (dx N) 0) := by
  obtain ⟨h1, h2, h3⟩ := compute_eq (pdata P) (some l) v
  unfold pair
  rw [Finset.sum_range_succ, h2]
  have e1 : ∑ i ∈ Finset.range N, (compute (pdata P) (some l) v).Lxs i ⬝ᵥ dx i =
      ∑ i ∈ Finset.range N, (base (pdata P) (some l) i +
        (P.lx i + (P.fx i)ᵀ *ᵥ l.dyn i + cstrX (v i) ((P.c i).map cdata) 0)) ⬝ᵥ dx i :=
    Finset.sum_congr rfl fun i hi => by rw [h1 i (Finset.mem_range.1 hi)]; rfl
  have e2 : ∑ i ∈ Finset.range N, (compute (pdata P) (some l) v).Lus i ⬝ᵥ du i =
      ∑ i ∈ Finset.range N, (P.lu i + (P.fu i)ᵀ *ᵥ l.dyn i + cstrU (v i) ((P.c i).map cdata) 0) ⬝ᵥ du i :=
    Finset.sum_congr rfl fun i hi => by rw [h3 i (Finset.mem_range.1 hi)]; rfl
  rw [e1, e2]
  have eb : ∑ i ∈ Finset.range (N + 1), base (pdata P) (some l) i ⬝ᵥ dx i =
      l.init ⬝ᵥ P.hx *ᵥ dx 0 - ∑ i ∈ Finset.range N, l.dyn i ⬝ᵥ dx (i + 1) := by
    rw [Finset.sum_range_succ', add_comm, sub_eq_add_neg, ← Finset.sum_neg_distrib]
    congr 1
    · show (P.hxᵀ *ᵥ l.init) ⬝ᵥ dx 0 = _
      rw [Matrix.mulVec_transpose, dotProduct_mulVec]
    · refine Finset.sum_congr rfl fun i _ => ?_
      show (-l.dyn i) ⬝ᵥ dx (i + 1) = _
      rw [neg_dotProduct]
  rw [Finset.sum_range_succ] at eb
  have ec : ∀ i, i < N → cstrX (v i) ((P.c i).map cdata) 0 ⬝ᵥ dx i + cstrU (v i) ((P.c i).map cdata) 0 ⬝ᵥ du i =
      ldot (v i) (stackDir (P.c i) (dx i) (du i)) := by
    intro i hi
    have := cstr_pair (v i) (P.c i) 0 (dx i) (du i) (by rw [hv.stage i hi, Nat.zero_add])
    rwa [List.drop_zero] at this
  have et : cstrX (v N) (P.cN.map cdata) 0 ⬝ᵥ dx N = ldot (v N) (stackDir P.cN (dx N) 0) := by
    have := cstr_pair (v N) P.cN 0 (dx N) 0 (by rw [hv.term, Nat.zero_add])
    rw [List.drop_zero, dotProduct_zero, add_zero] at this
    exact this
  have es : ∑ i ∈ Finset.range N, ((base (pdata P) (some l) i +
        (P.lx i + (P.fx i)ᵀ *ᵥ l.dyn i + cstrX (v i) ((P.c i).map cdata) 0)) ⬝ᵥ dx i +
        (P.lu i + (P.fu i)ᵀ *ᵥ l.dyn i + cstrU (v i) ((P.c i).map cdata) 0) ⬝ᵥ du i) =
      ∑ i ∈ Finset.range N, (base (pdata P) (some l) i ⬝ᵥ dx i + ((P.lx i ⬝ᵥ dx i + P.lu i ⬝ᵥ du i) +
        (l.dyn i ⬝ᵥ (P.fx i *ᵥ dx i + P.fu i *ᵥ du i) + ldot (v i) (stackDir (P.c i) (dx i) (du i))))) := by
    refine Finset.sum_congr rfl fun i hi => ?_
    rw [← ec i (Finset.mem_range.1 hi)]
    simp only [add_dotProduct, dotProduct_add]
    have hx : ((P.fx i)ᵀ *ᵥ l.dyn i) ⬝ᵥ dx i = l.dyn i ⬝ᵥ P.fx i *ᵥ dx i := by
      rw [Matrix.mulVec_transpose, dotProduct_mulVec]
    have hu : ((P.fu i)ᵀ *ᵥ l.dyn i) ⬝ᵥ du i = l.dyn i ⬝ᵥ P.fu i *ᵥ du i := by
      rw [Matrix.mulVec_transpose, dotProduct_mulVec]
    rw [hx, hu]
    ring
  have key : ∀ A B C : ℝ, A + B + C = (A + C) + B := fun A B C => by ring
  rw [key, ← Finset.sum_add_distrib, es, Finset.sum_add_distrib, Finset.sum_add_distrib]
  have ed : ∑ i ∈ Finset.range N, (l.dyn i ⬝ᵥ (P.fx i *ᵥ dx i + P.fu i *ᵥ du i - dx (i + 1)) +
        ldot (v i) (stackDir (P.c i) (dx i) (du i))) =
      ∑ i ∈ Finset.range N, (l.dyn i ⬝ᵥ (P.fx i *ᵥ dx i + P.fu i *ᵥ du i) +
        ldot (v i) (stackDir (P.c i) (dx i) (du i))) - ∑ i ∈ Finset.range N, l.dyn i ⬝ᵥ dx (i + 1) := by
    rw [← Finset.sum_sub_distrib]
    refine Finset.sum_congr rfl fun i _ => ?_
    rw [dotProduct_sub]; ring
  rw [ed]
  have et' : (base (pdata P) (some l) N + ((pdata P).termLx + cstrX (v N) (pdata P).termCstr 0)) ⬝ᵥ dx N =
      base (pdata P) (some l) N ⬝ᵥ dx N + (P.lNx ⬝ᵥ dx N + ldot (v N) (stackDir P.cN (dx N) 0)) := by
    rw [add_dotProduct, add_dotProduct, ← et]; rfl
  rw [et']
  linarith [eb]

/-! Derivatives of the parts -/

theorem hasDerivAt_dot {n : ℕ} (lam : Fin n → ℝ) {F : ℝ → Fin n → ℝ} {D : Fin n → ℝ} {a : ℝ} (h : HasDerivAt F D a) :
    HasDerivAt (fun t => lam ⬝ᵥ F t) (lam ⬝ᵥ D) a := by
  unfold dotProduct
  exact HasDerivAt.fun_sum fun i _ => (hasDerivAt_pi.1 h i).const_mul (lam i)

theorem hasDerivAt_line {n : ℕ} (x dx : Fin n → ℝ) : HasDerivAt (fun t : ℝ => x + t • dx) dx 0 := by
  simpa using ((hasDerivAt_id (0 : ℝ)).smul_const dx).const_add x

theorem hasDerivAt_stack {n m : ℕ} (cs : List (CFun n m)) (x dx : Fin n → ℝ) (u du : Fin m → ℝ)
    (h : ∀ c ∈ cs, c.Right x u) (v : List ℝ) :
    HasDerivAt (fun t : ℝ => ldot v (stack cs (x + t • dx) (u + t • du))) (ldot v (stackDir cs dx du)) 0 := by
  induction cs generalizing v with
  | nil => simpa [stack, stackDir, ldot] using hasDerivAt_const (0 : ℝ) (0 : ℝ)
  | cons c cs ih =>
    have e : ∀ w : Fin c.dim → ℝ, ∀ r : List ℝ, ldot v (List.ofFn w ++ r) =
        (fun k : Fin c.dim => v.getD k 0) ⬝ᵥ w + ldot (v.drop c.dim) r := by
      intro w r
      generalize c.dim = d at w
      induction d generalizing v with
      | zero => simp [dotProduct]
      | succ d ihd =>
        cases v with
        | nil => simp [ldot, dotProduct]
        | cons a v =>
          have := ihd v (fun k => w k.succ)
          rw [List.ofFn_succ, List.cons_append]
          unfold ldot at this ⊢
          rw [List.zipWith_cons_cons, List.sum_cons, this]
          simp only [dotProduct, Fin.sum_univ_succ, List.drop_succ_cons]
          simp [add_assoc]
    have h1 := hasDerivAt_dot (fun k : Fin c.dim => v.getD k 0) (h c (by simp) dx du)
    have h2 := ih (fun c hc => h c (by simp [hc])) (v.drop c.dim)
    have := h1.add h2
    simp only [stack, stackDir, List.flatMap_cons, e]
    exact this

/-- **C27** The computed gradient is the gradient of the Lagrangian: for every horizon, dimensions, problem data, trajectory,
multipliers and direction, the inner product of the code's `(Lxs, Lus)` with the direction is the derivative of the Lagrangian
along it. -/
theorem C27_lagrangian_gradient (P : Problem nx nu N) (x : ∀ i, Fin (nx i) → ℝ) (u : ∀ i, Fin (nu i) → ℝ) (hP : P.Right x u)
    (l : Lams nx P.nc0) (v : ℕ → List ℝ) (hv : VShape P v) (dx : ∀ i, Fin (nx i) → ℝ) (du : ∀ i, Fin (nu i) → ℝ) :
    HasDerivAt (fun t : ℝ => lagrangian P l.init l.dyn v (fun i => x i + t • dx i) (fun i => u i + t • du i))
      (pair (compute (pdata P) (some l) v) N dx du) 0 := by
  rw [pair_eq P l v hv dx du]
  unfold lagrangian cost
  refine ((((HasDerivAt.fun_sum fun i hi => hP.l i (Finset.mem_range.1 hi) (dx i) (du i)).add (hP.lN (dx N))).add
    (hasDerivAt_dot _ (hP.h (dx 0)))).add (HasDerivAt.fun_sum fun i hi => ?_)).add ?_
  · have hi := Finset.mem_range.1 hi
    exact (hasDerivAt_dot _ ((hP.f i hi (dx i) (du i)).sub (hasDerivAt_line (x (i + 1)) (dx (i + 1))))).add
      (hasDerivAt_stack _ _ _ _ _ (hP.c i hi) _)
  · have := hasDerivAt_stack P.cN (x N) (dx N) 0 0 hP.cN (v N)
    simpa using this

theorem pair_none (P : Problem nx nu N) (v : ℕ → List ℝ) (dx : ∀ i, Fin (nx i) → ℝ) (du : ∀ i, Fin (nu i) → ℝ) :
    pair (compute (pdata P) none v) N dx du = pair (compute (pdata P) (some ⟨0, fun _ => 0⟩) v) N dx du := by
  obtain ⟨h1, h2, h3⟩ := compute_eq (pdata P) none v
  obtain ⟨k1, k2, k3⟩ := compute_eq (pdata P) (some ⟨0, fun _ => 0⟩) v
  have hb : ∀ i, base (pdata P) none i = base (pdata P) (some ⟨0, fun _ => 0⟩) i := by
    intro i; cases i <;> simp [base]
  have hx : ∀ i, dynX (pdata P) none i = dynX (pdata P) (some ⟨0, fun _ => 0⟩) i := by intro i; simp [dynX]
  have hu : ∀ i, dynU (pdata P) none i = dynU (pdata P) (some ⟨0, fun _ => 0⟩) i := by intro i; simp [dynU]
  unfold pair
  congr 1
  · refine Finset.sum_congr rfl fun i hi => ?_
    by_cases hN : i = N
    · subst hN; rw [h2, k2, hb]
    · have hi : i < N := by rw [Finset.mem_range] at hi; omega
      rw [h1 i hi, k1 i hi, hb, hx]
  · refine Finset.sum_congr rfl fun i hi => ?_
    rw [h3 i (Finset.mem_range.1 hi), k3 i (Finset.mem_range.1 hi), hu]

/-- **C27** With an empty list of multipliers the result is the gradient of the Lagrangian without the terms of the initial
condition and of the dynamics. -/
theorem C27_without_multipliers (P : Problem nx nu N) (x : ∀ i, Fin (nx i) → ℝ) (u : ∀ i, Fin (nu i) → ℝ) (hP : P.Right x u)
    (v : ℕ → List ℝ) (hv : VShape P v) (dx : ∀ i, Fin (nx i) → ℝ) (du : ∀ i, Fin (nu i) → ℝ) :
    HasDerivAt (fun t : ℝ => lagrangianNoDyn P v (fun i => x i + t • dx i) (fun i => u i + t • du i))
      (pair (compute (pdata P) none v) N dx du) 0 := by
  have h := C27_lagrangian_gradient P x u hP ⟨0, fun _ => 0⟩ v hv dx du
  rw [pair_none]
  have e : ∀ x u, lagrangian P (0 : Fin P.nc0 → ℝ) (fun _ => 0) v x u = lagrangianNoDyn P v x u := by
    intro x u; simp [lagrangian, lagrangianNoDyn]
  simp only [e] at h
  exact h

/-! ### C28 -/

theorem dot_sum {a b : List ℝ} {n : ℕ} (ha : a.length = n) (hb : b.length = n) :
    CSets.Spec.dot a b = ∑ k ∈ Finset.range n, a.getD k 0 * b.getD k 0 := by
  subst hb
  refine ind2 (P := fun a b => CSets.Spec.dot a b = ∑ k ∈ Finset.range b.length, a.getD k 0 * b.getD k 0) (by simp) ?_ ha
  intro x y l m _ ih
  rw [dot_cons, ih, List.length_cons, Finset.sum_range_succ']
  simp [add_comm]

theorem sub_getD {a b : List ℝ} (h : a.length = b.length) (k : ℕ) :
    (CSets.Spec.sub a b).getD k 0 = a.getD k 0 - b.getD k 0 := by
  refine ind2 (P := fun a b => ∀ k, (CSets.Spec.sub a b).getD k 0 = a.getD k 0 - b.getD k 0) (by simp [CSets.Spec.sub]) ?_ h k
  intro x y l m _ ih k
  cases k with
  | zero => simp
  | succ k => simpa using ih k

theorem dist2_sum {a b : List ℝ} {n : ℕ} (ha : a.length = n) (hb : b.length = n) :
    CSets.Spec.dist2 a b = ∑ k ∈ Finset.range n, (a.getD k 0 - b.getD k 0) ^ 2 := by
  have hs : (CSets.Spec.sub a b).length = n := by rw [sub_length (by omega)]; omega
  unfold CSets.Spec.dist2
  rw [dot_sum hs hs]
  refine Finset.sum_congr rfl fun k _ => ?_
  rw [sub_getD (by omega)]; ring

theorem sqNorm_eq (v : List ℝ) : sqNorm v = CSets.Spec.dot v v := by
  induction v with
  | nil => rfl
  | cons a v ih =>
    rw [dot_cons, ← ih]; simp [sqNorm]

/-- Quadratic bound on the squared distance to a convex set. -/
theorem halfsq_bound {S : CSet} {C : List ℝ → Prop} {n : ℕ} (h : ProjectsOnto S C n) (out a b : List ℝ)
    (ho : out.length = n) (ha : a.length = n) (hb : b.length = n) :
    |1 / 2 * sqNorm (S.normalConeProjection b out) - 1 / 2 * sqNorm (S.normalConeProjection a out) -
      ∑ k ∈ Finset.range n, (S.normalConeProjection a out).getD k 0 * (b.getD k 0 - a.getD k 0)| ≤
      1 / 2 * ∑ k ∈ Finset.range n, (b.getD k 0 - a.getD k 0) ^ 2 := by
  have la := h.length a out ha ho
  have lb := h.length b out hb ho
  have ca := h.closest ha ho lb (h.mem b out hb ho)
  have cb := h.closest hb ho la (h.mem a out ha ho)
  have na := h.normal a out _ ha ho lb (h.mem b out hb ho)
  have nb := h.normal b out _ hb ho la (h.mem a out ha ho)
  rw [h.cone a out out ha ho ho, h.cone b out out hb ho ho, sqNorm_eq, sqNorm_eq]
  generalize S.projection a out = p at *
  generalize S.projection b out = q at *
  have l1 : (CSets.Spec.sub a p).length = n := by rw [sub_length (by omega)]; omega
  have l2 : (CSets.Spec.sub b q).length = n := by rw [sub_length (by omega)]; omega
  have l3 : (CSets.Spec.sub q p).length = n := by rw [sub_length (by omega)]; omega
  have l4 : (CSets.Spec.sub p q).length = n := by rw [sub_length (by omega)]; omega
  rw [dist2_sum ha la, dist2_sum ha lb] at ca
  rw [dist2_sum hb lb, dist2_sum hb la] at cb
  rw [dot_sum l1 l3] at na
  rw [dot_sum l2 l4] at nb
  rw [dot_sum l1 l1, dot_sum l2 l2]
  simp only [sub_getD (show a.length = p.length by omega), sub_getD (show b.length = q.length by omega),
    sub_getD (show q.length = p.length by omega), sub_getD (show p.length = q.length by omega)] at *
  have e1 : ∑ k ∈ Finset.range n, (b.getD k 0 - p.getD k 0) ^ 2 =
      ∑ k ∈ Finset.range n, (b.getD k 0 - a.getD k 0) ^ 2 +
      2 * ∑ k ∈ Finset.range n, (a.getD k 0 - p.getD k 0) * (b.getD k 0 - a.getD k 0) +
      ∑ k ∈ Finset.range n, (a.getD k 0 - p.getD k 0) * (a.getD k 0 - p.getD k 0) := by
    rw [Finset.mul_sum, ← Finset.sum_add_distrib, ← Finset.sum_add_distrib]
    exact Finset.sum_congr rfl fun k _ => by ring
  have e2 : ∑ k ∈ Finset.range n, (a.getD k 0 - q.getD k 0) ^ 2 =
      ∑ k ∈ Finset.range n, (b.getD k 0 - a.getD k 0) ^ 2 -
      2 * ∑ k ∈ Finset.range n, (b.getD k 0 - q.getD k 0) * (b.getD k 0 - a.getD k 0) +
      ∑ k ∈ Finset.range n, (b.getD k 0 - q.getD k 0) * (b.getD k 0 - q.getD k 0) := by
    rw [Finset.mul_sum, ← Finset.sum_sub_distrib, ← Finset.sum_add_distrib]
    exact Finset.sum_congr rfl fun k _ => by ring
  have e3 : ∑ k ∈ Finset.range n, (b.getD k 0 - q.getD k 0) * (b.getD k 0 - a.getD k 0) -
      ∑ k ∈ Finset.range n, (a.getD k 0 - p.getD k 0) * (b.getD k 0 - a.getD k 0) =
      ∑ k ∈ Finset.range n, ((b.getD k 0 - q.getD k 0) - (a.getD k 0 - p.getD k 0)) ^ 2 -
      ∑ k ∈ Finset.range n, (a.getD k 0 - p.getD k 0) * (q.getD k 0 - p.getD k 0) -
      ∑ k ∈ Finset.range n, (b.getD k 0 - q.getD k 0) * (p.getD k 0 - q.getD k 0) := by
    rw [← Finset.sum_sub_distrib, ← Finset.sum_sub_distrib, ← Finset.sum_sub_distrib]
    exact Finset.sum_congr rfl fun k _ => by ring
  have e4 : 0 ≤ ∑ k ∈ Finset.range n, ((b.getD k 0 - q.getD k 0) - (a.getD k 0 - p.getD k 0)) ^ 2 :=
    Finset.sum_nonneg fun k _ => sq_nonneg _
  have e5 : ∑ k ∈ Finset.range n, (a.getD k 0 - p.getD k 0) ^ 2 =
      ∑ k ∈ Finset.range n, (a.getD k 0 - p.getD k 0) * (a.getD k 0 - p.getD k 0) :=
    Finset.sum_congr rfl fun k _ => by ring
  have e6 : ∑ k ∈ Finset.range n, (b.getD k 0 - q.getD k 0) ^ 2 =
      ∑ k ∈ Finset.range n, (b.getD k 0 - q.getD k 0) * (b.getD k 0 - q.getD k 0) :=
    Finset.sum_congr rfl fun k _ => by ring
  rw [abs_le]
  constructor <;> linarith

/-- Half the squared norm of the normal-cone projection is differentiable along differentiable curves, also through kinks. -/
theorem hasDerivAt_halfsq {S : CSet} {C : List ℝ → Prop} {n : ℕ} (h : ProjectsOnto S C n) (out : List ℝ)
    (ho : out.length = n) (s : ℝ → List ℝ) (ds : List ℝ) (hs : ∀ t, (s t).length = n)
    (hd : ∀ k, k < n → HasDerivAt (fun t => (s t).getD k 0) (ds.getD k 0) 0) :
    HasDerivAt (fun t => 1 / 2 * sqNorm (S.normalConeProjection (s t) out))
      (∑ k ∈ Finset.range n, (S.normalConeProjection (s 0) out).getD k 0 * ds.getD k 0) 0 := by
  set D := ∑ k ∈ Finset.range n, (S.normalConeProjection (s 0) out).getD k 0 * ds.getD k 0 with hD
  set q : ℝ → ℝ := fun t => ∑ k ∈ Finset.range n, (S.normalConeProjection (s 0) out).getD k 0 *
    ((s t).getD k 0 - (s 0).getD k 0) with hq
  set E : ℝ → ℝ := fun t => ∑ k ∈ Finset.range n, ((s t).getD k 0 - (s 0).getD k 0) ^ 2 with hE
  have hq' : HasDerivAt q D 0 := by
    refine HasDerivAt.fun_sum fun k hk => ?_
    exact ((hd k (Finset.mem_range.1 hk)).sub_const _).const_mul _
  have hE' : HasDerivAt E 0 0 := by
    have : HasDerivAt E (∑ k ∈ Finset.range n, (2 : ℕ) * ((s 0).getD k 0 - (s 0).getD k 0) ^ (2 - 1) * ds.getD k 0) 0 :=
      HasDerivAt.fun_sum fun k hk => ((hd k (Finset.mem_range.1 hk)).sub_const _).pow 2
    simpa using this
  set g : ℝ → ℝ := fun t => 1 / 2 * sqNorm (S.normalConeProjection (s t) out) with hg
  have hr : HasDerivAt (fun t => g t - q t) 0 0 := by
    rw [hasDerivAt_iff_isLittleO]
    rw [hasDerivAt_iff_isLittleO] at hE'
    refine Asymptotics.IsBigO.trans_isLittleO (g := fun t => E t - E 0 - (t - 0) • (0 : ℝ)) ?_ hE'
    refine Asymptotics.IsBigO.of_bound (1 / 2) (Filter.Eventually.of_forall fun t => ?_)
    have hq0 : q 0 = 0 := by simp [hq]
    have hE0 : E 0 = 0 := by simp [hE]
    have hb := halfsq_bound h out (s 0) (s t) ho (hs 0) (hs t)
    have hEn : 0 ≤ E t := Finset.sum_nonneg fun k _ => sq_nonneg _
    rw [hq0, hE0]
    simp only [smul_zero, sub_zero, Real.norm_eq_abs]
    rw [abs_of_nonneg hEn]
    calc |g t - q t - g 0| = |g t - g 0 - q t| := by congr 1; ring
      _ ≤ 1 / 2 * E t := hb
  have h3 := hr.add hq'
  have e : (fun t => g t - q t) + q = g := by funext t; simp
  rw [zero_add, e] at h3
  exact h3

/-- The values along the trial step of length `t` (vector spaces). -/
noncomputable def valuesAt (P : Problem nx nu N) (x : ∀ i, Fin (nx i) → ℝ) (u : ∀ i, Fin (nu i) → ℝ) : Values nx P.nc0 where
  cost := cost P x u
  init := P.h (x 0)
  gap i := P.f i (x i) (u i) - x (i + 1)
  c i := if i < N then stack (P.c i) (x i) (u i) else stack P.cN (x N) 0

/-- The trial multipliers. -/
def lamsAt {nc0 : ℕ} (l dl : Lams nx nc0) (t : ℝ) : Lams nx nc0 :=
  ⟨l.init + t • dl.init, fun i => l.dyn i + t • dl.dyn i⟩

/-- The merit as a function of the step length (solvers/proxddp/solver-proxddp.hxx:113-154, :535-552, linear rollout). -/
noncomputable def meritAt (P : Problem nx nu N) (op : ℕ → CSet) (mu muDyn : ℝ) (x dx : ∀ i, Fin (nx i) → ℝ)
    (u du : ∀ i, Fin (nu i) → ℝ) (l dl : Lams nx P.nc0) (vPrev vs dvs out : ℕ → List ℝ) (t : ℝ) : ℝ :=
  let V := valuesAt P (fun i => x i + t • dx i) (fun i => u i + t • du i)
  let trialVs := fun i => List.zipWith (· + ·) (vs i) ((dvs i).map (t * ·))
  meritEvaluate muDyn mu N V.cost (lamsPlus mu muDyn (lamsAt l dl t) V) (vsPlus op mu vPrev trialVs out V)

/-- Dimension of the stacked constraints of stage `i`. -/
def ncOf (P : Problem nx nu N) (i : ℕ) : ℕ :=
  if i < N then ((P.c i).map (·.dim)).sum else (P.cN.map (·.dim)).sum

theorem stack_length {n m : ℕ} (cs : List (CFun n m)) (x : Fin n → ℝ) (u : Fin m → ℝ) :
    (stack cs x u).length = (cs.map (·.dim)).sum := by
  unfold stack
  rw [List.length_flatMap]
  congr 1
  refine List.map_congr_left fun c _ => ?_
  simp

theorem stackDir_length {n m : ℕ} (cs : List (CFun n m)) (x : Fin n → ℝ) (u : Fin m → ℝ) :
    (stackDir cs x u).length = (cs.map (·.dim)).sum := by
  unfold stackDir
  rw [List.length_flatMap]
  congr 1
  refine List.map_congr_left fun c _ => ?_
  simp

theorem hasDerivAt_stack_coord {n m : ℕ} (cs : List (CFun n m)) (x dx : Fin n → ℝ) (u du : Fin m → ℝ)
    (h : ∀ c ∈ cs, c.Right x u) (k : ℕ) :
    HasDerivAt (fun t : ℝ => (stack cs (x + t • dx) (u + t • du)).getD k 0) ((stackDir cs dx du).getD k 0) 0 := by
  have e : ∀ (k : ℕ) (w : List ℝ), ldot (List.replicate k 0 ++ [1]) w = w.getD k 0 := by
    intro k w
    induction k generalizing w with
    | zero => cases w <;> simp [ldot]
    | succ k ih =>
      cases w with
      | nil => simp [ldot]
      | cons a w =>
        have := ih w
        unfold ldot at this ⊢
        simp only [List.replicate_succ, List.cons_append, List.zipWith_cons_cons, List.sum_cons, zero_mul, zero_add,
          this]
        simp
  have := hasDerivAt_stack cs x dx u du h (List.replicate k 0 ++ [1])
  simp only [e] at this
  exact this

theorem getD_zipWith_add (a b : List ℝ) (h : a.length = b.length) (k : ℕ) :
    (List.zipWith (· + ·) a b).getD k 0 = a.getD k 0 + b.getD k 0 := by
  refine ind2 (P := fun a b => ∀ k, (List.zipWith (· + ·) a b).getD k 0 = a.getD k 0 + b.getD k 0) (by simp) ?_ h k
  intro x y l m _ ih k
  cases k with
  | zero => simp
  | succ k => simpa using ih k

theorem getD_map_mul (c : ℝ) (a : List ℝ) (k : ℕ) : (a.map (c * ·)).getD k 0 = c * a.getD k 0 := by
  induction a generalizing k with
  | nil => simp
  | cons x a ih =>
    cases k with
    | zero => simp
    | succ k => simpa using ih k

/-- Derivative of the penalty of the constraints of one stage. -/
theorem hasDerivAt_penalty {S : CSet} {C : List ℝ → Prop} {n : ℕ} (h : ProjectsOnto S C n) (mu : ℝ) (hmu : 0 < mu)
    (vPrev out : List ℝ) (v : ℝ → List ℝ) (hp : vPrev.length = n) (ho : out.length = n) (c : ℝ → List ℝ) (dc : List ℝ)
    (hc : ∀ t, (c t).length = n) (hdc : dc.length = n)
    (hd : ∀ k, k < n → HasDerivAt (fun t => (c t).getD k 0) (dc.getD k 0) 0) :
    HasDerivAt (fun t => 1 / 2 * (mu * sqNorm (multiplierStep S mu (c t) vPrev (v t) out []).vsPlus))
      (ldot (multiplierStep S mu (c 0) vPrev (v 0) out []).vsPlus dc) 0 := by
  have hl : ∀ t, (List.zipWith (· + ·) (c t) (vPrev.map (mu * ·))).length = n := fun t => by simp [hc, hp]
  have h1 := hasDerivAt_halfsq h out ho (fun t => List.zipWith (· + ·) (c t) (vPrev.map (mu * ·))) dc hl (by
    intro k hk
    have e : (fun t => (List.zipWith (· + ·) (c t) (vPrev.map (mu * ·))).getD k 0) =
        fun t => (c t).getD k 0 + (vPrev.map (mu * ·)).getD k 0 := by
      funext t; rw [getD_zipWith_add _ _ (by simp [hc, hp])]
    rw [e]
    exact (hd k hk).add_const _)
  have h2 := h1.const_mul (1 / mu)
  have e1 : ∀ w : List ℝ, sqNorm (w.map (1 / mu * ·)) = (1 / mu) ^ 2 * sqNorm w := by
    intro w
    induction w with
    | nil => simp [sqNorm]
    | cons a w ih =>
      unfold sqNorm at ih ⊢
      simp only [List.map_cons, List.sum_cons, ih]; ring
  have e2 : (fun t => 1 / 2 * (mu * sqNorm (multiplierStep S mu (c t) vPrev (v t) out []).vsPlus)) =
      fun t => 1 / mu * (1 / 2 * sqNorm (S.normalConeProjection (List.zipWith (· + ·) (c t) (vPrev.map (mu * ·))) out)) := by
    funext t
    show 1 / 2 * (mu * sqNorm ((S.normalConeProjection (List.zipWith (· + ·) (c t) (vPrev.map (mu * ·))) out).map
      (1 / mu * ·))) = _
    rw [e1]; field_simp
  rw [e2]
  refine HasDerivAt.congr_deriv h2 (Eq.symm ?_)
  have hN : (S.normalConeProjection (List.zipWith (· + ·) (c 0) (vPrev.map (mu * ·))) out).length = n := by
    rw [h.cone _ out out (hl 0) ho ho, sub_length (by rw [h.length _ out (hl 0) ho, hl 0]), hl 0]
  show CSets.Spec.dot ((S.normalConeProjection (List.zipWith (· + ·) (c 0) (vPrev.map (mu * ·))) out).map (1 / mu * ·)) dc = _
  rw [dot_sum (n := n) (by rw [List.length_map, hN]) hdc, Finset.mul_sum]
  refine Finset.sum_congr rfl fun k _ => ?_
  rw [getD_map_mul]; ring

theorem foldl_add_sum (F : ℕ → ℝ) (n : ℕ) (a : ℝ) :
    (List.range n).foldl (fun d i => d + F i) a = a + ∑ i ∈ Finset.range n, F i := by
  induction n with
  | zero => simp
  | succ n ih => rw [List.range_succ, List.foldl_append, ih, Finset.sum_range_succ]; simp [add_assoc]

theorem directionalDerivative_eq_pair (pd : ProbData nx nu N) (l : Lams nx pd.nc0) (v : ℕ → List ℝ)
    (dx : ∀ i, Fin (nx i) → ℝ) (du : ∀ i, Fin (nu i) → ℝ) :
    directionalDerivative pd l v dx du = pair (compute pd (some l) v) N dx du := by
  unfold directionalDerivative pair
  simp only [add_assoc]
  rw [foldl_add_sum, Finset.sum_range_succ', Finset.sum_add_distrib]
  ring

theorem hasDerivAt_sq {n : ℕ} {F : ℝ → Fin n → ℝ} {D : Fin n → ℝ} (h : HasDerivAt F D 0) (m : ℝ) :
    HasDerivAt (fun t => 1 / 2 * (m * (F t ⬝ᵥ F t))) (m * (F 0 ⬝ᵥ D)) 0 := by
  have h1 : HasDerivAt (fun t => F t ⬝ᵥ F t) (∑ i, (D i * F 0 i + F 0 i * D i)) 0 := by
    unfold dotProduct
    exact HasDerivAt.fun_sum fun i _ => (hasDerivAt_pi.1 h i).mul (hasDerivAt_pi.1 h i)
  have h2 := (h1.const_mul m).const_mul (1 / 2)
  refine HasDerivAt.congr_deriv h2 (Eq.symm ?_)
  unfold dotProduct
  rw [Finset.mul_sum, Finset.mul_sum, Finset.mul_sum]
  exact Finset.sum_congr rfl fun i _ => by ring

/-- **C28** The derivative of the merit function along the trial step is the number that the code hands to the line search
plus the terms of the multiplier directions, which the code leaves out.  For every horizon, dimensions, differentiable data,
constraint sets with a Euclidean projection, direction, multipliers and penalties; also where the projections have kinks. -/
theorem C28_merit_derivative (P : Problem nx nu N) (x dx : ∀ i, Fin (nx i) → ℝ) (u du : ∀ i, Fin (nu i) → ℝ)
    (hP : P.Right x u) (op : ℕ → CSet) (C : ℕ → List ℝ → Prop) (hop : ∀ i, i ≤ N → ProjectsOnto (op i) (C i) (ncOf P i))
    (mu muDyn : ℝ) (hmu : 0 < mu) (hmuDyn : 0 < muDyn) (l dl : Lams nx P.nc0) (vPrev vs dvs out : ℕ → List ℝ)
    (hp : ∀ i, i ≤ N → (vPrev i).length = ncOf P i) (ho : ∀ i, i ≤ N → (out i).length = ncOf P i) :
    let V := valuesAt P x u
    let lP := lamsPlus mu muDyn l V
    let vP := vsPlus op mu vPrev vs out V
    HasDerivAt (meritAt P op mu muDyn x dx u du l dl vPrev vs dvs out)
      (directionalDerivative (pdata P) lP vP dx du +
        (mu * (lP.init ⬝ᵥ dl.init) + muDyn * ∑ i ∈ Finset.range N, lP.dyn i ⬝ᵥ dl.dyn i)) 0 := by
  intro V lP vP
  -- lengths
  have lc : ∀ (x : ∀ i, Fin (nx i) → ℝ) (u : ∀ i, Fin (nu i) → ℝ) (i : ℕ), ((valuesAt P x u).c i).length = ncOf P i := by
    intro x u i
    unfold valuesAt ncOf
    dsimp only
    split
    · rw [stack_length]
    · rw [stack_length]
  have lvP : ∀ i, i ≤ N → (vP i).length = ncOf P i := by
    intro i hi
    have ls : (List.zipWith (· + ·) (V.c i) ((vPrev i).map (mu * ·))).length = ncOf P i := by
      rw [List.length_zipWith, lc x u i, List.length_map, hp i hi, min_self]
    show (((op i).normalConeProjection (List.zipWith (· + ·) (V.c i) ((vPrev i).map (mu * ·))) (out i)).map _).length = _
    rw [List.length_map, (hop i hi).cone _ (out i) (out i) ls (ho i hi) (ho i hi),
      sub_length (by rw [(hop i hi).length _ _ ls (ho i hi), ls]), ls]
  have hv : VShape P vP := ⟨fun i hi => by rw [lvP i hi.le, ncOf, if_pos hi],
    by rw [lvP N le_rfl, ncOf, if_neg (lt_irrefl N)]⟩
  rw [show directionalDerivative (pdata P) lP vP dx du = _ from directionalDerivative_eq_pair (pdata P) lP vP dx du,
    pair_eq P lP vP hv dx du]
  -- the pieces
  have hcost : HasDerivAt (fun t : ℝ => cost P (fun i => x i + t • dx i) (fun i => u i + t • du i))
      ((∑ i ∈ Finset.range N, (P.lx i ⬝ᵥ dx i + P.lu i ⬝ᵥ du i)) + P.lNx ⬝ᵥ dx N) 0 :=
    (HasDerivAt.fun_sum fun i hi => hP.l i (Finset.mem_range.1 hi) (dx i) (du i)).add (hP.lN (dx N))
  have hinit : HasDerivAt (fun t : ℝ => fun k => (l.init + t • dl.init) k + P.h (x 0 + t • dx 0) k / mu)
      (dl.init + (1 / mu) • P.hx *ᵥ dx 0) 0 := by
    rw [hasDerivAt_pi]
    intro k
    have h1 := hasDerivAt_pi.1 (hasDerivAt_line l.init dl.init) k
    have h2 := (hasDerivAt_pi.1 (hP.h (dx 0)) k).div_const mu
    have h3 := h1.add h2
    refine HasDerivAt.congr_deriv h3 (Eq.symm ?_)
    simp only [Pi.add_apply, Pi.smul_apply, smul_eq_mul]
    ring
  have hdyn : ∀ i, i < N → HasDerivAt (fun t : ℝ => fun k => (l.dyn i + t • dl.dyn i) k +
        (P.f i (x i + t • dx i) (u i + t • du i) - (x (i + 1) + t • dx (i + 1))) k / muDyn)
      (dl.dyn i + (1 / muDyn) • (P.fx i *ᵥ dx i + P.fu i *ᵥ du i - dx (i + 1))) 0 := by
    intro i hi
    rw [hasDerivAt_pi]
    intro k
    have h1 := hasDerivAt_pi.1 (hasDerivAt_line (l.dyn i) (dl.dyn i)) k
    have h2 := (hasDerivAt_pi.1 ((hP.f i hi (dx i) (du i)).sub (hasDerivAt_line (x (i + 1)) (dx (i + 1)))) k).div_const muDyn
    have h3 := h1.add h2
    refine HasDerivAt.congr_deriv h3 (Eq.symm ?_)
    simp only [Pi.add_apply, Pi.smul_apply, smul_eq_mul]
    ring
  have hpen : ∀ i, i ≤ N → HasDerivAt (fun t : ℝ => 1 / 2 * (mu * sqNorm (vsPlus op mu vPrev
        (fun i => List.zipWith (· + ·) (vs i) ((dvs i).map (t * ·))) out
        (valuesAt P (fun i => x i + t • dx i) (fun i => u i + t • du i)) i)))
      (ldot (vP i) (if i < N then stackDir (P.c i) (dx i) (du i) else stackDir P.cN (dx N) 0)) 0 := by
    intro i hi
    have := hasDerivAt_penalty (hop i hi) mu hmu (vPrev i) (out i)
      (fun t => List.zipWith (· + ·) (vs i) ((dvs i).map (t * ·))) (hp i hi) (ho i hi)
      (fun t => (valuesAt P (fun i => x i + t • dx i) (fun i => u i + t • du i)).c i)
      (if i < N then stackDir (P.c i) (dx i) (du i) else stackDir P.cN (dx N) 0)
      (fun t => lc _ _ i) (by unfold ncOf; split <;> rw [stackDir_length]) (by
        intro k _
        simp only [valuesAt]
        by_cases hiN : i < N
        · simp only [if_pos hiN]
          exact hasDerivAt_stack_coord _ _ _ _ _ (hP.c i hiN) k
        · simp only [if_neg hiN]
          have := hasDerivAt_stack_coord P.cN (x N) (dx N) 0 0 hP.cN k
          simpa using this)
    refine HasDerivAt.congr_deriv this (congrArg (fun w => ldot w _) (Eq.symm ?_))
    show vsPlus op mu vPrev vs out V i = _
    simp only [vsPlus, multiplierStep, V]
    simp
  -- assemble
  have e : meritAt P op mu muDyn x dx u du l dl vPrev vs dvs out = fun t : ℝ =>
      cost P (fun i => x i + t • dx i) (fun i => u i + t • du i) +
      (1 / 2 * (mu * ((fun k => (l.init + t • dl.init) k + P.h (x 0 + t • dx 0) k / mu) ⬝ᵥ
        (fun k => (l.init + t • dl.init) k + P.h (x 0 + t • dx 0) k / mu))) +
      ∑ i ∈ Finset.range N, (1 / 2 * (muDyn * ((fun k => (l.dyn i + t • dl.dyn i) k +
        (P.f i (x i + t • dx i) (u i + t • du i) - (x (i + 1) + t • dx (i + 1))) k / muDyn) ⬝ᵥ
        (fun k => (l.dyn i + t • dl.dyn i) k +
        (P.f i (x i + t • dx i) (u i + t • du i) - (x (i + 1) + t • dx (i + 1))) k / muDyn))) +
        1 / 2 * (mu * sqNorm (vsPlus op mu vPrev
        (fun i => List.zipWith (· + ·) (vs i) ((dvs i).map (t * ·))) out
        (valuesAt P (fun i => x i + t • dx i) (fun i => u i + t • du i)) i))) +
      1 / 2 * (mu * sqNorm (vsPlus op mu vPrev
        (fun i => List.zipWith (· + ·) (vs i) ((dvs i).map (t * ·))) out
        (valuesAt P (fun i => x i + t • dx i) (fun i => u i + t • du i)) N))) := by
    funext t
    unfold meritAt meritEvaluate
    simp only [add_assoc]
    rw [foldl_add_sum]
    simp only [lamsPlus, lamsAt, valuesAt, add_assoc]
  rw [e]
  have hall := hcost.add (((hasDerivAt_sq hinit mu).add (HasDerivAt.fun_sum fun i hi =>
    (hasDerivAt_sq (hdyn i (Finset.mem_range.1 hi)) muDyn).add (hpen i (Finset.mem_range.1 hi).le))).add (hpen N le_rfl))
  refine HasDerivAt.congr_deriv hall (Eq.symm ?_)
  have z0 : (fun k => (l.init + (0 : ℝ) • dl.init) k + P.h (x 0 + (0 : ℝ) • dx 0) k / mu) = lP.init := by
    funext k; simp [lP, lamsPlus, V, valuesAt]
  have z1 : ∀ i, (fun k => (l.dyn i + (0 : ℝ) • dl.dyn i) k +
        (P.f i (x i + (0 : ℝ) • dx i) (u i + (0 : ℝ) • du i) - (x (i + 1) + (0 : ℝ) • dx (i + 1))) k / muDyn) = lP.dyn i := by
    intro i; funext k; simp [lP, lamsPlus, V, valuesAt]
  simp only [z0, z1]
  rw [if_neg (lt_irrefl N)]
  have hs : ∑ i ∈ Finset.range N, (muDyn * (lP.dyn i ⬝ᵥ (dl.dyn i + (1 / muDyn) • (P.fx i *ᵥ dx i + P.fu i *ᵥ du i - dx (i + 1)))) +
      ldot (vP i) (if i < N then stackDir (P.c i) (dx i) (du i) else stackDir P.cN (dx N) 0)) =
      muDyn * (∑ i ∈ Finset.range N, lP.dyn i ⬝ᵥ dl.dyn i) +
      ∑ i ∈ Finset.range N, (lP.dyn i ⬝ᵥ (P.fx i *ᵥ dx i + P.fu i *ᵥ du i - dx (i + 1)) +
        ldot (vP i) (stackDir (P.c i) (dx i) (du i))) := by
    rw [Finset.mul_sum, ← Finset.sum_add_distrib]
    refine Finset.sum_congr rfl fun i hi => ?_
    rw [if_pos (Finset.mem_range.1 hi), dotProduct_add, dotProduct_smul, smul_eq_mul]
    field_simp
    ring
  rw [hs, dotProduct_add, dotProduct_smul, smul_eq_mul]
  field_simp
  ring

/-- **C28** (part) When the trial step leaves the multipliers of the initial condition and of the dynamics unchanged, the
directional derivative is right. -/
theorem C28_directional_derivative_partial (P : Problem nx nu N) (x dx : ∀ i, Fin (nx i) → ℝ) (u du : ∀ i, Fin (nu i) → ℝ)
    (hP : P.Right x u) (op : ℕ → CSet) (C : ℕ → List ℝ → Prop) (hop : ∀ i, i ≤ N → ProjectsOnto (op i) (C i) (ncOf P i))
    (mu muDyn : ℝ) (hmu : 0 < mu) (hmuDyn : 0 < muDyn) (l : Lams nx P.nc0) (vPrev vs dvs out : ℕ → List ℝ)
    (hp : ∀ i, i ≤ N → (vPrev i).length = ncOf P i) (ho : ∀ i, i ≤ N → (out i).length = ncOf P i) :
    HasDerivAt (meritAt P op mu muDyn x dx u du l ⟨0, fun _ => 0⟩ vPrev vs dvs out)
      (directionalDerivative (pdata P) (lamsPlus mu muDyn l (valuesAt P x u)) (vsPlus op mu vPrev vs out (valuesAt P x u)) dx du)
      0 := by
  have := C28_merit_derivative P x dx u du hP op C hop mu muDyn hmu hmuDyn l ⟨0, fun _ => 0⟩ vPrev vs dvs out hp ho
  refine HasDerivAt.congr_deriv this ?_
  simp
  rfl

/-- A problem with one stage of dimension one, dynamics `x' = x + u`, no cost. -/
def idle : Problem (fun _ => 1) (fun _ => 1) 1 where
  nc0 := 1
  h x := x
  hx := 1
  l _ _ _ := 0
  lx _ := 0
  lu _ := 0
  f _ x u := x + u
  fx _ := 1
  fu _ := 1
  c _ := []
  lN _ := 0
  lNx := 0
  cN := []

theorem idle_right : idle.Right (fun _ => 0) (fun _ => 0) := by
  refine ⟨fun dx => ?_, fun i _ dx du => ?_, fun i _ dx du => ?_, fun i _ c hc => ?_, fun dx => ?_, fun c hc => ?_⟩
  · simpa [idle] using hasDerivAt_line (0 : Fin 1 → ℝ) dx
  · simpa [idle, HasDir] using hasDerivAt_const (0 : ℝ) (0 : ℝ)
  · have := (hasDerivAt_line (0 : Fin 1 → ℝ) dx).add (hasDerivAt_line (0 : Fin 1 → ℝ) du)
    simp only [HasDir, idle, Matrix.one_mulVec]
    exact this
  · simp [idle] at hc
  · simpa [idle] using hasDerivAt_const (0 : ℝ) (0 : ℝ)
  · simp [idle] at hc

/-- **C28** fails as soon as the multipliers move.  At a feasible trajectory of a problem without costs, with the dynamics
multiplier 1 and the Newton step `dlam = -1` (nothing else moves), the merit decreases with slope `-muDyn`, but the code hands
the slope 0 to the line search (and its test `|dphi0| <= dphi_thresh` ends the inner loop). -/
theorem C28_dual_direction_ignored (muDyn : ℝ) (h : 0 < muDyn) :
    let x : ∀ i : ℕ, Fin ((fun _ => 1) i : ℕ) → ℝ := fun _ => 0
    let l : Lams (fun _ => 1) 1 := ⟨0, fun _ => 1⟩
    let dl : Lams (fun _ => 1) 1 := ⟨0, fun _ => -1⟩
    HasDerivAt (meritAt idle (fun _ => equality) 1 muDyn x x x x l dl (fun _ => []) (fun _ => []) (fun _ => []) fun _ => [])
      (-muDyn) 0 ∧
    directionalDerivative (pdata idle) (lamsPlus 1 muDyn l (valuesAt idle x x))
      (vsPlus (fun _ => equality) 1 (fun _ => []) (fun _ => []) (fun _ => []) (valuesAt idle x x)) x x = 0 := by
  intro x l dl
  have hd : directionalDerivative (pdata idle) (lamsPlus 1 muDyn l (valuesAt idle x x))
      (vsPlus (fun _ => equality) 1 (fun _ => []) (fun _ => []) (fun _ => []) (valuesAt idle x x)) x x = 0 := by
    unfold directionalDerivative
    simp [x, List.range_succ]
  refine ⟨?_, hd⟩
  have hn : ∀ i, ncOf idle i = 0 := by intro i; simp [ncOf, idle]
  have := C28_merit_derivative idle x x x x idle_right (fun _ => equality) (fun _ => CSets.Spec.Zero)
    (fun i _ => by rw [hn]; exact equality_projects 0) 1 muDyn one_pos h l dl (fun _ => []) (fun _ => []) (fun _ => [])
    (fun _ => []) (fun i _ => by rw [hn]; rfl) (fun i _ => by rw [hn]; rfl)
  refine HasDerivAt.congr_deriv this ?_
  refine (congrArg (· + _) hd).trans ?_
  simp [lamsPlus, l, dl, valuesAt, idle, x, dotProduct]

/-- A bilinear cost, a quadratic constraint and a linear one. -/
def bilinear : Problem (fun _ => 1) (fun _ => 1) 1 where
  nc0 := 1
  h x := x
  hx := 1
  l _ x u := x 0 * u 0
  lx _ := fun _ => 2
  lu _ := fun _ => 1
  f _ x u := x + u
  fx _ := 1
  fu _ := 1
  c _ := [⟨1, fun x _ _ => x 0 * x 0, fun _ _ => 2, 0⟩, ⟨1, fun _ u => u, 0, 1⟩]
  lN _ := 0
  lNx := 0
  cN := []

/-- The hypotheses of the theorems above are met: the derivatives are right at `x = 1`, `u = 2`. -/
theorem bilinear_right : bilinear.Right (fun _ _ => 1) (fun _ _ => 2) ∧ VShape bilinear (fun i => if i = 0 then [3, 4] else []) := by
  have coord : ∀ (x dx : Fin 1 → ℝ), HasDerivAt (fun t : ℝ => (x + t • dx) 0) (dx 0) 0 := fun x dx =>
    hasDerivAt_pi.1 (hasDerivAt_line x dx) 0
  refine ⟨⟨fun dx => ?_, fun i _ dx du => ?_, fun i _ dx du => ?_, fun i _ c hc dx du => ?_, fun dx => ?_, fun c hc => ?_⟩,
    ⟨fun i hi => ?_, ?_⟩⟩
  · refine HasDerivAt.congr_deriv (hasDerivAt_line (fun _ => 1 : Fin 1 → ℝ) dx) ?_
    simp [bilinear]
  · refine HasDerivAt.congr_deriv ((coord _ dx).mul (coord _ du)) ?_
    simp [bilinear, dotProduct]; ring
  · refine HasDerivAt.congr_deriv ((hasDerivAt_line _ dx).add (hasDerivAt_line _ du)) ?_
    simp [bilinear]
  · simp only [bilinear, List.mem_cons, List.not_mem_nil, or_false] at hc
    rcases hc with rfl | rfl
    · refine hasDerivAt_pi.2 fun k => HasDerivAt.congr_deriv ((coord _ dx).mul (coord _ dx)) ?_
      simp [mulVec, dotProduct]; ring
    · refine HasDerivAt.congr_deriv (hasDerivAt_line _ du) ?_
      simp
  · refine HasDerivAt.congr_deriv (hasDerivAt_const (0 : ℝ) (0 : ℝ)) ?_
    simp [bilinear]
  · simp [bilinear] at hc
  · obtain rfl : i = 0 := by omega
    simp [bilinear]
  · simp [bilinear]

end Aligator.Lag
