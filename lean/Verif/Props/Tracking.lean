import Verif.Spec.Tracking
import Verif.Lemmas.Derivatives
import Mathlib.Analysis.SpecialFunctions.Log.Basic

/-!
# C63: errors to a target, and tracking costs
-/

namespace Aligator.Track

open Matrix Aligator.Wrap Aligator.Deriv Aligator.Track.Spec

variable {a n m r b p : ℕ}

/-! ### Vectors and lists -/

theorem vec?_toList (x : Vec a) : vec? a (toList x) = some x := by
  have h : (toList x).length = a := by simp [toList]
  rw [vec?, dif_pos h]
  congr 1
  funext i
  simp only [toList, List.get_ofFn]
  rfl

theorem vec?_none {t : List ℝ} (h : t.length ≠ a) : vec? a t = none := by simp [vec?, h]

/-! ### The residuals -/

/-- Calls of the two methods of a residual on one data object. -/
inductive ECall (a m : ℕ)
  | value (x : Vec a) (u : Vec m)
  | jac (x : Vec a) (u : Vec m)

/-- One call on a residual with target `t`. -/
def ecall (f : TargetFun a n m r) (t : List ℝ) (d : FData n m r) : ECall a m → Option (FData n m r)
  | .value x u => f.evaluate t x u d
  | .jac x u => f.computeJacobians t x u d

/-- The columns of the control stay as they are. -/
theorem state_run (S : Space a n) (t : List ℝ) (cs : List (ECall a m)) (d e : FData n m n)
    (h : cs.foldlM (ecall (stateFun m S) t) d = some e) : ∀ i j, e.jac i (Fin.natAdd n j) = d.jac i (Fin.natAdd n j) := by
  induction cs generalizing d with
  | nil => intro i j; simp at h; rw [h]
  | cons c cs ih =>
    simp only [List.foldlM_cons, Option.bind_eq_bind] at h
    obtain ⟨d', h1, h2⟩ := Option.bind_eq_some_iff.mp h
    intro i j
    rw [ih d' h2 i j]
    cases c <;> simp only [ecall, stateFun, StateError.evaluate, StateError.computeJacobians] at h1 <;>
      split at h1 <;> simp at h1 <;> subst h1 <;> simp [setLeft]

/-- The columns of the state stay as they are. -/
theorem control_run (S : Space b p) (t : List ℝ) (cs : List (ECall a b)) (d e : FData n b p)
    (h : cs.foldlM (ecall (controlFun a n S) t) d = some e) :
    ∀ i j, e.jac i (Fin.castAdd b j) = d.jac i (Fin.castAdd b j) := by
  induction cs generalizing d with
  | nil => intro i j; simp at h; rw [h]
  | cons c cs ih =>
    simp only [List.foldlM_cons, Option.bind_eq_bind] at h
    obtain ⟨d', h1, h2⟩ := Option.bind_eq_some_iff.mp h
    intro i j
    rw [ih d' h2 i j]
    cases c <;> simp only [ecall, controlFun, ControlError.evaluate, ControlError.computeJacobians] at h1 <;>
      split at h1 <;> simp at h1
    · subst h1; rfl
    · obtain ⟨_, rfl⟩ := h1; simp [setRight]

theorem state_evaluate (S : Space a n) (t x : Vec a) (u : Vec m) (d : FData n m n) :
    (⟨S, toList t⟩ : StateError a n m).evaluate x u d = some { d with value := S.difference t x } := by
  simp only [StateError.evaluate, vec?_toList]

theorem state_jacobians (S : Space a n) (t x : Vec a) (u : Vec m) (d : FData n m n) :
    (⟨S, toList t⟩ : StateError a n m).computeJacobians x u d =
      some { d with jac := setLeft d.jac (S.Jdifference1 t x) } := by
  simp only [StateError.computeJacobians, vec?_toList]

theorem control_evaluate (S : Space b p) (t : Vec b) (x : Vec a) (u : Vec b) (d : FData n b p) :
    (⟨S, toList t⟩ : ControlError n b p).evaluate x u d = some { d with value := S.difference t u } := by
  simp only [ControlError.evaluate, vec?_toList]

theorem control_jacobians (S : Space b b) (t : Vec b) (x : Vec a) (u : Vec b) (d : FData n b b) :
    (⟨S, toList t⟩ : ControlError n b b).computeJacobians x u d =
      some { d with jac := setRight d.jac (S.Jdifference1 t u) } := by
  simp only [ControlError.computeJacobians, vec?_toList, dite_true]

/-- A state error with zero control columns is a Jacobian of the error along steps. -/
theorem state_jac {S : Space a n} {pt : Vec a → Prop} (hS : Lawful S pt) {t x : Vec a} (ht : pt t) (hx : pt x)
    (J : Mat n (n + m)) (hJ : ∀ i j, J i (Fin.natAdd n j) = 0) :
    IsJacobian (fun z : Vec (n + m) => S.difference t (S.integrate x (fst z))) (setLeft J (S.Jdifference1 t x)) 0 := by
  have h1 := hS.jacobian t x ht hx
  have h0 : (0 : Vec n) = fst (0 : Vec (n + m)) := rfl
  rw [h0] at h1
  refine (IsJacobian.comp h1 (isJacobian_fst 0)).congr ?_
  rw [mul_selFst]
  funext i
  simp only [setLeft, hJ]
  rfl

theorem control_jac {S : Space b b} {pt : Vec b → Prop} (hS : Lawful S pt) {t u : Vec b} (ht : pt t) (hu : pt u)
    (J : Mat b (n + b)) (hJ : ∀ i j, J i (Fin.castAdd b j) = 0) :
    IsJacobian (fun z : Vec (n + b) => S.difference t (S.integrate u (snd z))) (setRight J (S.Jdifference1 t u)) 0 := by
  have h1 := hS.jacobian t u ht hu
  have h0 : (0 : Vec b) = snd (0 : Vec (n + b)) := rfl
  rw [h0] at h1
  refine (IsJacobian.comp h1 (isJacobian_snd 0)).congr ?_
  rw [mul_selSnd]
  funext i
  simp only [setRight, hJ]
  rfl

/-- **C63.** The constructor of the state error accepts a target exactly if the manifold says it is a point.  On a data
object that has seen any calls, an evaluation leaves the step from the target to the state, zero exactly at the target, and
a Jacobian call leaves the derivative of the error along every step of state and control. -/
theorem C63_state_error (S : Space a n) (pt : Vec a → Prop) (hS : Lawful S pt) (t : Vec a) (ht : pt t) :
    (∀ l, (newStateError m S l).isSome ↔ S.isNormalized l = true) ∧
    ∀ f, newStateError m S (toList t) = some f → ∀ (cs : List (ECall a m)) (d : FData n m n),
      cs.foldlM (ecall (stateFun m S) f.target) FData.new = some d → ∀ (x : Vec a) (u : Vec m), pt x →
      (∃ e, f.evaluate x u d = some e ∧ S.integrate t e.value = x ∧ (e.value = 0 ↔ x = t) ∧ e.jac = d.jac) ∧
      ∃ e, f.computeJacobians x u d = some e ∧ e.value = d.value ∧
        IsJacobian (fun z : Vec (n + m) => S.difference t (S.integrate x (fst z))) e.jac 0 := by
  refine ⟨fun l => ?_, fun f hf cs d hd x u hx => ?_⟩
  · unfold newStateError; split <;> simp_all
  · have hf' : f = ⟨S, toList t⟩ := by
      unfold newStateError at hf; split at hf <;> simp_all
    subst hf'
    refine ⟨⟨_, state_evaluate _ _ _ _ _, ?_, ?_, rfl⟩, ?_⟩
    · exact hS.integrate_difference t x ht hx
    · refine ⟨fun h => ?_, fun h => ?_⟩
      · have := hS.integrate_difference t x ht hx
        dsimp only at h
        rw [h, hS.integrate_zero t ht] at this
        exact this.symm
      · subst h; exact hS.difference_self _ ht
    · refine ⟨_, state_jacobians _ _ _ _ _, rfl, ?_⟩
      exact state_jac hS ht hx _ fun i j => by rw [state_run S _ cs _ d hd]; rfl

/-- **C63.** The same for the control error, on control spaces whose points have as many coordinates as tangent vectors. -/
theorem C63_control_error_partial (S : Space b b) (pt : Vec b → Prop) (hS : Lawful S pt) (t : Vec b) (ht : pt t) :
    (∀ l, (newControlError n S l).isSome ↔ S.isNormalized l = true) ∧
    ∀ f, newControlError n S (toList t) = some f → ∀ (cs : List (ECall a b)) (d : FData n b b),
      cs.foldlM (ecall (controlFun a n S) f.target) FData.new = some d → ∀ (x : Vec a) (u : Vec b), pt u →
      (∃ e, f.evaluate x u d = some e ∧ S.integrate t e.value = u ∧ (e.value = 0 ↔ u = t) ∧ e.jac = d.jac) ∧
      ∃ e, f.computeJacobians x u d = some e ∧ e.value = d.value ∧
        IsJacobian (fun z : Vec (n + b) => S.difference t (S.integrate u (snd z))) e.jac 0 := by
  refine ⟨fun l => ?_, fun f hf cs d hd x u hu => ?_⟩
  · unfold newControlError; split <;> simp_all
  · have hf' : f = ⟨S, toList t⟩ := by
      unfold newControlError at hf; split at hf <;> simp_all
    subst hf'
    refine ⟨⟨_, control_evaluate _ _ _ _ _, ?_, ?_, rfl⟩, ?_⟩
    · exact hS.integrate_difference t u ht hu
    · refine ⟨fun h => ?_, fun h => ?_⟩
      · have := hS.integrate_difference t u ht hu
        dsimp only at h
        rw [h, hS.integrate_zero t ht] at this
        exact this.symm
      · subst h; exact hS.difference_self _ ht
    · refine ⟨_, control_jacobians _ _ _ _ _, rfl, ?_⟩
      exact control_jac hS ht hu _ fun i j => by rw [control_run S _ cs _ d hd]; rfl

/-- **C63.** What is missing: on a control space with another number of coordinates, the Jacobian call is undefined for
every target, control and data. -/
theorem C63_control_manifold (S : Space b p) (h : p ≠ b) (f : ControlError n b p) (x : Vec a) (u : Vec b)
    (d : FData n b p) : f.computeJacobians x u d = none := by
  unfold ControlError.computeJacobians
  split
  · rfl
  · rw [dif_neg h]

/-- Vector spaces obey the laws. -/
theorem euclid_lawful (n : ℕ) : Lawful (euclid n) fun _ => True where
  integrate_zero x _ := by simp [euclid]
  integrate_difference t x _ _ := by simp [euclid]
  difference_self t _ := by simp [euclid]
  jacobian t x _ _ := by
    refine (((IsJacobian.const x 0).add (IsJacobian.id 0)).sub (IsJacobian.const t 0)).congr_of' ?_ ?_
    · rfl
    · simp [euclid]

/-- **C63.** The shorter constructors: the control error of a dimension measures the control itself, that of a target the
difference to it. -/
theorem C63_euclidean (nu : ℕ) (t : List ℝ) (x : Vec a) (u : Vec nu) (v : Vec t.length) (d : FData n nu nu)
    (e : FData n t.length t.length) :
    (newControlErrorDim n nu).evaluate x u d = some { d with value := u } ∧
    (newControlErrorTarget n t).evaluate x v e = some { e with value := fun i => v i - t.get i } := by
  constructor
  · have h : List.replicate nu (0 : ℝ) = toList (0 : Vec nu) := by
      rw [toList]; exact (List.ofFn_const nu 0).symm
    simp only [newControlErrorDim, ControlError.evaluate, h, vec?_toList, euclid, sub_zero]
  · have h : vec? t.length t = some t.get := by rw [vec?, dif_pos rfl]; rfl
    simp only [newControlErrorTarget, newControlErrorDim, ControlError.evaluate, h, euclid]
    rfl

/-- **C63.** A target of a wrong size passes the constructor of a vector space and every later use is undefined. -/
theorem C63_target_size (t : List ℝ) (h : t.length ≠ n) (x : Vec n) (u : Vec m) (d : FData n m n) :
    ∃ f, newStateError m (euclid n) t = some f ∧ f.evaluate x u d = none ∧ f.computeJacobians x u d = none := by
  refine ⟨⟨euclid n, t⟩, by simp [newStateError, euclid], ?_, ?_⟩
  · simp [StateError.evaluate, vec?_none h]
  · simp [StateError.computeJacobians, vec?_none h]

/-! ### The costs -/

/-- The weighted square through the matrix. -/
theorem half_eq (W : Mat r r) (e : Vec r) : 1 / 2 * (e ⬝ᵥ (W *ᵥ e)) = half W e := by
  simp only [half, dotProduct, mulVec, Finset.mul_sum, mul_assoc]

theorem half_gradient {k : ℕ} (W : Mat r r) (hW : Wᵀ = W) {F : Vec k → Vec r} {J : Mat r k} {z : Vec k}
    (h : IsJacobian F J z) : IsGradient (fun y => half W (F y)) (Jᵀ *ᵥ (W *ᵥ F z)) z := by
  refine ((h.dot (h.mulVec W)).smul (1 / 2)).congr_of ?_ ?_
  · funext y; exact half_eq W (F y)
  · rw [transpose_mul, hW, ← mulVec_mulVec, ← two_smul ℝ, smul_smul]
    norm_num

/-- After any calls the target is the last one set, and the other members are those of the beginning. -/
theorem run_cost (f : TargetFun a n m r) (cs : List (Call a m)) (s s' : Cost r × Data n m r)
    (h : cs.foldlM (call f) s = some s') :
    s'.1.target = lastTarget s.1.target cs ∧ s'.1.W = s.1.W ∧ s'.1.gaussNewton = s.1.gaussNewton := by
  induction cs generalizing s with
  | nil => simp at h; subst h; simp [lastTarget]
  | cons c cs ih =>
    simp only [List.foldlM_cons, Option.bind_eq_bind] at h
    obtain ⟨s1, h1, h2⟩ := Option.bind_eq_some_iff.mp h
    obtain ⟨e1, e2, e3⟩ := ih s1 h2
    cases c <;> simp only [call, Option.map_eq_some_iff, Option.some.injEq] at h1
    · obtain ⟨d, -, rfl⟩ := h1; exact ⟨e1, e2, e3⟩
    · obtain ⟨d, -, rfl⟩ := h1; exact ⟨e1, e2, e3⟩
    · subst h1; exact ⟨e1, e2, e3⟩
    · subst h1; exact ⟨e1, e2, e3⟩

/-- What the residuals never do. -/
structure Tame (f : TargetFun a n m r) (P : Mat r (n + m) → Prop) : Prop where
  eval : ∀ t x u d e, f.evaluate t x u d = some e → e.jac = d.jac ∧ e.vhp = d.vhp
  jac : ∀ t x u d e, f.computeJacobians t x u d = some e → e.value = d.value ∧ e.vhp = d.vhp ∧ (P d.jac → P e.jac)

theorem state_tame (S : Space a n) : Tame (stateFun m S) fun J => ∀ i j, J i (Fin.natAdd n j) = 0 where
  eval t x u d e h := by
    simp only [stateFun, StateError.evaluate] at h
    split at h <;> simp at h
    subst h; exact ⟨rfl, rfl⟩
  jac t x u d e h := by
    simp only [stateFun, StateError.computeJacobians] at h
    split at h <;> simp at h
    subst h; exact ⟨rfl, rfl, fun h i j => by simpa [setLeft] using h i j⟩

theorem control_tame (S : Space b p) : Tame (controlFun a n S) fun J => ∀ i j, J i (Fin.castAdd b j) = 0 where
  eval t x u d e h := by
    simp only [controlFun, ControlError.evaluate] at h
    split at h <;> simp at h
    subst h; exact ⟨rfl, rfl⟩
  jac t x u d e h := by
    simp only [controlFun, ControlError.computeJacobians] at h
    split at h <;> simp at h
    obtain ⟨_, rfl⟩ := h; exact ⟨rfl, rfl, fun h i j => by simpa [setRight] using h i j⟩

variable {f : TargetFun a n m r} {P : Mat r (n + m) → Prop}

theorem evaluate_some {c : Cost r} {x : Vec a} {u : Vec m} {d e : Data n m r} (h : c.evaluate f x u d = some e) :
    ∃ res, f.evaluate c.target x u d.res = some res ∧ e.res = res ∧ e.value = half c.W res.value ∧
      e.hess = d.hess := by
  simp only [Cost.evaluate, Option.bind_eq_bind] at h
  obtain ⟨res, h1, h2⟩ := Option.bind_eq_some_iff.mp h
  simp at h2
  subst h2
  exact ⟨res, h1, rfl, by rw [← half_eq]; norm_num, rfl⟩

theorem gradients_some {c : Cost r} {x : Vec a} {u : Vec m} {d e : Data n m r} (h : c.computeGradients f x u d = some e) :
    ∃ res, f.computeJacobians c.target x u d.res = some res ∧ e.res = res ∧ e.grad = res.jacᵀ *ᵥ (c.W *ᵥ res.value) ∧
      e.hess = d.hess := by
  simp only [Cost.computeGradients, Option.bind_eq_bind] at h
  obtain ⟨res, h1, h2⟩ := Option.bind_eq_some_iff.mp h
  simp at h2
  subst h2
  exact ⟨res, h1, rfl, by simp [mulVec_mulVec], rfl⟩

theorem hessians_res (c : Cost r) (d : Data n m r) : (c.computeHessians d).res = d.res := by
  unfold Cost.computeHessians; dsimp only; split <;> rfl

theorem hessians_grad (c : Cost r) (d : Data n m r) : (c.computeHessians d).grad = d.grad := by
  unfold Cost.computeHessians; dsimp only; split <;> rfl

/-- Calls leave the second-order buffer of the residual, and the columns its Jacobian never writes. -/
theorem run_inv (hf : Tame f P) (cs : List (Call a m)) (s s' : Cost r × Data n m r)
    (h : cs.foldlM (call f) s = some s') :
    s'.2.res.vhp = s.2.res.vhp ∧ (P s.2.res.jac → P s'.2.res.jac) := by
  induction cs generalizing s with
  | nil => simp at h; subst h; exact ⟨rfl, id⟩
  | cons c cs ih =>
    simp only [List.foldlM_cons, Option.bind_eq_bind] at h
    obtain ⟨s1, h1, h2⟩ := Option.bind_eq_some_iff.mp h
    obtain ⟨e1, e2⟩ := ih s1 h2
    have : s1.2.res.vhp = s.2.res.vhp ∧ (P s.2.res.jac → P s1.2.res.jac) := by
      cases c <;> simp only [call, Option.map_eq_some_iff, Option.some.injEq] at h1
      · obtain ⟨d, hd, rfl⟩ := h1
        obtain ⟨res, hr, rfl, -⟩ := evaluate_some hd
        obtain ⟨a1, a2⟩ := hf.eval _ _ _ _ _ hr
        exact ⟨a2, fun h => by dsimp only; rw [a1]; exact h⟩
      · obtain ⟨d, hd, rfl⟩ := h1
        obtain ⟨res, hr, rfl, -⟩ := gradients_some hd
        obtain ⟨-, a2, a3⟩ := hf.jac _ _ _ _ _ hr
        exact ⟨a2, a3⟩
      · subst h1; dsimp only; rw [hessians_res]; exact ⟨rfl, id⟩
      · subst h1; exact ⟨rfl, id⟩
    exact ⟨e1.trans this.1, fun h => e2 (this.2 h)⟩

/-- Quiet calls keep the cost and the value of the residual. -/
theorem quiet_run (hf : Tame f P) (cs : List (Call a m)) (hq : ∀ c ∈ cs, Quiet c) (s s' : Cost r × Data n m r)
    (h : cs.foldlM (call f) s = some s') : s'.1 = s.1 ∧ s'.2.res.value = s.2.res.value := by
  induction cs generalizing s with
  | nil => simp at h; subst h; exact ⟨rfl, rfl⟩
  | cons c cs ih =>
    simp only [List.foldlM_cons, Option.bind_eq_bind] at h
    obtain ⟨s1, h1, h2⟩ := Option.bind_eq_some_iff.mp h
    obtain ⟨e1, e2⟩ := ih (fun c hc => hq c (List.mem_cons_of_mem _ hc)) s1 h2
    have hc := hq c List.mem_cons_self
    cases c <;> simp only [call, Option.map_eq_some_iff, Option.some.injEq] at h1
    · exact hc.elim
    · obtain ⟨d, hd, rfl⟩ := h1
      obtain ⟨res, hr, rfl, -⟩ := gradients_some hd
      exact ⟨e1, e2.trans (hf.jac _ _ _ _ _ hr).1⟩
    · subst h1; exact ⟨e1, e2.trans (by rw [hessians_res])⟩
    · exact hc.elim

/-- Calls of the Hessian keep the residual's buffers. -/
theorem hess_run (cs : List (Call a m)) (hq : ∀ c ∈ cs, OnlyHess c) (s s' : Cost r × Data n m r)
    (h : cs.foldlM (call f) s = some s') : s'.1 = s.1 ∧ s'.2.res = s.2.res ∧ s'.2.grad = s.2.grad := by
  induction cs generalizing s with
  | nil => simp at h; subst h; exact ⟨rfl, rfl, rfl⟩
  | cons c cs ih =>
    simp only [List.foldlM_cons, Option.bind_eq_bind] at h
    obtain ⟨s1, h1, h2⟩ := Option.bind_eq_some_iff.mp h
    obtain ⟨e1, e2, e3⟩ := ih (fun c hc => hq c (List.mem_cons_of_mem _ hc)) s1 h2
    have hc := hq c List.mem_cons_self
    cases c <;> simp only [call, Option.map_eq_some_iff, Option.some.injEq] at h1 <;> try exact hc.elim
    subst h1; exact ⟨e1, e2.trans (hessians_res _ _), e3.trans (hessians_grad _ _)⟩

/-- A run up to an evaluation, quiet calls, a gradient and calls of the Hessian. -/
theorem session (hf : Tame f P) (h0 : P 0) (c0 : Cost r) (x : Vec a) (u : Vec m) (cs hs ks : List (Call a m))
    (hq : ∀ c ∈ hs, Quiet c) (ho : ∀ c ∈ ks, OnlyHess c) (s : Cost r × Data n m r)
    (h : (cs ++ .value x u :: (hs ++ .grad x u :: ks)).foldlM (call f) (c0, Data.new) = some s) :
    ∃ d0 e d1 g : FData n m r, f.evaluate (lastTarget c0.target cs) x u d0 = some e ∧ d1.value = e.value ∧ P d1.jac ∧
      f.computeJacobians (lastTarget c0.target cs) x u d1 = some g ∧ s.2.res = g ∧ g.value = e.value ∧ g.vhp = 0 ∧
      s.2.grad = g.jacᵀ *ᵥ (c0.W *ᵥ e.value) ∧ s.1.W = c0.W ∧ s.1.gaussNewton = c0.gaussNewton := by
  rw [List.foldlM_append] at h
  simp only [Option.bind_eq_bind] at h
  obtain ⟨s1, h1, h⟩ := Option.bind_eq_some_iff.mp h
  simp only [List.foldlM_cons, Option.bind_eq_bind] at h
  obtain ⟨s2, h2, h⟩ := Option.bind_eq_some_iff.mp h
  rw [List.foldlM_append] at h
  simp only [Option.bind_eq_bind] at h
  obtain ⟨s3, h3, h⟩ := Option.bind_eq_some_iff.mp h
  simp only [List.foldlM_cons, Option.bind_eq_bind] at h
  obtain ⟨s4, h4, h⟩ := Option.bind_eq_some_iff.mp h
  obtain ⟨a1, a2, a3⟩ := run_cost f cs _ s1 h1
  obtain ⟨b1, b2⟩ := run_inv hf cs _ s1 h1
  obtain ⟨c1, c2⟩ := quiet_run hf hs hq s2 s3 h3
  obtain ⟨d1, d2⟩ := run_inv hf hs s2 s3 h3
  obtain ⟨e1, e2, e3⟩ := hess_run ks ho s4 s h
  simp only [call, Option.map_eq_some_iff] at h2 h4
  obtain ⟨dd, hd, rfl⟩ := h2
  obtain ⟨res, hr, rfl, -⟩ := evaluate_some hd
  obtain ⟨gg, hg, rfl⟩ := h4
  obtain ⟨res', hr', rfl, hgr, -⟩ := gradients_some hg
  dsimp only at c1 c2 d1 d2
  obtain ⟨f1, f2⟩ := hf.eval _ _ _ _ _ hr
  obtain ⟨g1, g2, -⟩ := hf.jac _ _ _ _ _ hr'
  rw [a1] at hr
  rw [c1, a1] at hr'
  refine ⟨_, _, _, _, hr, c2, d2 (f1 ▸ b2 h0), hr', e2, g1.trans c2, ?_, ?_, ?_, ?_⟩
  · exact g2.trans (d1.trans (f2.trans b1))
  · rw [e3]
    dsimp only
    rw [hgr, c1, a2, g1, c2]
  · rw [e1]; dsimp only; rw [c1, a2]
  · rw [e1]; dsimp only; rw [c1, a3]

theorem newStateCost_some {S : Space a n} {t0 : List ℝ} {W : Mat n n} {c0 : Cost n} (h : newStateCost S t0 W = some c0) :
    c0 = ⟨W, t0, true⟩ := by
  unfold newStateCost newStateError at h
  split at h
  · simp at h
  · rename_i e he
    split at he <;> simp at he h
    subst he; exact h.symm

/-- **C63.** After any calls, with targets changed at any time, an evaluation gives half the weighted square of the step
from the target in force to the state. -/
theorem C63_state_cost_value (S : Space a n) (t0 : List ℝ) (W : Mat n n) (c0 : Cost n)
    (hc : newStateCost S t0 W = some c0) (cs : List (Call a m)) (s : Cost n × Data n m n)
    (h : cs.foldlM (call (stateFun m S)) (c0, Data.new) = some s) (t x : Vec a) (u : Vec m)
    (ht : lastTarget t0 cs = toList t) :
    ∃ e, s.1.evaluate (stateFun m S) x u s.2 = some e ∧ e.value = half W (S.difference t x) := by
  obtain ⟨a1, a2, -⟩ := run_cost _ cs _ s h
  rw [newStateCost_some hc] at a1 a2
  dsimp only at a1 a2
  rw [ht] at a1
  have h1 : (stateFun m S).evaluate s.1.target x u s.2.res = some { s.2.res with value := S.difference t x } := by
    rw [a1]; exact state_evaluate S t x u s.2.res
  cases he : s.1.evaluate (stateFun m S) x u s.2 with
  | none => simp [Cost.evaluate, h1] at he
  | some e =>
    obtain ⟨res, hr, -, hv, -⟩ := evaluate_some he
    rw [h1] at hr
    simp at hr
    exact ⟨e, rfl, by rw [hv, a2, ← hr]⟩

/-- **C63.** Weights symmetric: after any calls, an evaluation at a state and then, possibly after further calls that
neither evaluate nor change the target, a gradient call at the same state, the gradient is the derivative of the cost along
all steps in state and control, and the Hessian that later calls of `computeHessians` report is the Gauss-Newton one. -/
theorem C63_state_cost_derivatives_partial (S : Space a n) (pt : Vec a → Prop) (hS : Lawful S pt) (t0 : List ℝ)
    (W : Mat n n) (hW : Wᵀ = W) (c0 : Cost n) (hc : newStateCost S t0 W = some c0) (x : Vec a) (u : Vec m)
    (cs hs ks : List (Call a m)) (hq : ∀ c ∈ hs, Quiet c) (ho : ∀ c ∈ ks, OnlyHess c) (s : Cost n × Data n m n)
    (h : (cs ++ .value x u :: (hs ++ .grad x u :: ks)).foldlM (call (stateFun m S)) (c0, Data.new) = some s) (t : Vec a)
    (ht : lastTarget t0 cs = toList t) (hpt : pt t) (hx : pt x) :
    IsGradient (stateCost (m := m) S W t x) s.2.grad 0 ∧
    ∃ J : Mat n (n + m), IsJacobian (fun z : Vec (n + m) => S.difference t (S.integrate x (fst z))) J 0 ∧
      (s.1.computeHessians s.2).hess = Jᵀ * W * J := by
  rw [newStateCost_some hc] at h
  obtain ⟨d0, e, d1, g, h1, h2, h3, h4, h5, h6, -, h8, h9, h10⟩ :=
    session (state_tame S) (fun _ _ => rfl) _ x u cs hs ks hq ho s h
  dsimp only at h1 h4 h8 h9 h10
  rw [ht] at h1 h4
  have h1' := h1.symm.trans (state_evaluate S t x u d0)
  have h4' := h4.symm.trans (state_jacobians S t x u d1)
  simp only [Option.some.injEq] at h1' h4'
  have hJ : IsJacobian (fun z : Vec (n + m) => S.difference t (S.integrate x (fst z))) g.jac 0 := by
    rw [h4']; exact state_jac hS hpt hx d1.jac h3
  refine ⟨?_, g.jac, hJ, ?_⟩
  · have hx0 : S.integrate x (fst (0 : Vec (n + m))) = x := hS.integrate_zero x hx
    refine (half_gradient W hW hJ).congr ?_
    rw [h8, h1']
    dsimp only
    rw [hx0]
  · simp only [Cost.computeHessians, h10, h9, h5, Bool.not_true, Bool.false_eq_true, if_false]

/-- Evaluations, gradients and Hessians leave the target. -/
theorem lastTarget_append (t : List ℝ) (cs ds : List (Call a m)) :
    lastTarget t (cs ++ ds) = lastTarget (lastTarget t cs) ds := by
  induction cs generalizing t with
  | nil => rfl
  | cons c cs ih => cases c <;> simp [lastTarget, ih]

theorem lastTarget_quiet (t : List ℝ) (cs : List (Call a m)) (h : ∀ c ∈ cs, Quiet c) : lastTarget t cs = t := by
  induction cs generalizing t with
  | nil => rfl
  | cons c cs ih =>
    have hc := h c List.mem_cons_self
    have := fun t => ih t fun c hc => h c (List.mem_cons_of_mem _ hc)
    cases c <;> simp_all [lastTarget, Quiet]

theorem lastTarget_session (x : Vec a) (u : Vec m) (t : List ℝ) (cs hs ks : List (Call a m)) (hq : ∀ c ∈ hs, Quiet c)
    (ho : ∀ c ∈ ks, OnlyHess c) : lastTarget t (cs ++ .value x u :: (hs ++ .grad x u :: ks)) = lastTarget t cs := by
  have hk : ∀ c ∈ ks, Quiet c := fun c hc => by have := ho c hc; cases c <;> simp_all [OnlyHess, Quiet]
  rw [lastTarget_append, lastTarget, lastTarget_append, lastTarget_quiet _ hs hq, lastTarget, lastTarget_quiet _ ks hk]

/-- **C63.** The same for tracking of a control: value after any calls, gradient and Gauss-Newton Hessian. -/
theorem C63_control_cost_partial (S : Space b b) (pt : Vec b → Prop) (hS : Lawful S pt) (t0 : List ℝ) (W : Mat b b)
    (hW : Wᵀ = W) (x : Vec a) (u : Vec b) (cs hs ks : List (Call a b)) (hq : ∀ c ∈ hs, Quiet c)
    (ho : ∀ c ∈ ks, OnlyHess c) (s : Cost b × Data n b b)
    (h : (cs ++ .value x u :: (hs ++ .grad x u :: ks)).foldlM (call (controlFun a n S)) (⟨W, t0, true⟩, Data.new) = some s)
    (t : Vec b) (ht : lastTarget t0 cs = toList t) (hpt : pt t) (hu : pt u) :
    (∃ e, s.1.evaluate (controlFun a n S) x u s.2 = some e ∧ e.value = half W (S.difference t u)) ∧
    IsGradient (controlCost n S W t u) s.2.grad 0 ∧
    ∃ J : Mat b (n + b), IsJacobian (fun z : Vec (n + b) => S.difference t (S.integrate u (snd z))) J 0 ∧
      (s.1.computeHessians s.2).hess = Jᵀ * W * J := by
  have hs0 := h
  obtain ⟨d0, e, d1, g, h1, h2, h3, h4, h5, h6, -, h8, h9, h10⟩ :=
    session (control_tame S) (fun _ _ => rfl) _ x u cs hs ks hq ho s h
  dsimp only at h1 h4 h8 h9 h10
  rw [ht] at h1 h4
  have h1' := h1.symm.trans (control_evaluate S t x u d0)
  have h4' := h4.symm.trans (control_jacobians S t x u d1)
  simp only [Option.some.injEq] at h1' h4'
  have hJ : IsJacobian (fun z : Vec (n + b) => S.difference t (S.integrate u (snd z))) g.jac 0 := by
    rw [h4']; exact control_jac hS hpt hu d1.jac h3
  refine ⟨?_, ?_, g.jac, hJ, ?_⟩
  · obtain ⟨a1, -, -⟩ := run_cost _ _ _ s hs0
    have a2 : s.1.target = toList t := by
      rw [a1, ← ht]
      exact lastTarget_session x u t0 cs hs ks hq ho
    have e1 : (controlFun a n S).evaluate s.1.target x u s.2.res = some { s.2.res with value := S.difference t u } := by
      rw [a2]; exact control_evaluate S t x u s.2.res
    cases he : s.1.evaluate (controlFun a n S) x u s.2 with
    | none => simp [Cost.evaluate, e1] at he
    | some e =>
      obtain ⟨res, hr, -, hv, -⟩ := evaluate_some he
      rw [e1] at hr
      simp at hr
      exact ⟨e, rfl, by rw [hv, h9, ← hr]⟩
  · have hx0 : S.integrate u (snd (0 : Vec (n + b))) = u := hS.integrate_zero u hu
    refine (half_gradient W hW hJ).congr ?_
    rw [h8, h1']
    dsimp only
    rw [hx0]
  · simp only [Cost.computeHessians, h10, h9, h5, Bool.not_true, Bool.false_eq_true, if_false]

/-- A quadratic function of an affine error has the Gauss-Newton matrix as Hessian. -/
theorem half_hessian {k : ℕ} (W : Mat r r) (hW : Wᵀ = W) {F : Vec k → Vec r} {J : Mat r k}
    (h : ∀ z, IsJacobian F J z) (z : Vec k) : IsHessian (fun y => half W (F y)) (Jᵀ * W * J) z := by
  refine ⟨fun y => Jᵀ *ᵥ (W *ᵥ F y), Filter.Eventually.of_forall fun y => half_gradient W hW (h y), ?_⟩
  refine (((h z).mulVec W).mulVec Jᵀ).congr ?_
  rw [Matrix.mul_assoc]

/-- **C63.** On vector spaces the reported Hessian is the Hessian of the cost. -/
theorem C63_state_cost_hessian (t0 : List ℝ) (W : Mat n n) (hW : Wᵀ = W) (c0 : Cost n)
    (hc : newStateCost (euclid n) t0 W = some c0) (x : Vec n) (u : Vec m)
    (cs hs ks : List (Call n m)) (hq : ∀ c ∈ hs, Quiet c) (ho : ∀ c ∈ ks, OnlyHess c) (s : Cost n × Data n m n)
    (h : (cs ++ .value x u :: (hs ++ .grad x u :: ks)).foldlM (call (stateFun m (euclid n))) (c0, Data.new) = some s)
    (t : Vec n) (ht : lastTarget t0 cs = toList t) :
    IsHessian (fun z : Vec (n + m) => half W (fst z - t)) (s.1.computeHessians s.2).hess (Fin.append x u) := by
  obtain ⟨-, J, hJ, e⟩ := C63_state_cost_derivatives_partial (euclid n) _ (euclid_lawful n) t0 W hW c0 hc x u cs hs ks hq ho s
    h t ht trivial trivial
  have h1 : ∀ z : Vec (n + m), IsJacobian (fun z : Vec (n + m) => fst z - t) (selFst n m) z := fun z =>
    ((isJacobian_fst z).sub (IsJacobian.const t z)).congr (by simp)
  have h2 : J = selFst n m := by
    refine hJ.unique ?_
    refine (((IsJacobian.const x 0).add (isJacobian_fst (m := m) 0)).sub (IsJacobian.const t 0)).congr_of' rfl ?_
    simp
  rw [e, h2]
  exact half_hessian W hW h1 _

/-- **C63.** The control cost built from a target: value, gradient and Hessian of half the weighted square of the difference
to the target, as long as nobody changes it. -/
theorem C63_control_target_cost (t : List ℝ) (W : Mat t.length t.length) (hW : Wᵀ = W) (x : Vec a) (u : Vec t.length)
    (cs hs ks : List (Call a t.length)) (hcs : lastTarget t cs = t) (hq : ∀ c ∈ hs, Quiet c) (ho : ∀ c ∈ ks, OnlyHess c)
    (s : Cost t.length × Data n t.length t.length)
    (h : (cs ++ .value x u :: (hs ++ .grad x u :: ks)).foldlM (call (controlFun a n (euclid t.length)))
      (newControlCost n t W, Data.new) = some s) :
    (∃ e, s.1.evaluate (controlFun a n (euclid t.length)) x u s.2 = some e ∧ e.value = half W (fun i => u i - t.get i)) ∧
    IsGradient (fun z : Vec (n + t.length) => half W (fun i => u i + snd z i - t.get i)) s.2.grad 0 ∧
    IsHessian (fun z : Vec (n + t.length) => half W (fun i => u i + snd z i - t.get i)) (s.1.computeHessians s.2).hess 0 := by
  have ht : lastTarget t cs = toList t.get := by rw [hcs]; simp [toList]
  obtain ⟨h1, h2, J, hJ, h3⟩ :=
    C63_control_cost_partial (euclid t.length) _ (euclid_lawful _) t W hW x u cs hs ks hq ho s h t.get ht trivial trivial
  refine ⟨h1, h2, ?_⟩
  rw [h3]
  have hs : ∀ z, IsJacobian (fun z : Vec (n + t.length) => (fun i => u i + snd z i - t.get i)) (selSnd n t.length) z := by
    intro z
    refine (((IsJacobian.const u z).add (isJacobian_snd z)).sub (IsJacobian.const t.get z)).congr ?_
    simp
  have hJ' := hJ.unique (hs 0)
  rw [hJ']
  exact half_hessian W hW hs 0

/-- **C63.** All calls go through as long as all targets have the size of the points. -/
theorem C63_runs (S : Space a n) (cs : List (Call a m)) (c : Cost n) (d : Data n m n) (hc : c.target.length = a)
    (h : ∀ t, Call.target t ∈ cs → t.length = a) : (cs.foldlM (call (stateFun m S)) (c, d)).isSome := by
  induction cs generalizing c d with
  | nil => rfl
  | cons k cs ih =>
    have hv : vec? a c.target = some fun i => c.target.get (i.cast hc.symm) := by rw [vec?, dif_pos hc]
    have ht : ∀ t, Call.target t ∈ cs → t.length = a := fun t hm => h t (List.mem_cons_of_mem _ hm)
    simp only [List.foldlM_cons, Option.bind_eq_bind]
    cases k with
    | value x u =>
      simp only [call, Cost.evaluate, stateFun, StateError.evaluate, hv, Option.bind_eq_bind, Option.bind_some,
        Option.pure_def, Option.map_some]
      exact ih c _ hc ht
    | grad x u =>
      simp only [call, Cost.computeGradients, stateFun, StateError.computeJacobians, hv, Option.bind_eq_bind,
        Option.bind_some, Option.pure_def, Option.map_some]
      exact ih c _ hc ht
    | hess x u => exact ih c _ hc ht
    | target t => exact ih (c.setTarget t) _ (h t List.mem_cons_self) ht

/-- **C63.** What is missing, second part: with `gauss_newton` off the Hessian is zero after any calls. -/
theorem C63_exact_mode_zero (S : Space a n) (c0 : Cost n) (h0 : c0.gaussNewton = false) (cs : List (Call a m))
    (s : Cost n × Data n m n) (h : cs.foldlM (call (stateFun m S)) (c0, Data.new) = some s) :
    (s.1.computeHessians s.2).hess = 0 := by
  obtain ⟨h1, -⟩ := run_inv (state_tame S) cs _ s h
  obtain ⟨-, -, h2⟩ := run_cost _ cs _ s h
  simp only [Cost.computeHessians, h2, h0, Bool.not_false, if_true]
  exact h1

/-- The unit weight on one coordinate. -/
noncomputable def one : Cost 1 := ⟨1, [0], true⟩

/-- **C63.** What is missing, third part: after a change of the target, a gradient call without a new evaluation reports the
gradient of the old target. -/
theorem C63_set_target_stale :
    newStateCost (euclid 1) [0] 1 = some one ∧
    ∃ s, [.value 0 0, .target [1], .grad 0 0].foldlM (call (stateFun 0 (euclid 1))) (one, Data.new) = some s ∧
      s.1.target = toList ![1] ∧ s.2.grad = 0 ∧ ¬ IsGradient (stateCost (m := 0) (euclid 1) 1 ![1] 0) s.2.grad 0 := by
  refine ⟨rfl, ?_⟩
  have hsome := C63_runs (n := 1) (m := 0) (euclid 1) [.value 0 0, .target [1], .grad 0 0] one Data.new rfl (by simp)
  obtain ⟨s, hs⟩ := Option.isSome_iff_exists.mp hsome
  have hg : s.2.grad = 0 ∧ s.1.target = toList ![1] := by
    simp only [List.foldlM_cons, List.foldlM_nil, call, Cost.evaluate, Cost.computeGradients, stateFun,
      StateError.evaluate, StateError.computeJacobians, vec?, one, Cost.setTarget, List.length_singleton, dite_true,
      Option.bind_eq_bind, Option.bind_some, Option.pure_def, Option.map_some, Option.some.injEq] at hs
    subst hs
    refine ⟨?_, by simp [toList]⟩
    dsimp only [euclid]
    have e : ((0 : Vec 1) - fun i : Fin 1 => [(0 : ℝ)].get (Fin.cast rfl i)) = 0 := by
      funext i; fin_cases i; simp
    rw [e, mulVec_zero, mulVec_zero]
  refine ⟨s, hs, hg.2, hg.1, fun hbad => ?_⟩
  rw [hg.1] at hbad
  have hJ : IsJacobian (fun z : Vec (1 + 0) => (euclid 1).difference ![1] ((euclid 1).integrate 0 (fst z)))
      (selFst 1 0) 0 := by
    refine (((IsJacobian.const (0 : Vec 1) 0).add (isJacobian_fst (m := 0) 0)).sub (IsJacobian.const ![1] 0)).congr_of' rfl ?_
    simp
  have hgood := half_gradient (1 : Mat 1 1) (by simp) hJ
  have := hbad.unique hgood
  have h0 := congrFun this 0
  rw [selFst_transpose_mulVec] at h0
  simp [euclid, Fin.append, Fin.addCases] at h0
  have h1 : vecHead (fst (0 : Vec (1 + 0))) = 0 := rfl
  rw [h1] at h0
  norm_num at h0

/-- **C63.** What is missing, fourth part: the constructor compares only the columns of the weights. -/
theorem C63_weights : (∀ rows nr, weightsThrow rows nr nr = false) ∧ ∀ rows cols nr, cols ≠ nr → weightsThrow rows cols nr = true := by
  refine ⟨fun rows nr => by simp [weightsThrow], fun rows cols nr h => ?_⟩
  simp [weightsThrow, h.symm]

/-! ### A curved example -/

/-- The positive numbers with steps `x · exp v`. -/
noncomputable def positive : Space 1 1 where
  integrate x v := fun i => x i * Real.exp (v i)
  difference x y := fun i => Real.log (y i) - Real.log (x i)
  Jdifference1 _ _ := 1
  isNormalized l := open Classical in decide (l.length = 1 ∧ ∀ y ∈ l, 0 < y)

theorem positive_lawful : Lawful positive fun x => 0 < x 0 where
  integrate_zero x _ := by simp [positive]
  integrate_difference t x ht hx := by
    funext i; fin_cases i
    simp [positive, Real.exp_sub, Real.exp_log ht, Real.exp_log hx]
    field_simp
  difference_self t _ := by funext i; simp [positive]
  jacobian t x _ hx := by
    refine (((IsJacobian.const (fun i => Real.log (x i)) 0).add (IsJacobian.id 0)).sub
      (IsJacobian.const (fun i => Real.log (t i)) 0)).congr_of' ?_ ?_
    · funext v i; fin_cases i
      simp [positive, Real.log_mul hx.ne' (Real.exp_ne_zero _)]
    · simp [positive]

/-- A history with a change of target. -/
def before : List (Call 1 1) := [.grad ![5] 0, .hess ![1] 0, .target [4]]

/-- Calls between the evaluation and the gradient. -/
def between : List (Call 1 1) := [.hess ![7] 0, .grad ![9] 0]

/-- Calls of the Hessian. -/
def after : List (Call 1 1) := [.hess ![1] 0]

/-- The hypotheses of C63 are met: a target and a state on the curved space, a history with a change of target. -/
example : ∃ (c0 : Cost 1) (s : Cost 1 × Data 1 1 1), newStateCost positive [3] !![2] = some c0 ∧
    (before ++ .value ![2] 0 :: (between ++ .grad ![2] 0 :: after)).foldlM (call (stateFun 1 positive)) (c0, Data.new) =
      some s ∧
    lastTarget [3] before = toList ![4] ∧
    IsGradient (stateCost (m := 1) positive !![2] ![4] ![2]) s.2.grad 0 := by
  have hc : newStateCost positive [3] !![2] = some ⟨!![2], [3], true⟩ := by
    simp [newStateCost, newStateError, positive]
  have hsome := C63_runs (n := 1) (m := 1) positive (before ++ .value ![2] 0 :: (between ++ .grad ![2] 0 :: after))
    ⟨!![2], [3], true⟩ Data.new rfl (by simp [before, between, after])
  obtain ⟨s, hs⟩ := Option.isSome_iff_exists.mp hsome
  have ht : lastTarget [3] before = toList ![4] := by
    simp [lastTarget, toList, before]
  refine ⟨_, s, hc, hs, ht, ?_⟩
  exact (C63_state_cost_derivatives_partial positive _ positive_lawful [3] !![2] (by ext i j; fin_cases i; fin_cases j; rfl) _
    hc ![2] 0 before between after
    (by simp [Quiet, between]) (by simp [OnlyHess, after]) s hs ![4] ht (by simp) (by simp)).1

end Aligator.Track
