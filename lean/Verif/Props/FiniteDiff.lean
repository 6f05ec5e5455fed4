import Verif.Model.FiniteDiff
import Verif.Lemmas.Derivatives
import Mathlib.LinearAlgebra.Matrix.Notation
import Mathlib.Analysis.Calculus.Deriv.Slope
import Mathlib.Analysis.Calculus.Deriv.Mul
import Mathlib.Analysis.Calculus.Deriv.Comp
import Mathlib.Analysis.Calculus.Deriv.Add
import Mathlib.Tactic.FinCases
import Mathlib.Tactic.NormNum
import Mathlib.Tactic.FieldSimp

/-!
# C45: derivatives by finite differences
-/

namespace Aligator.FiniteDiff

open Matrix Aligator.Deriv

variable {X Y : Type} {n m k : ℕ}

/-! ### Specification: difference quotients -/

/-- The perturbation along one coordinate. -/
def bump (eps : ℝ) (i : Fin n) : Vec n := fun j => if j = i then eps else 0

/-- The difference quotient in the state. -/
noncomputable def quotX (F : Fn X Y n m k) (eps : ℝ) (x : X) (u : Vec m) (i : Fin n) (r : Fin k) : ℝ :=
  F.diff (F.f x u) (F.f (F.integrate x (bump eps i)) u) r / eps

/-- The difference quotient in the control. -/
noncomputable def quotU (F : Fn X Y n m k) (eps : ℝ) (x : X) (u : Vec m) (i : Fin m) (r : Fin k) : ℝ :=
  F.diff (F.f x u) (F.f x (fun j => u j + bump eps i j)) r / eps

/-! ### The loops -/

theorem update_zero_bump (eps : ℝ) (i : Fin n) : Function.update (0 : Vec n) i eps = bump eps i := by
  funext j; by_cases h : j = i <;> simp [bump, h]

theorem update_bump (eps : ℝ) (i : Fin n) : Function.update (bump eps i) i 0 = 0 := by
  funext j; by_cases h : j = i <;> simp [bump, h]

theorem loopX (F : Fn X Y n m k) (eps : ℝ) (x : X) (u : Vec m) (l : List (Fin n)) (d : FData X Y n m k) (hd : d.dx = 0) :
    let e := l.foldl (stepX F eps x u) d
    e.dx = 0 ∧ e.du = d.du ∧ e.v0 = d.v0 ∧ e.out = d.out ∧ e.Ju = d.Ju ∧
    ∀ r i, e.Jx r i = if i ∈ l then F.diff d.v0 (F.f (F.integrate x (bump eps i)) u) r / eps else d.Jx r i := by
  induction l generalizing d with
  | nil => exact ⟨hd, rfl, rfl, rfl, rfl, fun r i => by simp⟩
  | cons a l ih =>
    have h0 : (stepX F eps x u d a).dx = 0 := by
      simp only [stepX, hd, update_zero_bump, update_bump]
    obtain ⟨h1, h2, h3, h4, h5, h6⟩ := ih (stepX F eps x u d a) h0
    refine ⟨h1, h2, h3, h4, h5, fun r i => ?_⟩
    rw [List.foldl_cons, h6 r i]
    by_cases hi : i ∈ l
    · simp [hi, stepX]
    · by_cases ha : i = a
      · subst ha
        simp [hi, stepX, hd, update_zero_bump, div_eq_inv_mul]
      · simp [hi, ha, stepX]

theorem loopU (F : Fn X Y n m k) (eps : ℝ) (x : X) (u : Vec m) (l : List (Fin m)) (d : FData X Y n m k) (hd : d.du = 0) :
    let e := l.foldl (stepU F eps x u) d
    e.du = 0 ∧ e.dx = d.dx ∧ e.v0 = d.v0 ∧ e.out = d.out ∧ e.Jx = d.Jx ∧
    ∀ r i, e.Ju r i = if i ∈ l then F.diff d.v0 (F.f x (fun j => u j + bump eps i j)) r / eps else d.Ju r i := by
  induction l generalizing d with
  | nil => exact ⟨hd, rfl, rfl, rfl, rfl, fun r i => by simp⟩
  | cons a l ih =>
    have h0 : (stepU F eps x u d a).du = 0 := by
      simp only [stepU, hd, update_zero_bump, update_bump]
    obtain ⟨h1, h2, h3, h4, h5, h6⟩ := ih (stepU F eps x u d a) h0
    refine ⟨h1, h2, h3, h4, h5, fun r i => ?_⟩
    rw [List.foldl_cons, h6 r i]
    by_cases hi : i ∈ l
    · simp [hi, stepU]
    · by_cases ha : i = a
      · subst ha
        simp only [hi, if_false, List.mem_cons, true_or, if_true, stepU, hd, update_zero_bump, Matrix.updateCol_self,
          Pi.smul_apply, smul_eq_mul, div_eq_inv_mul]
        rfl
      · simp [hi, ha, stepU]

theorem jac_spec (F : Fn X Y n m k) (eps : ℝ) (x : X) (u : Vec m) (d : FData X Y n m k) (hd : d.fresh) :
    let e := computeJacobians F eps x u d
    e.fresh ∧ e.v0 = d.v0 ∧ e.out = d.out ∧
    (∀ r i, e.Jx r i = F.diff d.v0 (F.f (F.integrate x (bump eps i)) u) r / eps) ∧
    (∀ r i, e.Ju r i = F.diff d.v0 (F.f x (fun j => u j + bump eps i j)) r / eps) := by
  obtain ⟨a1, a2, a3, a4, -, a6⟩ := loopX F eps x u (List.finRange n) d hd.1
  obtain ⟨b1, b2, b3, b4, b5, b6⟩ := loopU F eps x u (List.finRange m) _ (a2.trans hd.2)
  refine ⟨⟨b2.trans a1, b1⟩, b3.trans a3, b4.trans a4, fun r i => ?_, fun r i => ?_⟩
  · have := congrFun (congrFun b5 r) i
    rw [computeJacobians, this, a6 r i, if_pos (List.mem_finRange i)]
  · rw [computeJacobians, b6 r i, if_pos (List.mem_finRange i), a3]

/-- **C45, perturbation buffers.**  Starting from new data, the perturbations are zero after every history of calls. -/
theorem C45_restored (F : Fn X Y n m k) (eps : ℝ) (d : FData X Y n m k) (hd : d.fresh) (cs : List (Call X m)) :
    let e := cs.foldl (call F eps) d
    e.dx = 0 ∧ e.du = 0 := by
  induction cs generalizing d with
  | nil => exact hd
  | cons c cs ih =>
    refine ih (call F eps d c) ?_
    cases c with
    | value x u => exact hd
    | jac x u => exact (jac_spec F eps x u d hd).1

/-- A call that is not an evaluation. -/
def Call.keeps : Call X m → Prop
  | .value _ _ => False
  | _ => True

theorem keeps_run (F : Fn X Y n m k) (eps : ℝ) (cs : List (Call X m)) (hc : ∀ c ∈ cs, c.keeps) (d : FData X Y n m k)
    (hd : d.fresh) : (cs.foldl (call F eps) d).v0 = d.v0 ∧ (cs.foldl (call F eps) d).out = d.out := by
  induction cs generalizing d with
  | nil => exact ⟨rfl, rfl⟩
  | cons c cs ih =>
    cases c with
    | value x u => exact absurd (hc (.value x u) (by simp)) (by simp [Call.keeps])
    | jac x u =>
      obtain ⟨h1, h2, h3, -⟩ := jac_spec F eps x u d hd
      obtain ⟨h4, h5⟩ := ih (fun b hb => hc b (by simp [hb])) (computeJacobians F eps x u d) h1
      exact ⟨h4.trans h2, h5.trans h3⟩

/-- **C45, values.**  After any history whose last evaluation was at `(x, u)`, the reported value is that of the function
there. -/
theorem C45_value (F : Fn X Y n m k) (eps : ℝ) (d : FData X Y n m k) (hd : d.fresh) (x : X) (u : Vec m)
    (before after : List (Call X m)) (ha : ∀ c ∈ after, c.keeps) :
    ((before ++ Call.value x u :: after).foldl (call F eps) d).out = F.f x u := by
  simp only [List.foldl_append, List.foldl_cons]
  have hb := C45_restored F eps d hd before
  exact (keeps_run F eps after ha (evaluate F x u (before.foldl (call F eps) d)) hb).2

/-- **C45, difference quotients.**  After any history whose last evaluation was at `(x, u)`, the columns computed at `(x, u)`
are the difference quotients there.  Missing: histories without that evaluation (`C45_stale`). -/
theorem C45_quotients_partial (F : Fn X Y n m k) (eps : ℝ) (d : FData X Y n m k) (hd : d.fresh) (x : X) (u : Vec m)
    (before after : List (Call X m)) (ha : ∀ c ∈ after, c.keeps) :
    let e := (before ++ Call.value x u :: after ++ [Call.jac x u]).foldl (call F eps) d
    (∀ r i, e.Jx r i = quotX F eps x u i r) ∧ (∀ r i, e.Ju r i = quotU F eps x u i r) := by
  have h1 := C45_restored F eps d hd (before ++ Call.value x u :: after)
  have h2 : ((before ++ Call.value x u :: after).foldl (call F eps) d).v0 = F.f x u := by
    simp only [List.foldl_append, List.foldl_cons]
    exact (keeps_run F eps after ha (evaluate F x u (before.foldl (call F eps) d)) (C45_restored F eps d hd before)).1
  intro e
  have he : e = computeJacobians F eps x u ((before ++ Call.value x u :: after).foldl (call F eps) d) := by
    simp only [e, List.foldl_append (l := before ++ Call.value x u :: after), List.foldl_cons, List.foldl_nil, call]
  obtain ⟨-, -, -, h3, h4⟩ := jac_spec F eps x u _ h1
  rw [he]
  rw [h2] at h3 h4
  exact ⟨h3, h4⟩

/-- **C45, what is computed otherwise.**  On any data with zero perturbations the columns compare the perturbed values with
the value stored by the last evaluation. -/
theorem C45_quotients (F : Fn X Y n m k) (eps : ℝ) (d : FData X Y n m k) (hd : d.fresh) (x : X) (u : Vec m) :
    (∀ r i, (computeJacobians F eps x u d).Jx r i = F.diff d.v0 (F.f (F.integrate x (bump eps i)) u) r / eps) ∧
    (∀ r i, (computeJacobians F eps x u d).Ju r i = F.diff d.v0 (F.f x (fun j => u j + bump eps i j)) r / eps) :=
  (jac_spec F eps x u d hd).2.2.2

/-- **C45, negative part.**  An evaluation elsewhere makes the columns of an affine function wrong. -/
theorem C45_stale (d : FData (Vec 1) (Vec 1) 1 0 1) (hd : d.fresh) :
    let F : Fn (Vec 1) (Vec 1) 1 0 1 := ⟨fun x _ => x, fun x dx => x + dx, fun a b => b - a⟩
    let e := [Call.value ![0] ![], Call.jac ![1] ![]].foldl (call F 1) d
    e.Jx = !![2] ∧ quotX F 1 ![1] ![] 0 0 = 1 := by
  intro F e
  constructor
  · ext r i
    have := (jac_spec F 1 ![1] ![] (evaluate F ![0] ![] d) hd).2.2.2.1 r i
    have he : e = computeJacobians F 1 ![1] ![] (evaluate F ![0] ![] d) := rfl
    rw [he, this]
    fin_cases r; fin_cases i
    simp [F, evaluate, bump, vecHead]; norm_num
  · simp [quotX, F, bump, vecHead]

/-! ### Vector spaces -/

/-- A function between vector spaces. -/
def onVectors (f : Vec n → Vec m → Vec k) : Fn (Vec n) (Vec k) n m k := ⟨f, fun x dx => x + dx, fun a b => b - a⟩

theorem bump_eq (eps : ℝ) (i : Fin n) : bump eps i = eps • Pi.single i (1 : ℝ) := by
  funext j; by_cases h : j = i <;> simp [bump, h, Pi.single_apply]

/-- **C45, affine functions.**  For any non-zero step the quotients of an affine function are its coefficients; with
`C45_quotients_partial` the reported Jacobians are exact. -/
theorem C45_affine (A : Mat k n) (B : Mat k m) (c : Vec k) (eps : ℝ) (he : eps ≠ 0) (x : Vec n) (u : Vec m) :
    (∀ r i, quotX (onVectors fun x u => A *ᵥ x + B *ᵥ u + c) eps x u i r = A r i) ∧
    (∀ r i, quotU (onVectors fun x u => A *ᵥ x + B *ᵥ u + c) eps x u i r = B r i) := by
  constructor
  · intro r i
    simp only [quotX, onVectors, bump_eq, Matrix.mulVec_add, Matrix.mulVec_smul, Matrix.mulVec_single_one]
    simp only [Pi.sub_apply, Pi.add_apply, Pi.smul_apply, Matrix.col_apply, smul_eq_mul]
    field_simp
    ring
  · intro r i
    have : (fun j => u j + bump eps i j) = u + eps • Pi.single i (1 : ℝ) := by rw [← bump_eq]; rfl
    simp only [quotU, onVectors, this, Matrix.mulVec_add, Matrix.mulVec_smul, Matrix.mulVec_single_one]
    simp only [Pi.sub_apply, Pi.add_apply, Pi.smul_apply, Matrix.col_apply, smul_eq_mul]
    field_simp
    ring

/-- **C45, differentiable functions.**  As the step goes to zero the quotients tend to the derivatives. -/
theorem C45_limit (f : Vec n → Vec m → Vec k) (A : Mat k n) (B : Mat k m) (x : Vec n) (u : Vec m)
    (hA : IsJacobian (fun y => f y u) A x) (hB : IsJacobian (fun v => f x v) B u) :
    (∀ r i, Filter.Tendsto (fun eps => quotX (onVectors f) eps x u i r) (nhdsWithin 0 {0}ᶜ) (nhds (A r i))) ∧
    (∀ r i, Filter.Tendsto (fun eps => quotU (onVectors f) eps x u i r) (nhdsWithin 0 {0}ᶜ) (nhds (B r i))) := by
  have key : ∀ {p : ℕ} (g : Vec p → ℝ) (a : Vec p) (z : Vec p), IsGradient g a z → ∀ i,
      Filter.Tendsto (fun eps : ℝ => (g (z + eps • Pi.single i (1 : ℝ)) - g z) / eps) (nhdsWithin 0 {0}ᶜ) (nhds (a i)) := by
    intro p g a z hg i
    have h1 : HasDerivAt (fun t : ℝ => z + t • (Pi.single i (1 : ℝ) : Vec p)) (Pi.single i (1 : ℝ)) 0 := by
      simpa using ((hasDerivAt_id (0 : ℝ)).smul_const (Pi.single i (1 : ℝ) : Vec p)).const_add z
    have h2 : HasFDerivAt g (form a) (z + (0 : ℝ) • (Pi.single i (1 : ℝ) : Vec p))   := by
      rw [zero_smul, add_zero]; exact hg
    have h3 := (h2.comp_hasDerivAt (0 : ℝ) h1).tendsto_slope_zero
    simp only [form_apply, dotProduct_single, mul_one] at h3
    refine h3.congr fun eps => ?_
    simp [div_eq_inv_mul]
  constructor
  · intro r i
    refine (key _ _ _ (hA r) i).congr fun eps => ?_
    simp [quotX, onVectors, bump_eq]
  · intro r i
    refine (key _ _ _ (hB r) i).congr fun eps => ?_
    have : (fun j => u j + bump eps i j) = u + eps • Pi.single i (1 : ℝ) := by rw [← bump_eq]; rfl
    simp [quotU, onVectors, this]

/-- A case: the reported Jacobians of an affine function after an evaluation. -/
example (d : FData (Vec 2) (Vec 1) 2 1 1) (hd : d.fresh) (x : Vec 2) (u : Vec 1) :
    ([Call.value x u, Call.jac x u].foldl (call (onVectors fun x u => !![1, 2] *ᵥ x + !![3] *ᵥ u + ![4]) (1 / 10)) d).Jx =
      !![1, 2] := by
  ext r i
  have h1 := (C45_quotients_partial (onVectors fun x u => !![1, 2] *ᵥ x + !![3] *ᵥ u + ![4]) (1 / 10) d hd x u [] []
    (by simp)).1 r i
  exact h1.trans ((C45_affine _ _ _ _ (by norm_num) x u).1 r i)

example : ∃ d : FData (Vec 2) (Vec 1) 2 1 1, d.fresh := ⟨⟨0, 0, 0, 0, 0, 0, 0, 0, 0, 0⟩, rfl, rfl⟩

/-- **C45, creation of data.**  For dynamics new data always exist and have zero perturbations; for stage functions the size
of a buffer is a member that the constructor leaves uninitialised, so whatever the function is, creation fails for some
content of the memory. -/
theorem C45_create (d : FData X Y n m k) :
    (createDynamics d).fresh ∧ (∃ garbage, createStage garbage d = none) ∧
    ∀ garbage e, createStage garbage d = some e → e.fresh := by
  refine ⟨⟨rfl, rfl⟩, ⟨-1, by simp [createStage]⟩, fun g e h => ?_⟩
  unfold createStage at h
  split at h
  · exact absurd h (by simp)
  · cases h; exact ⟨rfl, rfl⟩

/-! ### Costs -/

theorem costLoopX (c : X → Vec m → ℝ) (integrate : X → Vec n → X) (eps : ℝ) (x : X) (u : Vec m) (l : List (Fin n))
    (d : CData X n m) (hd : d.dx = 0) :
    let e := l.foldl (costX c integrate eps x u) d
    e.dx = 0 ∧ e.c1 = d.c1 ∧ e.value = d.value ∧ e.Lu = d.Lu ∧
    ∀ i, e.Lx i = if i ∈ l then (c (integrate x (bump eps i)) u - d.c1) / eps else d.Lx i := by
  induction l generalizing d with
  | nil => exact ⟨hd, rfl, rfl, rfl, fun i => by simp⟩
  | cons a l ih =>
    have h0 : (costX c integrate eps x u d a).dx = 0 := by
      simp only [costX, hd, update_zero_bump, update_bump]
    obtain ⟨h1, h2, h3, h4, h5⟩ := ih (costX c integrate eps x u d a) h0
    refine ⟨h1, h2, h3, h4, fun i => ?_⟩
    rw [List.foldl_cons, h5 i]
    by_cases hi : i ∈ l
    · simp [hi, costX]
    · by_cases ha : i = a
      · subst ha
        simp [hi, costX, hd, update_zero_bump]
      · simp [hi, ha, costX]

theorem costLoopU (c : X → Vec m → ℝ) (eps : ℝ) (x : X) (u : Vec m) (l : List (Fin m)) (d : CData X n m) (hd : d.du = 0) :
    let e := l.foldl (costU c eps x u) d
    e.du = 0 ∧ e.dx = d.dx ∧ e.value = d.value ∧ e.Lx = d.Lx ∧
    ∀ i, e.Lu i = if i ∈ l then (c x (fun j => u j + bump eps i j) - d.c1) / eps else d.Lu i := by
  induction l generalizing d with
  | nil => exact ⟨hd, rfl, rfl, rfl, fun i => by simp⟩
  | cons a l ih =>
    have h0 : (costU c eps x u d a).du = 0 := by
      simp only [costU, hd, update_zero_bump, update_bump]
    obtain ⟨h1, h2, h3, h4, h5⟩ := ih (costU c eps x u d a) h0
    refine ⟨h1, h2, h3, h4, fun i => ?_⟩
    rw [List.foldl_cons, h5 i]
    by_cases hi : i ∈ l
    · simp [hi, costU]
    · by_cases ha : i = a
      · subst ha
        simp only [hi, if_false, List.mem_cons, true_or, if_true, costU, hd, update_zero_bump, Function.update_self]
        rfl
      · simp [hi, ha, costU]

/-- **C45, costs.**  On any data, whatever the history, `computeGradients` computes the difference quotients at the given
point, and leaves zero perturbations and the value of the last evaluation. -/
theorem C45_cost (c : X → Vec m → ℝ) (integrate : X → Vec n → X) (eps : ℝ) (x : X) (u : Vec m) (d : CData X n m) :
    (costEvaluate c x u d).value = c x u ∧
    let e := costGradients c integrate eps x u d
    (∀ i, e.Lx i = (c (integrate x (bump eps i)) u - c x u) / eps) ∧
    (∀ i, e.Lu i = (c x (fun j => u j + bump eps i j) - c x u) / eps) ∧ e.dx = 0 ∧ e.du = 0 ∧ e.value = d.value := by
  refine ⟨rfl, ?_⟩
  obtain ⟨a1, a2, a3, -, a5⟩ := costLoopX c integrate eps x u (List.finRange n) { d with c1 := c x u, dx := 0 } rfl
  generalize hd1 : (List.finRange n).foldl (costX c integrate eps x u) { d with c1 := c x u, dx := 0 } = d1 at *
  obtain ⟨b1, b2, b3, b4, b5⟩ := costLoopU c eps x u (List.finRange m) { d1 with du := 0 } rfl
  have he : costGradients c integrate eps x u d = (List.finRange m).foldl (costU c eps x u) { d1 with du := 0 } := by
    rw [← hd1]; rfl
  intro e
  refine ⟨fun i => ?_, fun i => ?_, ?_, ?_, ?_⟩
  · show (costGradients c integrate eps x u d).Lx i = _
    rw [he, b4]
    simpa using a5 i
  · show (costGradients c integrate eps x u d).Lu i = _
    rw [he, b5 i, if_pos (List.mem_finRange i)]
    simp only [a2]
  · show (costGradients c integrate eps x u d).dx = 0
    rw [he, b2]; exact a1
  · show (costGradients c integrate eps x u d).du = 0
    rw [he]; exact b1
  · show (costGradients c integrate eps x u d).value = d.value
    rw [he, b3]; exact a3

/-- A case: the quotients of `x² + u` at `x = 1` with step `1/2`. -/
example (d : CData (Vec 1) 1 1) :
    (costGradients (fun x u => x 0 ^ 2 + u 0) (fun x dx => x + dx) (1 / 2) ![1] ![0] d).Lx = ![5 / 2] := by
  funext i
  rw [(C45_cost _ _ (1 / 2) ![1] ![0] d).2.1 i]
  fin_cases i
  simp [bump]; norm_num

end Aligator.FiniteDiff
