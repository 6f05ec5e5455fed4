import Verif.Lemmas.QuadCosts
import Mathlib.LinearAlgebra.Matrix.Notation
import Mathlib.Tactic.NormNum
import Mathlib.Tactic.FinCases

/-!
# C42, C43: quadratic and barrier costs

A calling history is any list of calls on one data object.  What a gradient call needs is that the last evaluation was at
the same point; what a Hessian call needs is that the last evaluation and the last gradient call were.
-/

namespace Aligator.QCosts

open Matrix Aligator.Deriv

variable {n m k : ℕ}

/-! ### Euclidean quadratic costs -/

/-- A call that is not an evaluation. -/
def Call.keeps : Call n m → Prop
  | .value _ _ => False
  | _ => True

/-- The states the constructors and `setCrossWeight` lead to. -/
def Quad.WF (c : Quad n m) : Prop := c.hasCross = false → c.Wxu = 0

/-- The value of the cost, as `evaluate` returns it. -/
noncomputable def Quad.cost (c : Quad n m) (x : Vec n) (u : Vec m) : ℝ := (c.evaluate x u c.createData).value

theorem Quad.evaluate_value (c : Quad n m) (h : c.WF) (x : Vec n) (u : Vec m) (d : QuadData n m) :
    (c.evaluate x u d).value = poly c.Wxx c.Wxu c.Wuu c.ix c.iu x u ∧
    (c.evaluate x u d).wx = c.Wxx *ᵥ x + c.Wxu *ᵥ u ∧ (c.evaluate x u d).wu = c.Wuu *ᵥ u + c.Wxuᵀ *ᵥ x := by
  have e : u ⬝ᵥ c.Wxuᵀ *ᵥ x = x ⬝ᵥ c.Wxu *ᵥ u := by
    rw [Matrix.mulVec_transpose, dotProduct_comm, ← Matrix.dotProduct_mulVec]
  unfold Quad.evaluate poly
  cases hc : c.hasCross with
  | true =>
    refine ⟨?_, by simp, by simp⟩
    simp only [if_true, dotProduct_add, dotProduct_smul, smul_eq_mul, e, dotProduct_comm c.ix, dotProduct_comm c.iu]
    ring
  | false =>
    rw [h hc]
    refine ⟨?_, by simp, by simp⟩
    simp only [dotProduct_add, dotProduct_smul, smul_eq_mul, dotProduct_comm c.ix, dotProduct_comm c.iu,
      Matrix.zero_mulVec, dotProduct_zero, Bool.false_eq_true, if_false]
    ring

theorem Quad.keeps_run (c : Quad n m) (cs : List (Call n m)) (h : ∀ a ∈ cs, a.keeps) (d : QuadData n m) :
    (cs.foldl c.call d).wx = d.wx ∧ (cs.foldl c.call d).wu = d.wu := by
  induction cs generalizing d with
  | nil => exact ⟨rfl, rfl⟩
  | cons a cs ih =>
    have := ih (fun b hb => h b (by simp [hb])) (c.call d a)
    rw [List.foldl_cons, this.1, this.2]
    cases a with
    | value x u => exact absurd (h (.value x u) (by simp)) (by simp [Call.keeps])
    | grad x u => exact ⟨rfl, rfl⟩
    | hess x u => exact ⟨rfl, rfl⟩

/-- The constructors and `setCrossWeight` lead to such states. -/
theorem C42_quad_states (A : Mat n n) (B : Mat m m) (N : Mat n m) (a : Vec n) (b : Vec m) :
    (Quad.new A B a b).WF ∧ (Quad.newCross A B N a b).WF ∧ ∀ c : Quad n m, (c.setCrossWeight N).WF := by
  simp [Quad.WF, Quad.new, Quad.newCross, Quad.setCrossWeight]

/-- **C42, value.**  `evaluate` returns the quadratic function of the documentation, whatever the data held. -/
theorem C42_quad_value (c : Quad n m) (h : c.WF) (x : Vec n) (u : Vec m) (d : QuadData n m) :
    (c.evaluate x u d).value =
      1 / 2 * (x ⬝ᵥ c.Wxx *ᵥ x) + x ⬝ᵥ c.Wxu *ᵥ u + 1 / 2 * (u ⬝ᵥ c.Wuu *ᵥ u) + c.ix ⬝ᵥ x + c.iu ⬝ᵥ u :=
  (c.evaluate_value h x u d).1

/-- **C42, gradient of Euclidean quadratic costs.**  With symmetric weights, after any history whose last evaluation was
at `(x, u)`, a gradient call (at whatever point) leaves the derivative of the cost at `(x, u)`.  Missing: weights that are
not symmetric (`C42_quad_gradient_iff`) and histories without that evaluation (`C42_quad_stale`). -/
theorem C42_quad_gradient_partial (c : Quad n m) (h : c.WF) (hx : c.Wxxᵀ = c.Wxx) (hu : c.Wuuᵀ = c.Wuu)
    (d : QuadData n m) (before after : List (Call n m)) (ha : ∀ a ∈ after, a.keeps) (x y : Vec n) (u v : Vec m) :
    let e := (before ++ Call.value x u :: after ++ [Call.grad y v]).foldl c.call d
    IsGradient₂ c.cost e.Lx e.Lu x u := by
  intro e
  have hc : c.cost = poly c.Wxx c.Wxu c.Wuu c.ix c.iu := by
    funext x u; exact (c.evaluate_value h x u _).1
  obtain ⟨k1, k2⟩ := c.keeps_run after ha (c.evaluate x u (before.foldl c.call d))
  obtain ⟨-, w1, w2⟩ := c.evaluate_value h x u (before.foldl c.call d)
  have e1 : e.Lx = c.Wxx *ᵥ x + c.Wxu *ᵥ u + c.ix := by
    simp only [e, List.foldl_append, List.foldl_cons, List.foldl_nil, Quad.call, Quad.computeGradients, k1, w1]
  have e2 : e.Lu = c.Wuu *ᵥ u + c.Wxuᵀ *ᵥ x + c.iu := by
    simp only [e, List.foldl_append, List.foldl_cons, List.foldl_nil, Quad.call, Quad.computeGradients, k2, w2]
  rw [hc, e1, e2]
  have := poly_gradient c.Wxx c.Wxu c.Wuu c.ix c.iu x u
  rw [hx, hu] at this
  have t : ∀ {p : ℕ} (a : Vec p), (1 / 2 : ℝ) • (a + a) = a := by
    intro p a; funext i; simp; ring
  rwa [t, t] at this

/-- **C42, before any evaluation.**  A new data object holds zero as the value and the gradient, and a gradient call before
the first evaluation reports the linear terms of the cost, whatever the point: with no linear terms, zero. -/
theorem C42_quad_fresh_data (c : Quad n m) (x : Vec n) (u : Vec m) :
    c.createData.value = 0 ∧ c.createData.Lx = 0 ∧ c.createData.Lu = 0 ∧
      (c.computeGradients x u c.createData).Lx = c.ix ∧ (c.computeGradients x u c.createData).Lu = c.iu := by
  refine ⟨rfl, rfl, rfl, ?_, ?_⟩ <;> simp [Quad.computeGradients, Quad.createData]

/-- **C42, the role of symmetry.**  The gradients are right at every point exactly when the weights are symmetric. -/
theorem C42_quad_gradient_iff (c : Quad n m) (h : c.WF) (d : QuadData n m) :
    (∀ x u, let e := c.computeGradients x u (c.evaluate x u d); IsGradient₂ c.cost e.Lx e.Lu x u) ↔
      c.Wxxᵀ = c.Wxx ∧ c.Wuuᵀ = c.Wuu := by
  constructor
  · intro H
    have key : ∀ x u, c.Wxxᵀ *ᵥ x = c.Wxx *ᵥ x ∧ c.Wuuᵀ *ᵥ u = c.Wuu *ᵥ u := by
      intro x u
      have h1 := H x u
      have hc : c.cost = poly c.Wxx c.Wxu c.Wuu c.ix c.iu := by
        funext x u; exact (c.evaluate_value h x u _).1
      rw [hc] at h1
      have h2 := IsGradient.unique h1 (poly_gradient c.Wxx c.Wxu c.Wuu c.ix c.iu x u)
      obtain ⟨-, w1, w2⟩ := c.evaluate_value h x u d
      simp only [Quad.computeGradients, w1, w2] at h2
      have h3 := congrArg fst h2
      have h4 := congrArg snd h2
      simp only [fst_append, snd_append] at h3 h4
      constructor
      · funext i; have := congrFun h3 i; simp at this; linarith
      · funext i; have := congrFun h4 i; simp at this; linarith
    constructor
    · ext i j
      have := congrFun (key (Pi.single j 1) 0).1 i
      simpa using this
    · ext i j
      have := congrFun (key 0 (Pi.single j 1)).2 i
      simpa using this
  · rintro ⟨hx, hu⟩ x u
    exact C42_quad_gradient_partial c h hx hu d [] [] (by simp) x x u u

/-- **C42, Hessian of Euclidean quadratic costs.**  With symmetric weights, a data object created from the cost holds,
after any history of calls, the second derivative of the cost at every point.  Missing: weights that are not symmetric,
and weights changed after the data was created (`C42_quad_stale`). -/
theorem C42_quad_hessian_partial (c : Quad n m) (h : c.WF) (hx : c.Wxxᵀ = c.Wxx) (hu : c.Wuuᵀ = c.Wuu)
    (cs : List (Call n m)) (x : Vec n) (u : Vec m) :
    let e := cs.foldl c.call c.createData
    IsHessian₂ c.cost e.Lxx e.Lxu e.Lux e.Luu x u := by
  intro e
  have he : e.Lxx = c.Wxx ∧ e.Lxu = c.Wxu ∧ e.Lux = c.Wxuᵀ ∧ e.Luu = c.Wuu := by
    have key : ∀ d : QuadData n m, (cs.foldl c.call d).Lxx = d.Lxx ∧ (cs.foldl c.call d).Lxu = d.Lxu ∧
        (cs.foldl c.call d).Lux = d.Lux ∧ (cs.foldl c.call d).Luu = d.Luu := by
      induction cs with
      | nil => intro d; exact ⟨rfl, rfl, rfl, rfl⟩
      | cons a cs ih =>
        intro d
        obtain ⟨h1, h2, h3, h4⟩ := ih (c.call d a)
        rw [List.foldl_cons, h1, h2, h3, h4]
        cases a with
        | value x u => cases hc : c.hasCross <;> simp [Quad.call, Quad.evaluate, hc]
        | grad x u => exact ⟨rfl, rfl, rfl, rfl⟩
        | hess x u => exact ⟨rfl, rfl, rfl, rfl⟩
    exact key c.createData
  obtain ⟨e1, e2, e3, e4⟩ := he
  rw [e1, e2, e3, e4]
  refine ⟨fun z => Fin.append (c.Wxx *ᵥ fst z + c.Wxu *ᵥ snd z + c.ix) (c.Wxuᵀ *ᵥ fst z + c.Wuu *ᵥ snd z + c.iu),
    Filter.Eventually.of_forall fun z => ?_, ?_⟩
  · have := C42_quad_gradient_partial c h hx hu c.createData [] [] (by simp) (fst z) (fst z) (snd z) (snd z)
    obtain ⟨-, w1, w2⟩ := c.evaluate_value h (fst z) (snd z) c.createData
    simp only [List.nil_append, List.cons_append, List.foldl_cons, List.foldl_nil, Quad.call, Quad.computeGradients, w1,
      w2, IsGradient₂, append_fst_snd] at this
    rwa [add_comm (c.Wuu *ᵥ snd z)] at this
  · exact (isJacobian_affine₂ c.Wxx c.Wxu c.ix _).append (isJacobian_affine₂ c.Wxuᵀ c.Wuu c.iu _)

/-- The cost `x²/2` of one state and no control. -/
def square : Quad 1 1 := Quad.new !![1] !![1] 0 0

/-- **C42 is violated without an evaluation at the point**: asking new data for the gradient of `x²/2 + u²/2` at
`(1, 0)` gives 0, and asking after an evaluation at `(2, 0)` gives 2.  **And by weights set after the creation of the
data**: the Hessian keeps the old cross weight. -/
theorem C42_quad_stale :
    (square.computeGradients ![1] ![0] square.createData).Lx = ![0] ∧
    (square.computeGradients ![1] ![0] (square.evaluate ![2] ![0] square.createData)).Lx = ![2] ∧
    IsGradient₂ square.cost ![1] ![0] ![1] ![0] ∧
    ((square.setCrossWeight !![5]).computeHessians ![1] ![0] square.createData).Lxu = 0 ∧
    IsHessian₂ (square.setCrossWeight !![5]).cost !![1] !![5] !![5] !![1] ![1] ![0] := by
  have hs : square.Wxxᵀ = square.Wxx := by ext i j; fin_cases i; fin_cases j; rfl
  have hu : square.Wuuᵀ = square.Wuu := by ext i j; fin_cases i; fin_cases j; rfl
  refine ⟨?_, ?_, ?_, rfl, ?_⟩
  · funext i; fin_cases i; simp [Quad.computeGradients, square, Quad.createData, Quad.new]
  · funext i; fin_cases i
    simp [Quad.computeGradients, square, Quad.createData, Quad.new, Quad.evaluate, Matrix.mulVec, dotProduct]
  · have := C42_quad_gradient_partial square (by simp [Quad.WF, square, Quad.new]) hs hu square.createData [] []
      (by simp) ![1] ![1] ![0] ![0]
    refine IsGradient.congr this ?_
    congr 1
    · funext i; fin_cases i
      simp [Quad.call, Quad.computeGradients, square, Quad.createData, Quad.new, Quad.evaluate, Matrix.mulVec, dotProduct]
    · funext i; fin_cases i
      simp [Quad.call, Quad.computeGradients, square, Quad.createData, Quad.new, Quad.evaluate, Matrix.mulVec, dotProduct]
  · have := C42_quad_hessian_partial (square.setCrossWeight !![5]) (by simp [Quad.WF, Quad.setCrossWeight]) hs hu []
      ![1] ![0]
    have e : (!![5] : Mat 1 1)ᵀ = !![5] := by ext i j; fin_cases i; fin_cases j; rfl
    simpa [Quad.setCrossWeight, Quad.createData, square, Quad.new, e] using this

/-! ### Quadratic costs of a residual -/

/-- What the residual has to provide: its Jacobian is its derivative. -/
def Res.Correct (f : Res k m) : Prop := ∀ z, IsJacobian f.r (f.J z) z

/-- Its vector-Hessian products are the derivatives of `Jᵀ λ`. -/
def Res.Correct₂ (f : Res k m) : Prop := ∀ z l, IsJacobian (fun y => (f.J y)ᵀ *ᵥ l) (f.vhp z l) z

/-- A call that is not an evaluation. -/
def ZCall.keepsValue : ZCall k → Prop
  | .value _ => False
  | _ => True

/-- The value of the cost, as `evaluate` returns it on data `d` (it does not depend on the data). -/
noncomputable def QRes.cost (c : QRes k m) (d : CompData k m) (z : Vec k) : ℝ := (c.evaluate z d).value

theorem QRes.keeps_run (c : QRes k m) (cs : List (ZCall k)) (h : ∀ a ∈ cs, a.keepsValue) (d : CompData k m) :
    (cs.foldl c.call d).res.value = d.res.value := by
  induction cs generalizing d with
  | nil => rfl
  | cons a cs ih =>
    rw [List.foldl_cons, ih (fun b hb => h b (by simp [hb]))]
    cases a with
    | value z => exact absurd (h (.value z) (by simp)) (by simp [ZCall.keepsValue])
    | grad z => rfl
    | hess z => cases hg : c.gaussNewton <;> simp [QRes.call, QRes.computeHessians, hg]

/-- **C42, value of residual costs**: half the weighted square of the residual. -/
theorem C42_residual_value (c : QRes k m) (d : CompData k m) (z : Vec k) :
    (c.evaluate z d).value = 1 / 2 * (c.res.r z ⬝ᵥ c.W *ᵥ c.res.r z) := rfl

/-- **C42, gradient of residual costs.**  With a symmetric weight and a correct residual, after any history whose last
evaluation was at `z`, a gradient call at `z` leaves the derivative of the cost at `z`.  Missing: other weights, other
histories (`C42_residual_stale`). -/
theorem C42_residual_gradient_partial (c : QRes k m) (hW : c.Wᵀ = c.W) (hr : c.res.Correct) (d : CompData k m)
    (before after : List (ZCall k)) (ha : ∀ a ∈ after, a.keepsValue) (z : Vec k) :
    IsGradient (c.cost d) ((before ++ ZCall.value z :: after ++ [ZCall.grad z]).foldl c.call d).grad z := by
  have k1 := c.keeps_run after ha (c.evaluate z (before.foldl c.call d))
  have e1 : ((before ++ ZCall.value z :: after ++ [ZCall.grad z]).foldl c.call d).grad = (c.res.J z)ᵀ *ᵥ c.W *ᵥ c.res.r z := by
    simp only [List.foldl_append, List.foldl_cons, List.foldl_nil, QRes.call, QRes.computeGradients, k1]
    rfl
  rw [e1]
  refine (((hr z).dot ((hr z).mulVec c.W)).smul (1 / 2)).congr ?_
  rw [Matrix.transpose_mul, hW, ← Matrix.mulVec_mulVec]
  funext i; simp; ring

/-- The exact Hessian. -/
theorem residual_hessian (c : QRes k m) (hW : c.Wᵀ = c.W) (hr : c.res.Correct) (hv : c.res.Correct₂)
    (d : CompData k m) (z : Vec k) :
    IsHessian (c.cost d) ((c.res.J z)ᵀ * c.W * c.res.J z + c.res.vhp z (c.W *ᵥ c.res.r z)) z := by
  refine ⟨fun y => (c.res.J y)ᵀ *ᵥ c.W *ᵥ c.res.r y, Filter.Eventually.of_forall fun y => ?_, fun i => ?_⟩
  · exact C42_residual_gradient_partial c hW hr d [] [] (by simp) y
  · have hW' := (hr z).mulVec c.W
    -- the two factors of the product rule, one coordinate at a time
    have h1 : ∀ j, IsGradient (fun y => c.res.J y j i) (fun l => (c.res.vhp z (Pi.single j 1)) i l) z := by
      intro j
      have := hv z (Pi.single j 1) i
      simpa using this
    have h2 := IsGradient.sum Finset.univ fun j (_ : j ∈ Finset.univ) => (h1 j).mul (hW' j)
    have h3 := hv z (c.W *ᵥ c.res.r z) i
    have h4 : IsGradient (fun y => ((c.res.J y)ᵀ *ᵥ c.W *ᵥ c.res.r z) i)
        (∑ j, (c.W *ᵥ c.res.r z) j • fun l => (c.res.vhp z (Pi.single j 1)) i l) z := by
      have := IsGradient.sum Finset.univ fun j (_ : j ∈ Finset.univ) => (h1 j).smul ((c.W *ᵥ c.res.r z) j)
      simpa [Matrix.mulVec, dotProduct, mul_comm] using this
    have h5 := h3.unique h4
    refine IsGradient.congr (f := fun y => ((c.res.J y)ᵀ *ᵥ c.W *ᵥ c.res.r y) i) h2 ?_
    rw [Finset.sum_add_distrib, ← h5]
    funext l
    simp only [Pi.add_apply, Matrix.add_apply, Finset.sum_apply, Pi.smul_apply, smul_eq_mul]
    rw [Matrix.mul_assoc, Matrix.mul_apply]
    rfl

/-- **C42, Hessians of residual costs.**  After evaluation and gradient at `z` on any data, the Hessian call leaves the
Gauss–Newton term in the default mode and the second-order term in the other one; only their sum is the second
derivative of the cost. -/
theorem C42_residual_hessian_split (c : QRes k m) (hW : c.Wᵀ = c.W) (hr : c.res.Correct) (hv : c.res.Correct₂)
    (d : CompData k m) (z : Vec k) :
    let H := fun gn => ([ZCall.value z, ZCall.grad z, ZCall.hess z].foldl { c with gaussNewton := gn }.call d).hess
    H true = (c.res.J z)ᵀ * c.W * c.res.J z ∧ IsHessian (c.cost d) (H true + H false) z :=
  ⟨rfl, residual_hessian c hW hr hv d z⟩

/-- **C42, Hessians of residual costs.**  In the default mode and where the second-order term vanishes, as for affine
residuals, the Hessian is right.  Missing: see `C42_residual_hessian_split`, `C42_exact_mode_wrong`. -/
theorem C42_residual_hessian_partial (c : QRes k m) (hg : c.gaussNewton = true) (hW : c.Wᵀ = c.W)
    (hr : c.res.Correct) (hv : c.res.Correct₂) (d : CompData k m) (z : Vec k)
    (h0 : c.res.vhp z (c.W *ᵥ c.res.r z) = 0) :
    IsHessian (c.cost d) ([ZCall.value z, ZCall.grad z, ZCall.hess z].foldl c.call d).hess z := by
  have := residual_hessian c hW hr hv d z
  rw [h0, add_zero] at this
  have e : ([ZCall.value z, ZCall.grad z, ZCall.hess z].foldl c.call d).hess = (c.res.J z)ᵀ * c.W * c.res.J z := by
    simp [QRes.call, QRes.computeHessians, hg, QRes.computeGradients]
  rwa [e]

/-- The residual `r(z) = z` (a state error). -/
def idRes : Res k k := ⟨fun z => z, fun _ => 1, fun _ _ => 0⟩

theorem idRes_correct : (idRes : Res k k).Correct ∧ (idRes : Res k k).Correct₂ :=
  ⟨fun z => IsJacobian.id z, fun z l => IsJacobian.const ((1 : Mat k k)ᵀ *ᵥ l) z⟩

/-- Data of zeros. -/
def zeroData (k m : ℕ) : CompData k m := ⟨0, 0, 0, ⟨0, 0, 0⟩, 0, 0⟩

/-- **C42 is violated in the exact mode** (`gauss_newton = false`): the Hessian of `‖z‖²/2` comes out as 0. -/
theorem C42_exact_mode_wrong :
    ([ZCall.value ![1], ZCall.grad ![1], ZCall.hess ![1]].foldl (⟨1, idRes, false⟩ : QRes 1 1).call (zeroData 1 1)).hess = 0 ∧
    IsHessian ((⟨1, idRes, false⟩ : QRes 1 1).cost (zeroData 1 1)) 1 ![1] := by
  refine ⟨rfl, ?_⟩
  have := residual_hessian (⟨1, idRes, false⟩ : QRes 1 1) (by simp) idRes_correct.1 idRes_correct.2 (zeroData 1 1) ![1]
  simpa [idRes] using this

/-- **C42 is violated without an evaluation at the point**: the gradient of `‖z‖²/2` at 1 comes out as 0 on new data. -/
theorem C42_residual_stale :
    ((⟨1, idRes, true⟩ : QRes 1 1).computeGradients ![1] (zeroData 1 1)).grad = 0 ∧
    IsGradient ((⟨1, idRes, true⟩ : QRes 1 1).cost (zeroData 1 1)) ![1] ![1] := by
  refine ⟨by simp [QRes.computeGradients, zeroData], ?_⟩
  have := C42_residual_gradient_partial (⟨1, idRes, true⟩ : QRes 1 1) (by simp) idRes_correct.1 (zeroData 1 1) [] []
    (by simp) ![1]
  refine this.congr ?_
  simp [QRes.call, QRes.computeGradients, QRes.evaluate, idRes]

/-! ### Barriers -/

/-- **C43, constructors.**  Only positive weights and thresholds are accepted. -/
theorem C43_constructors (w : Vec m) (f : Res k m) (t : ℝ) :
    ((∃ c, newLog w f = some c) ↔ ∀ i, 0 < w i) ∧
    (∀ c, newLog w f = some c → c = ⟨w, f⟩) ∧
    ((∃ c, newRelaxed w f t = some c) ↔ (∀ i, 0 < w i) ∧ 0 < t) ∧
    (∀ c, newRelaxed w f t = some c → c = (⟨w, f⟩, t)) := by
  unfold newLog newRelaxed
  by_cases h : ∃ i, w i ≤ 0
  · have h' : ¬ ∀ i, 0 < w i := by push Not; exact h
    simp [h, h']
  · have h' : ∀ i, 0 < w i := by push Not at h; exact h
    by_cases ht : t ≤ 0
    · simp [h, h', ht, not_lt.2 ht]
    · simp [h, h', ht, not_le.1 ht, eq_comm]

/-- A call that keeps the value of the residual. -/
theorem Barrier.keeps_run (c : Barrier k m) (cs : List (ZCall k)) (h : ∀ a ∈ cs, a.keepsValue) (d : CompData k m) :
    (cs.foldl c.call d).res.value = d.res.value := by
  induction cs generalizing d with
  | nil => rfl
  | cons a cs ih =>
    rw [List.foldl_cons, ih (fun b hb => h b (by simp [hb]))]
    cases a with
    | value z => exact absurd (h (.value z) (by simp)) (by simp [ZCall.keepsValue])
    | grad z => rfl
    | hess z => rfl

theorem Barrier.keeps_runR (c : Barrier k m) (t : ℝ) (cs : List (ZCall k)) (h : ∀ a ∈ cs, a.keepsValue)
    (d : CompData k m) : (cs.foldl (c.callR t) d).res.value = d.res.value := by
  induction cs generalizing d with
  | nil => rfl
  | cons a cs ih =>
    rw [List.foldl_cons, ih (fun b hb => h b (by simp [hb]))]
    cases a with
    | value z => exact absurd (h (.value z) (by simp)) (by simp [ZCall.keepsValue])
    | grad z => rfl
    | hess z => rfl

/-- The value of the log barrier. -/
noncomputable def Barrier.cost (c : Barrier k m) (d : CompData k m) (z : Vec k) : ℝ := (c.evaluate z d).value

/-- The value of the relaxed barrier. -/
noncomputable def Barrier.costR (c : Barrier k m) (t : ℝ) (d : CompData k m) (z : Vec k) : ℝ := (c.evaluateR t z d).value

theorem Barrier.cost_eq (c : Barrier k m) (d : CompData k m) :
    c.cost d = fun z => ∑ i, -(c.w i * Real.log (c.res.r z i)) := by
  funext z
  simp [Barrier.cost, Barrier.evaluate, dotProduct]

theorem Barrier.costR_eq (c : Barrier k m) (t : ℝ) (d : CompData k m) :
    c.costR t d = fun z => ∑ i, relaxed (c.w i) t (c.res.r z i) := by
  funext z
  have h : ∀ i a, (if c.res.r z i < t then
        let sq := (c.res.r z i - 2 * t) / t
        a + c.w i * (1 / 2 * (sq * sq - 1) - Real.log t)
      else a - c.w i * Real.log (c.res.r z i)) = a + relaxed (c.w i) t (c.res.r z i) := by
    intro i a
    rw [relaxed]
    split <;> ring
  simp only [Barrier.costR, Barrier.evaluateR, h, foldl_add, zero_add]

/-- **C43, value of the log barrier.** -/
theorem C43_log_value (c : Barrier k m) (d : CompData k m) (z : Vec k) :
    (c.evaluate z d).value = -∑ i, c.w i * Real.log (c.res.r z i) := rfl

/-- **C43, gradient of the log barrier.**  Where the residual is positive, after any history whose last evaluation was at
`z`, a gradient call at `z` leaves the derivative of the cost. -/
theorem C43_log_gradient (c : Barrier k m) (hr : c.res.Correct) (d : CompData k m)
    (before after : List (ZCall k)) (ha : ∀ a ∈ after, a.keepsValue) (z : Vec k) (hz : ∀ i, 0 < c.res.r z i) :
    IsGradient (c.cost d) ((before ++ ZCall.value z :: after ++ [ZCall.grad z]).foldl c.call d).grad z := by
  have k1 := c.keeps_run after ha (c.evaluate z (before.foldl c.call d))
  have e1 : ((before ++ ZCall.value z :: after ++ [ZCall.grad z]).foldl c.call d).grad =
      ∑ i, (-(c.w i / c.res.r z i)) • c.res.J z i := by
    simp only [List.foldl_append, List.foldl_cons, List.foldl_nil, Barrier.call, Barrier.computeGradients, k1]
    simp only [foldl_add, zero_add, Barrier.evaluate, neg_div]
  rw [e1, c.cost_eq]
  exact sum_comp_gradient (fun i v => -(c.w i * Real.log v)) _ c.res.r _ z (hr z) fun i =>
    hasDerivAt_logBranch _ _ (hz i)

/-- **C43 is violated by the Hessian of the log barrier**: for every residual with a constant Jacobian, on every data and
at every point where the residual is positive, the *negative* of the computed matrix is the second derivative. -/
theorem C43_log_hessian_negated (c : Barrier k m) (J : Mat m k) (hJ : ∀ z, c.res.J z = J) (hr : c.res.Correct)
    (d : CompData k m) (z : Vec k) (hz : ∀ i, 0 < c.res.r z i) :
    IsHessian (c.cost d) (-([ZCall.value z, ZCall.grad z, ZCall.hess z].foldl c.call d).hess) z := by
  have e1 : -([ZCall.value z, ZCall.grad z, ZCall.hess z].foldl c.call d).hess =
      Jᵀ * diagonal (fun i => c.w i / (c.res.r z i * c.res.r z i)) * J := by
    simp only [List.foldl_cons, List.foldl_nil, Barrier.call, Barrier.computeHessians, Barrier.computeGradients,
      Barrier.evaluate, foldl_add, zero_add, hJ, neg_div, neg_smul, Finset.sum_neg_distrib, neg_neg]
    exact sum_vecMulVec J _
  have hr' : ∀ y, IsJacobian c.res.r J y := fun y => hJ y ▸ hr y
  rw [e1, c.cost_eq]
  refine sum_comp_hessian (fun i v => -(c.w i * Real.log v)) (fun i v => -(c.w i / v)) _ c.res.r J z hr' ?_ fun i => ?_
  · rw [Filter.eventually_all]
    intro i
    filter_upwards [eventually_of_continuous c.res.r J z (hr' z) i isOpen_Ioi (hz i)] with y hy
    exact hasDerivAt_logBranch _ _ hy
  · have := (((hasDerivAt_inv (hz i).ne').const_mul (c.w i))).neg
    refine (this.congr_deriv ?_).congr_of_eventuallyEq ?_
    · have := (hz i).ne'
      field_simp
    · exact Filter.Eventually.of_forall fun v => by simp [div_eq_mul_inv]

/-- **C43, relaxed barrier**: continuously differentiable in the residual, also across the threshold, and equal to the log
barrier above it. -/
theorem C43_relaxed_smooth (w t : ℝ) (ht : 0 < t) :
    (∀ v, HasDerivAt (relaxed w t) (relaxed' w t v) v) ∧ Continuous (relaxed' w t) ∧
    (∀ v, t ≤ v → relaxed w t v = -(w * Real.log v)) ∧
    ∀ (c : Barrier k m) (d : CompData k m) (z : Vec k),
      (c.evaluateR t z d).value = ∑ i, relaxed (c.w i) t (c.res.r z i) :=
  ⟨fun v => hasDerivAt_relaxed w t v ht, continuous_relaxed' w t ht, fun v h => if_neg (not_lt.2 h),
    fun c d z => congrFun (c.costR_eq t d) z⟩

/-- **C43, gradient of the relaxed barrier.**  For every value of the residual, after any history whose last evaluation
was at `z`, a gradient call at `z` leaves the derivative of the cost. -/
theorem C43_relaxed_gradient (c : Barrier k m) (t : ℝ) (ht : 0 < t) (hr : c.res.Correct) (d : CompData k m)
    (before after : List (ZCall k)) (ha : ∀ a ∈ after, a.keepsValue) (z : Vec k) :
    IsGradient (c.costR t d) ((before ++ ZCall.value z :: after ++ [ZCall.grad z]).foldl (c.callR t) d).grad z := by
  have k1 := c.keeps_runR t after ha (c.evaluateR t z (before.foldl (c.callR t) d))
  have h : ∀ (i : Fin m) (g : Vec k), (if c.res.r z i < t then
        g + (c.w i * (c.res.r z i - 2 * t) / (t * t)) • c.res.J z i
      else g - (c.w i / c.res.r z i) • c.res.J z i) = g + relaxed' (c.w i) t (c.res.r z i) • c.res.J z i := by
    intro i g
    rw [relaxed']
    split
    · rfl
    · rw [neg_smul, sub_eq_add_neg]
  have e1 : ((before ++ ZCall.value z :: after ++ [ZCall.grad z]).foldl (c.callR t) d).grad =
      ∑ i, relaxed' (c.w i) t (c.res.r z i) • c.res.J z i := by
    simp only [List.foldl_append, List.foldl_cons, List.foldl_nil, Barrier.callR, Barrier.computeGradientsR, k1]
    simp only [Barrier.evaluateR, h, foldl_add, zero_add]
  rw [e1, c.costR_eq]
  exact sum_comp_gradient (fun i => relaxed (c.w i) t) _ c.res.r _ z (hr z) fun i => hasDerivAt_relaxed _ _ _ ht

/-- What the Hessian call of the relaxed barrier computes: the squares of the first derivatives in the place of the second
ones. -/
theorem C43_relaxed_hessian_value (c : Barrier k m) (t : ℝ) (d : CompData k m) (z : Vec k) :
    ([ZCall.value z, ZCall.grad z, ZCall.hess z].foldl (c.callR t) d).hess =
      (c.res.J z)ᵀ * diagonal (fun i => relaxed' (c.w i) t (c.res.r z i) ^ 2) * c.res.J z := by
  have h : ∀ (i : Fin m) (H : Mat k k), (if c.res.r z i < t then
        let sq := (c.res.r z i - 2 * t) / (t * t)
        H + (c.w i * c.w i * sq * sq) • vecMulVec (c.res.J z i) (c.res.J z i)
      else H + (c.w i * c.w i / (c.res.r z i * c.res.r z i)) • vecMulVec (c.res.J z i) (c.res.J z i)) =
      H + (relaxed' (c.w i) t (c.res.r z i) ^ 2) • vecMulVec (c.res.J z i) (c.res.J z i) := by
    intro i H
    rw [relaxed']
    split
    · congr 2; ring
    · congr 2; rw [neg_sq, div_pow, sq, sq]
  simp only [List.foldl_cons, List.foldl_nil, Barrier.callR, Barrier.computeHessiansR, Barrier.computeGradientsR,
    Barrier.evaluateR, h, foldl_add, zero_add]
  exact sum_vecMulVec _ _

/-- **C43, Hessian of the relaxed barrier.**  For residuals with a constant Jacobian, unit weights, and values above the
threshold, it is the second derivative.  Missing: other weights, values below the threshold
(`C43_relaxed_hessian_wrong`). -/
theorem C43_relaxed_hessian_partial (c : Barrier k m) (t : ℝ) (ht : 0 < t) (hw : ∀ i, c.w i = 1) (J : Mat m k)
    (hJ : ∀ z, c.res.J z = J) (hr : c.res.Correct) (d : CompData k m) (z : Vec k) (hz : ∀ i, t < c.res.r z i) :
    IsHessian (c.costR t d) ([ZCall.value z, ZCall.grad z, ZCall.hess z].foldl (c.callR t) d).hess z := by
  have hr' : ∀ y, IsJacobian c.res.r J y := fun y => hJ y ▸ hr y
  rw [C43_relaxed_hessian_value, hJ, c.costR_eq]
  refine sum_comp_hessian (fun i => relaxed (c.w i) t) (fun i => relaxed' (c.w i) t) _ c.res.r J z hr'
    (Filter.Eventually.of_forall fun y i => hasDerivAt_relaxed _ _ _ ht) fun i => ?_
  have hp : 0 < c.res.r z i := ht.trans (hz i)
  have := ((hasDerivAt_inv hp.ne').const_mul (c.w i)).neg
  refine (this.congr_deriv ?_).congr_of_eventuallyEq ?_
  · rw [relaxed', if_neg (hz i).not_gt, hw]
    field_simp
    try ring
  · filter_upwards [Ioi_mem_nhds (hz i)] with v hv
    rw [relaxed', if_neg (not_lt.2 (le_of_lt hv))]
    simp [div_eq_mul_inv]

/-- **C43 is violated by the Hessian of the relaxed barrier**: above the threshold with the weight 2 it is 4 instead of 2,
and below it, at 0 with threshold 1 and weight 1, it is 4 instead of 1. -/
theorem C43_relaxed_hessian_wrong :
    ([ZCall.value ![1], ZCall.grad ![1], ZCall.hess ![1]].foldl ((⟨![2], idRes⟩ : Barrier 1 1).callR (1 / 2)) (zeroData 1 1)).hess =
      !![4] ∧
    IsHessian ((⟨![2], idRes⟩ : Barrier 1 1).costR (1 / 2) (zeroData 1 1)) !![2] ![1] ∧
    ([ZCall.value ![0], ZCall.grad ![0], ZCall.hess ![0]].foldl ((⟨![1], idRes⟩ : Barrier 1 1).callR 1) (zeroData 1 1)).hess =
      !![4] ∧
    IsHessian ((⟨![1], idRes⟩ : Barrier 1 1).costR 1 (zeroData 1 1)) !![1] ![0] := by
  refine ⟨?_, ?_, ?_, ?_⟩
  · rw [C43_relaxed_hessian_value]
    ext i j
    fin_cases i; fin_cases j
    norm_num [idRes, relaxed']
  · rw [Barrier.costR_eq]
    have := sum_comp_hessian (fun _ : Fin 1 => relaxed 2 (1 / 2)) (fun _ => relaxed' 2 (1 / 2)) (fun _ => 2)
      (idRes (k := 1)).r 1 ![1] (fun y => IsJacobian.id y)
      (Filter.Eventually.of_forall fun y i => hasDerivAt_relaxed _ _ _ (by norm_num)) (fun i => by
        fin_cases i
        have h := ((hasDerivAt_inv (one_ne_zero (α := ℝ))).const_mul (2 : ℝ)).neg
        refine (h.congr_deriv (by norm_num)).congr_of_eventuallyEq ?_
        filter_upwards [Ioi_mem_nhds (show (1 / 2 : ℝ) < 1 by norm_num)] with v hv
        rw [relaxed', if_neg (not_lt.2 (le_of_lt hv))]
        simp [div_eq_mul_inv])
    have e : (1 : Mat 1 1)ᵀ * diagonal (fun _ => 2) * 1 = !![2] := by
      ext i j; fin_cases i; fin_cases j; simp
    rw [e] at this
    convert this using 5 with z i
    fin_cases i; rfl
  · rw [C43_relaxed_hessian_value]
    ext i j
    fin_cases i; fin_cases j
    norm_num [idRes, relaxed']
  · rw [Barrier.costR_eq]
    have := sum_comp_hessian (fun _ : Fin 1 => relaxed 1 1) (fun _ => relaxed' 1 1) (fun _ => 1)
      (idRes (k := 1)).r 1 ![0] (fun y => IsJacobian.id y)
      (Filter.Eventually.of_forall fun y i => hasDerivAt_relaxed _ _ _ (by norm_num)) (fun i => by
        fin_cases i
        have h := (hasDerivAt_id (0 : ℝ)).sub_const (2 : ℝ)
        refine h.congr_of_eventuallyEq ?_
        filter_upwards [Iio_mem_nhds (show (0 : ℝ) < 1 by norm_num)] with v hv
        rw [relaxed', if_pos (Set.mem_Iio.1 hv)]
        simp)
    have e : (1 : Mat 1 1)ᵀ * diagonal (fun _ => 1) * 1 = !![1] := by
      ext i j; fin_cases i; fin_cases j; simp
    rw [e] at this
    convert this using 5 with z i
    fin_cases i; rfl

/-- Hypotheses of `C43_log_gradient`, `C43_log_hessian_negated`, `C43_relaxed_gradient` and
`C43_relaxed_hessian_partial`: the identity residual at a point with positive coordinates. -/
example : (idRes (k := 2)).Correct ∧ (∀ z, (idRes (k := 2)).J z = 1) ∧
    (∀ i, (1 / 2 : ℝ) < (idRes (k := 2)).r ![1, 2] i) ∧ (∀ i, (0 : ℝ) < (idRes (k := 2)).r ![1, 2] i) := by
  refine ⟨idRes_correct.1, fun _ => rfl, fun i => ?_, fun i => ?_⟩ <;> fin_cases i <;> norm_num [idRes]

/-- Hypotheses of `C42_quad_gradient_partial` with a cross weight and a non-trivial history. -/
example : let c : Quad 2 1 := Quad.newCross !![1, 2; 2, 3] !![4] !![5; 6] ![1, 1] ![2]
    c.WF ∧ c.Wxxᵀ = c.Wxx ∧ c.Wuuᵀ = c.Wuu ∧
      ∀ a ∈ [Call.hess ![1, 2] ![3], Call.grad ![1, 2] ![3]], (a : Call 2 1).keeps := by
  refine ⟨by simp [Quad.WF, Quad.newCross], ?_, ?_, ?_⟩
  · ext i j; fin_cases i <;> fin_cases j <;> rfl
  · ext i j; fin_cases i; fin_cases j; rfl
  · simp [Call.keeps]

end Aligator.QCosts
