import Verif.Spec.Integrators
import Verif.Lemmas.Derivatives
import Mathlib.LinearAlgebra.Matrix.Notation
import Mathlib.Tactic.FinCases
import Mathlib.Tactic.NormNum
import Mathlib.Tactic.Module
import Mathlib.Tactic.FieldSimp

/-!
# C44: integrators on vector spaces
-/

namespace Aligator.Integ

open Matrix Aligator.Deriv Spec

variable {n m p k : ℕ}

/-! ### Matrices side by side -/

theorem hcat_add (A A' : Mat k n) (B B' : Mat k m) : hcat A B + hcat A' B' = hcat (A + A') (B + B') := by
  funext i; exact append_add _ _ _ _

theorem hcat_sub (A A' : Mat k n) (B B' : Mat k m) : hcat A B - hcat A' B' = hcat (A - A') (B - B') := by
  funext i; exact append_sub _ _ _ _

theorem hcat_smul (c : ℝ) (A : Mat k n) (B : Mat k m) : c • hcat A B = hcat (c • A) (c • B) := by
  funext i; exact append_smul _ _ _

theorem selFst_eq : selFst n m = hcat 1 0 := by
  have := mul_selFst (m := m) (1 : Mat n n)
  rwa [Matrix.one_mul] at this

theorem selSnd_eq : selSnd n m = hcat 0 1 := by
  have := mul_selSnd (n := n) (1 : Mat m m)
  rwa [Matrix.one_mul] at this

theorem mul_hcat {l : ℕ} (M : Mat l k) (A : Mat k n) (B : Mat k m) : M * hcat A B = hcat (M * A) (M * B) := by
  funext i j
  refine Fin.addCases (fun a => ?_) (fun b => ?_) j <;> simp [Matrix.mul_apply, hcat]

/-- One matrix above the other. -/
def vcat {l : ℕ} (M : Mat n l) (N : Mat m l) : Mat (n + m) l := Fin.append M N

theorem hcat_mul_append {l : ℕ} (A : Mat k n) (B : Mat k m) (M : Mat n l) (N : Mat m l) :
    hcat A B * vcat M N = A * M + B * N := by
  funext i j
  have hM : ∀ a, vcat M N (Fin.castAdd m a) = M a := fun a => Fin.append_left M N a
  have hN : ∀ b, vcat M N (Fin.natAdd n b) = N b := fun b => Fin.append_right M N b
  simp [Matrix.mul_apply, hcat, Fin.sum_univ_add, hM, hN]

/-- A composition `F(a(z), b(z))`. -/
theorem IsJacobian₂.comp {l : ℕ} {F : Vec n → Vec m → Vec k} {a : Vec l → Vec n} {b : Vec l → Vec m} {A : Mat k n}
    {B : Mat k m} {M : Mat n l} {N : Mat m l} {z : Vec l} (hF : IsJacobian₂ F A B (a z) (b z)) (ha : IsJacobian a M z)
    (hb : IsJacobian b N z) : IsJacobian (fun y => F (a y) (b y)) (A * M + B * N) z := by
  rw [← hcat_mul_append]
  have := IsJacobian.comp (G := fun y => Fin.append (a y) (b y)) hF (show IsJacobian _ (vcat M N) z from ha.append hb)
  simpa [stacked] using this

/-! ### ODE objects -/

/-- **C44, linear ODEs.**  Data created by a linear ODE hold its Jacobians (also the one with respect to the
derivative, for use as implicit dynamics), and every call maintains this, so a linear ODE
computes its vector field and derivatives although `dForward` does nothing. -/
theorem C44_linear_ode (A : Mat n n) (B : Mat n m) (c : Vec n) :
    Computes (linearODE A B c) (fun x u => A *ᵥ x + B *ᵥ u + c) (fun Jx Ju => Jx = A ∧ Ju = B) ∧
    (linearData A B).Jx = A ∧ (linearData A B).Ju = B ∧
    ∀ x u v, IsJacobian (fun v => A *ᵥ x + B *ᵥ u + c - v) (linearData A B).Jxdot v := by
  refine ⟨⟨fun x u d _ => rfl, fun x u d h => h, ?_, fun x u d h => h⟩, rfl, rfl, fun x u v =>
    ((IsJacobian.const _ v).sub (IsJacobian.id v)).congr (zero_sub _)⟩
  rintro x u d ⟨h1, h2⟩
  show IsJacobian _ (hcat d.Jx d.Ju) _
  rw [h1, h2]
  exact isJacobian_affine₂ A B c _

/-- **C44, ODEs as implicit dynamics.**  They compute `f(x, u) - v` and its Jacobians. -/
theorem C44_ode_as_dae (o : ODE n m) (f : Vec n → Vec m → Vec n) (Inv : Mat n n → Mat n m → Prop)
    (h : Computes o f Inv) : ComputesDAE o.toDAE (fun x u v => f x u - v) Inv := by
  refine ⟨fun x u v d hd => ?_, fun x u v d hd => h.keep x u d hd, fun x u v d hd => ?_,
    fun x u v d hd => h.keepJ x u d hd⟩
  · simp [ODE.toDAE, h.value x u d hd]
  · intro e
    have hz1 : fst (Fin.append (Fin.append x u) v) = Fin.append x u := fst_append _ _
    have h1 : IsJacobian (fun z : Fin (n + m + n) → ℝ => stacked f (fst z)) (hcat e.Jx e.Ju * selFst (n + m) n)
        (Fin.append (Fin.append x u) v) :=
      IsJacobian.comp (F := stacked f) (G := fst) (by rw [hz1]; exact h.jac x u d hd) (isJacobian_fst _)
    refine (h1.sub (isJacobian_snd _)).congr ?_
    rw [selFst_eq, selSnd_eq, mul_hcat, hcat_sub]
    simp [e, ODE.toDAE]

/-! ### Explicit integrators -/

/-- A condition on the buffers of both ODE data. -/
def Good (Inv : Mat n n → Mat n m → Prop) (d : IData n m) : Prop := Inv d.c1.Jx d.c1.Ju ∧ Inv d.c2.Jx d.c2.Ju

/-- **C44, calling histories.**  Every history of calls maintains the condition the ODE needs. -/
theorem C44_histories (o : ODE n m) (q : ODE (p + p) m) (f : Vec n → Vec m → Vec n)
    (f' : Vec (p + p) → Vec m → Vec (p + p)) (Inv : Mat n n → Mat n m → Prop) (Inv' : _ → _ → Prop)
    (ho : Computes o f Inv) (hq : Computes q f' Inv') (h : ℝ) :
    (∀ (cs : List (ICall n m)) d, Good Inv d → Good Inv (cs.foldl (euler o h).call d)) ∧
    (∀ (cs : List (ICall n m)) d, Good Inv d → Good Inv (cs.foldl (rk2 o h).call d)) ∧
    (∀ (cs : List (ICall (p + p) m)) d, Good Inv' d → Good Inv' (cs.foldl (semiEuler q h).call d)) := by
  have key : ∀ {n : ℕ} (i : Integrator n m) (P : IData n m → Prop), (∀ d c, P d → P (i.call d c)) →
      ∀ (cs : List (ICall n m)) d, P d → P (cs.foldl i.call d) := by
    intro n i P hP cs
    induction cs with
    | nil => exact fun d h => h
    | cons c cs ih => exact fun d h => ih _ (hP d c h)
  refine ⟨key _ _ ?_, key _ _ ?_, key _ _ ?_⟩
  · rintro d (⟨x, u⟩ | ⟨x, u⟩) ⟨h1, h2⟩
    · exact ⟨ho.keep _ _ _ h1, h2⟩
    · exact ⟨ho.keepJ _ _ _ h1, h2⟩
  · rintro d (⟨x, u⟩ | ⟨x, u⟩) ⟨h1, h2⟩
    · exact ⟨ho.keep _ _ _ h1, ho.keep _ _ _ h2⟩
    · exact ⟨ho.keepJ _ _ _ h1, ho.keepJ _ _ _ h2⟩
  · rintro d (⟨x, u⟩ | ⟨x, u⟩) ⟨h1, h2⟩
    · exact ⟨hq.keep _ _ _ h1, h2⟩
    · exact ⟨hq.keepJ _ _ _ h1, h2⟩

/-- **C44, explicit Euler.**  On any data, `forward` computes `x + h f(x, u)` and `dForward` its Jacobians. -/
theorem C44_euler (o : ODE n m) (f : Vec n → Vec m → Vec n) (Inv : Mat n n → Mat n m → Prop) (ho : Computes o f Inv)
    (h : ℝ) (d : IData n m) (hd : Good Inv d) (x : Vec n) (u : Vec m) :
    ((euler o h).forward x u d).xnext = eulerStep f h x u ∧
    IsJacobian₂ (eulerStep f h) ((euler o h).dForward x u d).Jx ((euler o h).dForward x u d).Ju x u := by
  refine ⟨by simp [euler, eulerStep, ho.value x u d.c1 hd.1], ?_⟩
  refine ((isJacobian_fst _).add ((ho.jac x u d.c1 hd.1).smul h)).congr ?_
  rw [selFst_eq, hcat_smul, hcat_add, zero_add, add_comm (1 : Mat n n)]
  rfl

theorem isJacobian_bot {F : Vec k → Vec (p + p)} {A : Mat (p + p) k} {z : Vec k} (h : IsJacobian F A z) :
    IsJacobian (fun y => bot (F y)) (bot A) z := fun i => h (Fin.natAdd p i)

theorem isJacobian_top {F : Vec k → Vec (p + p)} {A : Mat (p + p) k} {z : Vec k} (h : IsJacobian F A z) :
    IsJacobian (fun y => top (F y)) (top A) z := fun i => h (Fin.castAdd p i)

/-- **C44, semi-implicit Euler.**  On any data, `forward` computes the new velocities and the new positions from them, and
`dForward` the Jacobians of this map. -/
theorem C44_semi_euler (o : ODE (p + p) m) (f : Vec (p + p) → Vec m → Vec (p + p)) (Inv : _ → _ → Prop)
    (ho : Computes o f Inv) (h : ℝ) (d : IData (p + p) m) (hd : Good Inv d) (x : Vec (p + p)) (u : Vec m) :
    ((semiEuler o h).forward x u d).xnext = semiStep f h x u ∧
    IsJacobian₂ (semiStep f h) ((semiEuler o h).dForward x u d).Jx ((semiEuler o h).dForward x u d).Ju x u := by
  constructor
  · funext i
    refine Fin.addCases (fun a => ?_) (fun b => ?_) i
    · simp [semiEuler, semiStep, ho.value x u d.c1 hd.1, setTop, setBot, top, bot, -Fin.natAdd_eq_addNat]
      ring
    · simp [semiEuler, semiStep, ho.value x u d.c1 hd.1, setTop, setBot, top, bot, -Fin.natAdd_eq_addNat]
  · have hf := ho.jac x u d.c1 hd.1
    have hx := isJacobian_fst (Fin.append x u)
    have hv := (isJacobian_bot hx).add ((isJacobian_bot hf).smul h)
    have hq := (isJacobian_top hx).add (hv.smul h)
    refine (hq.append hv).congr ?_
    rw [selFst_eq]
    funext i j
    refine Fin.addCases (fun a => ?_) (fun b => ?_) i
    · refine (congrFun (Fin.append_left _ _ a) j).trans ?_
      show (hcat 1 0 : Mat (p + p) (p + p + m)) (Fin.castAdd p a) j + h * ((hcat 1 0 : Mat (p + p) (p + p + m))
        (Fin.natAdd p a) j + h * hcat (o.dForward x u d.c1).Jx (o.dForward x u d.c1).Ju (Fin.natAdd p a) j) = _
      refine Fin.addCases (fun c => ?_) (fun c => ?_) j
      · simp [semiEuler, setTop, setBot, top, bot, hcat, -Fin.natAdd_eq_addNat]
        erw [Matrix.add_apply]
        simp [top, bot, -Fin.natAdd_eq_addNat]
        ring
      · simp [semiEuler, setTop, setBot, top, bot, hcat, -Fin.natAdd_eq_addNat]
    · refine (congrFun (Fin.append_right _ _ b) j).trans ?_
      show (hcat 1 0 : Mat (p + p) (p + p + m)) (Fin.natAdd p b) j +
        h * hcat (o.dForward x u d.c1).Jx (o.dForward x u d.c1).Ju (Fin.natAdd p b) j = _
      refine Fin.addCases (fun c => ?_) (fun c => ?_) j
      · simp [semiEuler, setTop, setBot, top, bot, hcat, -Fin.natAdd_eq_addNat]; ring
      · simp [semiEuler, setTop, setBot, top, bot, hcat, -Fin.natAdd_eq_addNat]

/-- A call that is not `forward`. -/
def ICall.keeps : ICall n m → Prop
  | .forward _ _ => False
  | _ => True

theorem rk2_keeps (o : ODE n m) (h : ℝ) (cs : List (ICall n m)) (hc : ∀ a ∈ cs, a.keeps) (d : IData n m) :
    (cs.foldl (rk2 o h).call d).x1 = d.x1 := by
  induction cs generalizing d with
  | nil => rfl
  | cons a cs ih =>
    rw [List.foldl_cons, ih (fun b hb => hc b (by simp [hb]))]
    cases a with
    | forward x u => exact absurd (hc (.forward x u) (by simp)) (by simp [ICall.keeps])
    | dForward x u => rfl

/-- **C44, RK2.**  On any data `forward` computes the explicit midpoint step; after any history whose last `forward` was at
`(x, u)`, `dForward` at `(x, u)` computes the Jacobians of this map.  Missing: histories without that call
(`C44_rk2_stale`). -/
theorem C44_rk2_partial (o : ODE n m) (f : Vec n → Vec m → Vec n) (Inv : Mat n n → Mat n m → Prop)
    (ho : Computes o f Inv) (h : ℝ) (d : IData n m) (hd : Good Inv d) (x : Vec n) (u : Vec m)
    (before after : List (ICall n m)) (ha : ∀ a ∈ after, a.keeps) :
    ((rk2 o h).forward x u d).xnext = rk2Step f h x u ∧
    let e := (before ++ ICall.forward x u :: after ++ [ICall.dForward x u]).foldl (rk2 o h).call d
    IsJacobian₂ (rk2Step f h) e.Jx e.Ju x u := by
  have hx1 : ∀ d, Good Inv d → ((rk2 o h).forward x u d).x1 = x + (h / 2) • f x u := by
    intro d hd
    simp only [rk2, ho.value x u d.c1 hd.1]
    rw [show 1 / 2 * h = h / 2 by ring]
  constructor
  · have h1 := hx1 d hd
    simp only [rk2] at h1
    simp only [rk2, rk2Step, h1, ho.value _ u d.c2 hd.2]
  · intro e
    obtain ⟨-, hh, -⟩ := C44_histories o (linearODE 0 0 0 : ODE (0 + 0) m) f _ Inv _ ho
      (C44_linear_ode 0 0 0).1 h
    have hd1 := hh before d hd
    generalize hD1 : before.foldl (rk2 o h).call d = d1 at hd1
    have hd2 : Good Inv ((rk2 o h).forward x u d1) := ⟨ho.keep _ _ _ hd1.1, ho.keep _ _ _ hd1.2⟩
    have e2 := rk2_keeps o h after ha ((rk2 o h).forward x u d1)
    have hd3 := hh after _ hd2
    rw [hx1 d1 hd1] at e2
    generalize hD3 : after.foldl (rk2 o h).call ((rk2 o h).forward x u d1) = d3 at e2 hd3
    have he : e = (rk2 o h).dForward x u d3 := by
      simp only [e, List.foldl_append, List.foldl_cons, List.foldl_nil, hD1, Integrator.call]
      rw [← hD3]
    have j1 := ho.jac x u d3.c1 hd3.1
    have j2 := ho.jac (x + (h / 2) • f x u) u d3.c2 hd3.2
    have hx := isJacobian_fst (Fin.append x u)
    have hu := isJacobian_snd (Fin.append x u)
    have hs : IsJacobian (fun z : Fin (n + m) → ℝ => fst z + (h / 2) • stacked f z) _ (Fin.append x u) :=
      hx.add (j1.smul (h / 2))
    have hF := IsJacobian₂.comp (F := f) (a := fun z : Fin (n + m) → ℝ => fst z + (h / 2) • stacked f z) (b := snd)
      (z := Fin.append x u) (by simpa [stacked] using j2) hs hu
    refine (hx.add (hF.smul h)).congr ?_
    rw [he]
    simp only [rk2, e2]
    rw [show 1 / 2 * h = h / 2 by ring]
    generalize (o.dForward x u d3.c1).Jx = A1
    generalize (o.dForward x u d3.c1).Ju = B1
    generalize (o.dForward (x + (h / 2) • f x u) u d3.c2).Jx = A2
    generalize (o.dForward (x + (h / 2) • f x u) u d3.c2).Ju = B2
    rw [selFst_eq, selSnd_eq, hcat_smul, hcat_add, mul_hcat, mul_hcat, hcat_add, hcat_smul, hcat_add]
    congr 1
    · rw [Matrix.mul_zero, add_zero, Matrix.smul_mul, add_comm, add_comm (1 : Mat n n)]
    · rw [Matrix.mul_one, zero_add, zero_add, smul_add, Matrix.smul_mul]

/-! ### Implicit midpoint -/

/-- **C44, midpoint.**  Only positive steps are accepted, and on any data `evaluate` computes the residual of the midpoint
rule; for an ODE it vanishes exactly when `y = x + h f((x + y)/2, u)`. -/
theorem C44_midpoint_value (o : DAE n m) (g : Vec n → Vec m → Vec n → Vec n) (Inv : Mat n n → Mat n m → Prop)
    (ho : ComputesDAE o g Inv) (h : ℝ) (hh : ¬ midpointThrows h) (d : MData n m) (hd : Inv d.c.Jx d.c.Ju) (x y : Vec n)
    (u : Vec m) :
    0 < h ∧ (midEvaluate o h x u y d).value = midResidual g h x u y ∧
    ∀ f : Vec n → Vec m → Vec n, (∀ x u v, g x u v = f x u - v) →
      ((midEvaluate o h x u y d).value = 0 ↔ y = x + h • f ((1 / 2 : ℝ) • (x + y)) u) := by
  have hp : 0 < h := not_le.1 hh
  have e : x + (1 / 2 : ℝ) • (y - x) = (1 / 2 : ℝ) • (x + y) := by module
  have hv : (midEvaluate o h x u y d).value = midResidual g h x u y := by
    simp only [midEvaluate, midResidual, e, ho.value _ _ _ d.c hd]
  refine ⟨hp, hv, fun f hf => ?_⟩
  rw [hv, midResidual, hf, smul_sub, smul_smul, mul_inv_cancel₀ hp.ne', one_smul]
  constructor
  · intro h0
    have := sub_eq_zero.1 h0
    rw [this]; module
  · intro h0
    rw [sub_eq_zero, eq_comm, sub_eq_iff_eq_add, add_comm]
    exact h0

/-- A call that is not an evaluation. -/
def MCall.keeps : MCall n m → Prop
  | .value _ _ _ => False
  | _ => True

theorem mid_keeps (o : DAE n m) (h : ℝ) (cs : List (MCall n m)) (hc : ∀ a ∈ cs, a.keeps) (d : MData n m) :
    (cs.foldl (midCall o h) d).x1 = d.x1 ∧ (cs.foldl (midCall o h) d).xdot = d.xdot := by
  induction cs generalizing d with
  | nil => exact ⟨rfl, rfl⟩
  | cons a cs ih =>
    have := ih (fun b hb => hc b (by simp [hb])) (midCall o h d a)
    rw [List.foldl_cons, this.1, this.2]
    cases a with
    | value x u y => exact absurd (hc (.value x u y) (by simp)) (by simp [MCall.keeps])
    | jac x u y => exact ⟨rfl, rfl⟩

theorem mid_algebra {h : ℝ} (hh : h ≠ 0) (P : Mat n n) (Q : Mat n m) (R : Mat n n) :
    h • (hcat (hcat P Q) R * vcat (vcat ((1 / 2 : ℝ) • (selFst n m * selFst (n + m) n + selSnd (n + m) n))
      (selSnd n m * selFst (n + m) n)) (h⁻¹ • (selSnd (n + m) n - selFst n m * selFst (n + m) n))) =
    hcat (hcat (h • (P * (1 + (1 / 2 : ℝ) • (1 : Mat n n) * -1)) + R * -1) (h • Q))
      (h • (P * ((1 / 2 : ℝ) • (1 : Mat n n) * 1)) + R * 1) := by
  rw [hcat_mul_append, hcat_mul_append, selFst_eq, selFst_eq, selSnd_eq, selSnd_eq]
  have h0 : hcat (0 : Mat n n) (0 : Mat n m) = 0 := by
    funext i j; refine Fin.addCases (fun a => ?_) (fun b => ?_) j <;> simp [hcat]
  have h1 : (hcat (1 : Mat n n) (0 : Mat n m) : Mat n (n + m)) * (0 : Mat (n + m) n) = 0 := Matrix.mul_zero _
  have h2 : (hcat (0 : Mat m n) (1 : Mat m m) : Mat m (n + m)) * (0 : Mat (n + m) n) = 0 := Matrix.mul_zero _
  have e : (1 : Mat n n) + (1 / 2 : ℝ) • (1 : Mat n n) * -1 = (1 / 2 : ℝ) • 1 := by
    rw [Matrix.mul_neg, Matrix.mul_one]; module
  have h3 : hcat (1 : Mat n n) (0 : Mat n m) + 0 = hcat 1 0 := add_zero _
  have h4 : (0 : Mat n (n + m)) - hcat (1 : Mat n n) (0 : Mat n m) = hcat (-1) 0 := by
    rw [← h0, hcat_sub, zero_sub, sub_zero]
  rw [mul_hcat, mul_hcat, Matrix.mul_one, Matrix.mul_one, h1, h2, hcat_add, hcat_sub, h3, h4, e]
  simp only [hcat_smul, mul_hcat, hcat_add]
  congr 1
  · congr 1
    · rw [Matrix.mul_zero, add_zero, smul_add, Matrix.mul_smul, Matrix.mul_smul, smul_smul h h⁻¹,
        mul_inv_cancel₀ hh, one_smul]
    · simp
  · rw [zero_add, sub_zero, Matrix.mul_one, Matrix.mul_zero, add_zero, smul_add, Matrix.mul_smul R, smul_smul h h⁻¹,
      mul_inv_cancel₀ hh, one_smul]

/-- **C44, Jacobians of the midpoint rule.**  After any history whose last evaluation was at `(x, u, y)`, the Jacobian call
computes the derivatives of the residual in the three arguments.  Missing: histories without that evaluation
(`C44_midpoint_stale`). -/
theorem C44_midpoint_partial (o : DAE n m) (g : Vec n → Vec m → Vec n → Vec n) (Inv : Mat n n → Mat n m → Prop)
    (ho : ComputesDAE o g Inv) (h : ℝ) (hh : ¬ midpointThrows h) (d : MData n m) (hd : Inv d.c.Jx d.c.Ju) (x y : Vec n)
    (u : Vec m) (before after : List (MCall n m)) (ha : ∀ a ∈ after, a.keeps) :
    let e := (before ++ MCall.value x u y :: after ++ [MCall.jac x u y]).foldl (midCall o h) d
    IsJacobian (fun z : Fin (n + m + n) → ℝ => midResidual g h (fst (fst z)) (snd (fst z)) (snd z))
      (hcat (hcat e.Jx e.Ju) e.Jy) (Fin.append (Fin.append x u) y) := by
  intro e
  have hp : 0 < h := not_le.1 hh
  have hinv : ∀ (cs : List (MCall n m)) (d : MData n m), Inv d.c.Jx d.c.Ju →
      Inv (cs.foldl (midCall o h) d).c.Jx (cs.foldl (midCall o h) d).c.Ju := by
    intro cs
    induction cs with
    | nil => exact fun d hd => hd
    | cons a cs ih =>
      intro d hd
      refine ih _ ?_
      cases a with
      | value x u y => exact ho.keep _ _ _ _ hd
      | jac x u y => exact ho.keepJ _ _ _ _ hd
  have hm : x + (1 / 2 : ℝ) • (y - x) = (1 / 2 : ℝ) • (x + y) := by module
  have hd1 := hinv before d hd
  generalize hD1 : before.foldl (midCall o h) d = d1 at hd1
  obtain ⟨e1, e2⟩ := mid_keeps o h after ha (midEvaluate o h x u y d1)
  have hd3 := hinv after (midEvaluate o h x u y d1) (ho.keep _ _ _ _ hd1)
  generalize hD3 : after.foldl (midCall o h) (midEvaluate o h x u y d1) = d3 at e1 e2 hd3
  simp only [midEvaluate, hm] at e1 e2
  have he : e = midJacobians o h x u y d3 := by
    simp only [e, List.foldl_append, List.foldl_cons, List.foldl_nil, hD1, midCall, hD3]
  have j := ho.jac ((1 / 2 : ℝ) • (x + y)) u (h⁻¹ • (y - x)) d3.c hd3
  set z := Fin.append (Fin.append x u) y
  have hz := isJacobian_fst z
  have hx : IsJacobian (fun z : Fin (n + m + n) → ℝ => fst (fst z)) (selFst n m * selFst (n + m) n) z :=
    hz.mulVec_sel (isJacobian_fst (fst z))
  have hu : IsJacobian (fun z : Fin (n + m + n) → ℝ => snd (fst z)) (selSnd n m * selFst (n + m) n) z :=
    hz.mulVec_sel (isJacobian_snd (fst z))
  have hy := isJacobian_snd z
  have hx1 := (hx.add hy).smul (1 / 2)
  have hxd := (hy.sub hx).smul h⁻¹
  let G : Vec (n + m + n) → Vec (n + m + n) := fun z => Fin.append
    (Fin.append ((1 / 2 : ℝ) • (fst (fst z) + snd z)) (snd (fst z))) (h⁻¹ • (snd z - fst (fst z)))
  have hGz : G z = Fin.append (Fin.append ((1 / 2 : ℝ) • (x + y)) u) (h⁻¹ • (y - x)) := by simp [G, z]
  rw [← hGz] at j
  have hG := IsJacobian.comp (G := G) j
    (show IsJacobian G (vcat (vcat _ _) _) z from (hx1.append hu).append hxd)
  have hF : (fun z : Fin (n + m + n) → ℝ => midResidual g h (fst (fst z)) (snd (fst z)) (snd z)) =
      fun z => h • (fun z : Fin (n + m + n) → ℝ => g (fst (fst z)) (snd (fst z)) (snd z)) (G z) := by
    funext z; simp only [midResidual, G, fst_append, snd_append]
  rw [hF]
  refine (hG.smul h).congr ?_
  rw [he]
  simp only [midJacobians, e1, e2]
  exact mid_algebra hp.ne' _ _ _

/-! ### A nonlinear example, and the stale intermediate points -/

/-- The vector field `x² + u` on the line. -/
def sqODE : ODE 1 1 where
  forward x u d := { d with xdot := fun _ => x 0 * x 0 + u 0 }
  dForward x _ d := { d with Jx := Matrix.of fun _ _ => 2 * x 0, Ju := Matrix.of fun _ _ => 1 }

theorem sq_computes : Computes sqODE (fun x u _ => x 0 * x 0 + u 0) (fun _ _ => True) := by
  refine ⟨fun _ _ _ _ => rfl, fun _ _ _ _ => trivial, fun x u d _ => ?_, fun _ _ _ _ => trivial⟩
  intro i
  have h0 := IsGradient.coord (Fin.castAdd 1 (0 : Fin 1)) (Fin.append x u)
  have h1 := IsGradient.coord (Fin.natAdd 1 (0 : Fin 1)) (Fin.append x u)
  refine ((h0.mul h0).add h1).congr ?_
  funext j
  refine Fin.addCases (fun a => ?_) (fun b => ?_) j
  · have : a = 0 := Subsingleton.elim _ _
    subst this
    simp only [hcat, Fin.append_left, sqODE, Matrix.of_apply, Pi.add_apply, Pi.smul_apply, smul_eq_mul, Pi.single_eq_same]
    rw [Pi.single_eq_of_ne (by decide)]
    ring
  · have : b = 0 := Subsingleton.elim _ _
    subst this
    simp only [hcat, Fin.append_right, sqODE, Matrix.of_apply, Pi.add_apply, Pi.smul_apply, smul_eq_mul, Pi.single_eq_same]
    rw [Pi.single_eq_of_ne (by decide)]
    ring

/-- Both kinds of ODE meet the hypotheses of `C44_euler` and the others: a linear system with the data it creates, and a
nonlinear one with any data. -/
example (A : Mat n n) (B : Mat n m) (c : Vec n) (h : ℝ) (d : IData n m) (hd : d.c1 = linearData A B)
    (hd' : d.c2 = linearData A B) (x : Vec n) (u : Vec m) :
    ((euler (linearODE A B c) h).forward x u d).xnext = eulerStep (fun x u => A *ᵥ x + B *ᵥ u + c) h x u :=
  (C44_euler _ _ _ (C44_linear_ode A B c).1 h d ⟨by rw [hd]; exact ⟨rfl, rfl⟩, by rw [hd']; exact ⟨rfl, rfl⟩⟩ x u).1

example (d : IData 1 1) : ((euler sqODE (1 / 2)).forward ![3] ![1] d).xnext = ![8] := by
  rw [(C44_euler _ _ _ sq_computes (1 / 2) d ⟨trivial, trivial⟩ _ _).1]
  funext i; fin_cases i; simp [eulerStep]; norm_num

example (d : IData 1 1) : ((rk2 sqODE 1).forward ![0] ![2] d).xnext = ![3] := by
  rw [(C44_rk2_partial _ _ _ sq_computes 1 d ⟨trivial, trivial⟩ ![0] ![2] [] [] (by simp)).1]
  funext i; fin_cases i; simp [rk2Step]; norm_num

/-- A point mass: semi-implicit Euler moves it by its new velocity. -/
example (d : IData (1 + 1) 1) (hd : Good (fun Jx Ju => Jx = !![0, 1; 0, 0] ∧ Ju = !![0; 1]) d) :
    ((semiEuler (linearODE (!![0, 1; 0, 0] : Mat 2 2) (!![0; 1] : Mat 2 1) 0 : ODE (1 + 1) 1) (1 / 2)).forward ![0, 1] ![2]
      d).xnext = ![1, 2] := by
  rw [(C44_semi_euler _ _ _ (C44_linear_ode (!![0, 1; 0, 0] : Mat 2 2) (!![0; 1] : Mat 2 1) 0).1 (1 / 2) d hd _ _).1]
  funext i
  fin_cases i
  · show (semiStep (p := 1) _ (1 / 2) ![0, 1] ![2]) (Fin.castAdd 1 0) = 1
    simp only [semiStep, Fin.append_left]
    simp [top, bot, Fin.natAdd]; norm_num
  · show (semiStep (p := 1) _ (1 / 2) ![0, 1] ![2]) (Fin.natAdd 1 0) = 2
    simp only [semiStep, Fin.append_right]
    simp [bot, Fin.natAdd]; norm_num

example (d : MData 1 1) : (midEvaluate sqODE.toDAE 1 ![0] ![3] ![4] d).value = ![3] := by
  have := C44_midpoint_value _ _ _ (C44_ode_as_dae _ _ _ sq_computes) 1 (by simp [midpointThrows]) d trivial ![0] ![4] ![3]
  rw [this.2.1]
  funext i; fin_cases i; simp [midResidual]; norm_num

/-- **C44, negative part.**  `dForward` of RK2 uses the midpoint of the last `forward`: after a `forward` elsewhere its
Jacobian is that of no step. -/
theorem C44_rk2_stale (d : IData 1 1) :
    let e := [ICall.forward ![0] ![0], ICall.dForward ![1] ![0]].foldl (rk2 sqODE 1).call d
    ¬ IsJacobian₂ (rk2Step (fun x u _ => x 0 * x 0 + u 0) 1) e.Jx e.Ju ![1] ![0] := by
  intro e he
  have hr := (C44_rk2_partial _ _ _ sq_computes 1 d ⟨trivial, trivial⟩ ![1] ![0] [] [] (by simp)).2
  have := congrFun (congrFun (he.unique hr) 0) (Fin.castAdd 1 0)
  simp only [hcat, Fin.append_left] at this
  simp [e, Integrator.call, rk2, sqODE, Matrix.mul_apply, vecHead] at this
  norm_num at this

/-- **C44, negative part.**  The Jacobians of the midpoint rule use the midpoint of the last evaluation. -/
theorem C44_midpoint_stale (d : MData 1 1) :
    let e := [MCall.value ![0] ![0] ![0], MCall.jac ![1] ![0] ![1]].foldl (midCall sqODE.toDAE 1) d
    ¬ IsJacobian (fun z : Fin (1 + 1 + 1) → ℝ => midResidual (fun x u v => (fun _ => x 0 * x 0 + u 0) - v) 1 (fst (fst z))
        (snd (fst z)) (snd z)) (hcat (hcat e.Jx e.Ju) e.Jy) (Fin.append (Fin.append ![1] ![0]) ![1]) := by
  intro e he
  have hr := C44_midpoint_partial _ _ _ (C44_ode_as_dae _ _ _ sq_computes) 1 (by simp [midpointThrows]) d trivial ![1] ![1]
    ![0] [] [] (by simp)
  have := congrFun (congrFun (he.unique hr) 0) (Fin.castAdd 1 (Fin.castAdd 1 0))
  simp only [hcat, Fin.append_left] at this
  simp [e, midCall, midEvaluate, midJacobians, ODE.toDAE, sqODE, Matrix.mul_apply] at this
  norm_num at this

end Aligator.Integ
