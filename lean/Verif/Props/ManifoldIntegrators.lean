import Verif.Lemmas.ManifoldIntegrators
import Mathlib.Tactic.FinCases
import Mathlib.LinearAlgebra.Matrix.Notation
import Mathlib.Algebra.BigOperators.Fin

/-!
# C44: integrators on manifolds
-/

namespace Aligator.MInteg

open Matrix Aligator.Deriv Aligator.MInteg.Spec
open Integ (Vec Mat)
open Integ.Spec (hcat)
open Integ (vcat hcat_mul_append hcat_add hcat_smul mul_hcat selFst_eq selSnd_eq)

variable {a b n m p k l : ℕ} {σ : Type}

/-! ### Explicit integrators -/

section
variable {S : Space a n} {pt : Vec a → Prop} {near : Vec a → Vec a → Prop} {o : ODE a n m σ} {f : Vec a → Vec m → Vec n}
  {Inv : σ → Prop} {ready : σ → Vec a → Vec m → Prop}

/-- A condition on both data of the ODE. -/
def Good (Inv : σ → Prop) (d : IData a n m σ) : Prop := Inv d.c1 ∧ Inv d.c2

theorem foldl_keeps {α β : Type} (P : α → Prop) (g : α → β → α) (cs : List β) (h : ∀ a, ∀ c ∈ cs, P a → P (g a c)) (a : α) (ha : P a) :
    P (cs.foldl g a) := by
  induction cs generalizing a with
  | nil => exact ha
  | cons c cs ih => exact ih (fun a c hc => h a c (List.mem_cons_of_mem _ hc)) _ (h a c (by simp) ha)

/-- The last call of a history. -/
theorem foldl_last {α β : Type} (P : α → Prop) (Q : α → Prop) (g : α → β → α) (cs : List β) (c : β)
    (hk : ∀ a, P a → P (g a c)) (hl : ∀ a, P a → Q (g a c)) (hcs : ∀ c' ∈ cs, c' = c) (hne : cs ≠ []) (a : α) (ha : P a) :
    Q (cs.foldl g a) := by
  obtain ⟨cs', c', rfl⟩ := List.eq_nil_or_concat cs |>.resolve_left hne
  have hc' : c' = c := hcs c' (by simp)
  rw [List.concat_eq_append, List.foldl_append, List.foldl_cons, List.foldl_nil, hc']
  refine hl _ (foldl_keeps P g cs' (fun a c'' h'' => ?_) a ha)
  rw [hcs c'' (by simp [h''])]
  exact hk a

theorem isStep_euler (hS : Lawful S pt near) {x : Vec a} {u : Vec m} (hx : pt x) (h : ℝ) {A : Mat n n} {B : Mat n m}
    (hf : IsJacobian (fun z : Vec (n + m) => f (S.integrate x (fst z)) (u + snd z)) (hcat A B) 0) :
    IsStepJacobian S (eulerStep S f h) (S.transport x (h • f x u) (h • A) + S.Jint0 x (h • f x u))
      (S.transport x (h • f x u) (h • B)) x u := by
  have h0 : S.integrate x (fst (0 : Vec (n + m))) = x := hS.integrate_zero x hx
  have hu : u + snd (0 : Vec (n + m)) = u := by funext i; simp [snd]
  have hb := base_jac (m := m) hS hx
  have := step_jac hS (X := fun z : Vec (n + m) => S.integrate x (fst z)) (fun y => hS.point _ _ hx) hb (hf.smul h)
  simp only [h0, hu] at this
  refine this.congr ?_
  rw [hS.transport _ _ _ hx, hS.transport _ _ _ hx, selFst_eq, hcat_smul, mul_hcat, mul_hcat, hcat_add]
  simp [add_comm]

/-- **C44, explicit Euler on a manifold.**  After any calls, `forward` computes `x ⊕ h f(x, u)`, and calls of `dForward` at the
same point compute the derivatives of this map.  Missing: `dForward` without `forward` at the same point
(`C44_manifold_euler_stale`). -/
theorem C44_manifold_euler_partial (hS : Lawful S pt near) (ho : Computes S pt o f Inv ready) (h : ℝ)
    (d : IData a n m σ) (hd : Good Inv d) (cs hs : List (ICall a m)) (x : Vec a) (u : Vec m) (hx : pt x)
    (hh : ∀ c ∈ hs, c = .dForward x u) :
    let e := (cs ++ .forward x u :: hs).foldl (euler S o h).call d
    e.xnext = eulerStep S f h x u ∧ (hs ≠ [] → IsStepJacobian S (eulerStep S f h) e.Jx e.Ju x u) := by
  intro e
  have hi : Inv (cs.foldl (euler S o h).call d).c1 := by
    refine foldl_keeps (fun d : IData a n m σ => Inv d.c1) _ cs (fun d c _ hd => ?_) d hd.1
    cases c with
    | forward => exact ho.keep _ _ _ hd
    | dForward => exact ho.keepJ _ _ _ hd
  set d0 := cs.foldl (euler S o h).call d
  have he : e = hs.foldl (euler S o h).call ((euler S o h).forward x u d0) := by
    simp only [e, List.foldl_append, List.foldl_cons]; rfl
  let P : IData a n m σ → Prop := fun d => Inv d.c1 ∧ ready d.c1 x u ∧ d.dx = h • f x u ∧ d.xnext = eulerStep S f h x u
  have hP0 : P ((euler S o h).forward x u d0) := by
    refine ⟨ho.keep _ _ _ hi, ho.readyF _ _ _ hx hi, ?_, ?_⟩
    · show h • o.xdot (o.forward x u d0.c1) = _
      rw [ho.value _ _ _ hx hi]
    · show S.integrate x (h • o.xdot (o.forward x u d0.c1)) = _
      rw [ho.value _ _ _ hx hi]; rfl
  have hk : ∀ d, P d → P ((euler S o h).call d (.dForward x u)) := fun d hd =>
    ⟨ho.keepJ _ _ _ hd.1, ho.readyJ _ _ _ hd.2.1, hd.2.2.1, hd.2.2.2⟩
  rw [he]
  refine ⟨(foldl_keeps P _ hs (fun d c hc hd => by rw [hh c hc]; exact hk d hd) _ hP0).2.2.2, fun hne => ?_⟩
  refine foldl_last P (fun e => IsStepJacobian S (eulerStep S f h) e.Jx e.Ju x u) _ hs (.dForward x u) hk (fun d hd => ?_) hh hne _ hP0
  have := isStep_euler hS hx h (ho.jac x u d.c1 hx hd.1 hd.2.1)
  rw [← hd.2.2.1] at this
  exact this

theorem isStep_rk2 (hS : Lawful S pt near) {x : Vec a} {u : Vec m} (hx : pt x) (h : ℝ) {A A' : Mat n n} {B B' : Mat n m}
    (hf : IsJacobian (fun z : Vec (n + m) => f (S.integrate x (fst z)) (u + snd z)) (hcat A B) 0) {x1 : Vec a}
    (h1 : x1 = S.integrate x ((h / 2) • f x u))
    (hf' : IsJacobian (fun z : Vec (n + m) => f (S.integrate x1 (fst z)) (u + snd z)) (hcat A' B') 0) :
    let Ax := S.transport x ((h / 2) • f x u) ((h / 2) • A) + S.Jint0 x ((h / 2) • f x u)
    let Au := S.transport x ((h / 2) • f x u) ((h / 2) • B)
    IsStepJacobian S (rk2Step S f h)
      (S.transport x (h • f x1 u) ((h • A') * Ax) + S.Jint0 x (h • f x1 u))
      (S.transport x (h • f x1 u) ((h • A') * Au + h • B')) x u := by
  intro Ax Au
  have h0 : S.integrate x (fst (0 : Vec (n + m))) = x := hS.integrate_zero x hx
  have hu : u + snd (0 : Vec (n + m)) = u := by funext i; simp [snd]
  have e1 : eulerStep S f (h / 2) x u = x1 := h1.symm
  have hX1 := isStep_euler hS hx (h / 2) hf
  unfold IsStepJacobian at hX1
  have hU : IsJacobian (fun z : Vec (n + m) => u + snd z) (selSnd n m) 0 := by
    simpa using (IsJacobian.const u 0).add (isJacobian_snd (0 : Vec (n + m)))
  have hF := chain hS (F := f) (X := fun z : Vec (n + m) => eulerStep S f (h / 2) (S.integrate x (fst z)) (u + snd z))
    (Y := fun z : Vec (n + m) => u + snd z) (z := 0) (A := A') (B := B') (M := hcat Ax Au) (fun y => hS.point _ _ (hS.point _ _ hx))
    (by simp only [h0, hu, e1]; exact hf') (by simp only [h0, hu]; exact hX1) hU
  have := step_jac hS (X := fun z : Vec (n + m) => S.integrate x (fst z)) (fun y => hS.point _ _ hx) (base_jac (m := m) hS hx)
    (hF.smul h)
  simp only [h0, hu, e1] at this
  have e2 : rk2Step S f h x u = S.integrate x (h • f x1 u) := by rw [h1]; rfl
  unfold IsStepJacobian
  rw [e2]
  refine this.congr ?_
  rw [hS.transport _ _ _ hx, hS.transport _ _ _ hx, selFst_eq, selSnd_eq, mul_hcat, mul_hcat, mul_hcat, hcat_add, hcat_smul, mul_hcat,
    hcat_add]
  simp only [Matrix.mul_zero, Matrix.mul_one, add_zero, zero_add, smul_add, Matrix.smul_mul]
  rw [add_comm (S.Jint0 x (h • f x1 u))]

/-- **C44, RK2 on a manifold** whose Jacobians of `integrate` do not depend on the base point (Lie groups, their products and
tangent bundles).  After any calls, `forward` computes `x ⊕ h f(x ⊕ h/2 f(x, u), u)`, and calls of `dForward` at the same point
compute the derivatives of this map.  Missing: other manifolds (`C44_manifold_rk2_base_point`), and `dForward` without `forward`
at the same point (`C44_rk2_stale`). -/
theorem C44_manifold_rk2_partial (hS : Lawful S pt near) (ho : Computes S pt o f Inv ready)
    (hJ : ∀ x y v, pt x → pt y → S.Jint0 x v = S.Jint0 y v ∧ S.Jint1 x v = S.Jint1 y v) (h : ℝ)
    (d : IData a n m σ) (hd : Good Inv d) (cs hs : List (ICall a m)) (x : Vec a) (u : Vec m) (hx : pt x)
    (hh : ∀ c ∈ hs, c = .dForward x u) :
    let e := (cs ++ .forward x u :: hs).foldl (rk2 S o h).call d
    e.xnext = rk2Step S f h x u ∧ (hs ≠ [] → IsStepJacobian S (rk2Step S f h) e.Jx e.Ju x u) := by
  intro e
  have hi : Good Inv (cs.foldl (rk2 S o h).call d) := by
    refine foldl_keeps (Good Inv) _ cs (fun d c _ hd => ?_) d hd
    cases c with
    | forward => exact ⟨ho.keep _ _ _ hd.1, ho.keep _ _ _ hd.2⟩
    | dForward => exact ⟨ho.keepJ _ _ _ hd.1, ho.keepJ _ _ _ hd.2⟩
  set d0 := cs.foldl (rk2 S o h).call d
  have he : e = hs.foldl (rk2 S o h).call ((rk2 S o h).forward x u d0) := by
    simp only [e, List.foldl_append, List.foldl_cons]; rfl
  set x1 := S.integrate x ((h / 2) • f x u) with hx1
  have hp1 : pt x1 := hS.point _ _ hx
  let P : IData a n m σ → Prop := fun d => Good Inv d ∧ ready d.c1 x u ∧ ready d.c2 x1 u ∧ d.dx1 = (h / 2) • f x u ∧ d.x1 = x1 ∧
    d.dx = h • f x1 u ∧ d.xnext = rk2Step S f h x u
  have hP0 : P ((rk2 S o h).forward x u d0) := by
    have v1 : o.xdot (o.forward x u d0.c1) = f x u := ho.value _ _ _ hx hi.1
    have w1 : S.integrate x ((1 / 2 * h) • o.xdot (o.forward x u d0.c1)) = x1 := by
      rw [v1, hx1, show 1 / 2 * h = h / 2 by ring]
    have v2 : o.xdot (o.forward (S.integrate x ((1 / 2 * h) • o.xdot (o.forward x u d0.c1))) u d0.c2) = f x1 u := by
      rw [w1]; exact ho.value _ _ _ hp1 hi.2
    refine ⟨⟨ho.keep _ _ _ hi.1, ho.keep _ _ _ hi.2⟩, ho.readyF _ _ _ hx hi.1, ?_, ?_, w1, ?_, ?_⟩
    · show ready (o.forward (S.integrate x ((1 / 2 * h) • o.xdot (o.forward x u d0.c1))) u d0.c2) x1 u
      rw [w1]; exact ho.readyF _ _ _ hp1 hi.2
    · show (1 / 2 * h) • o.xdot (o.forward x u d0.c1) = _
      rw [v1, show 1 / 2 * h = h / 2 by ring]
    · show h • o.xdot (o.forward (S.integrate x ((1 / 2 * h) • o.xdot (o.forward x u d0.c1))) u d0.c2) = _
      rw [v2]
    · show S.integrate x (h • o.xdot (o.forward (S.integrate x ((1 / 2 * h) • o.xdot (o.forward x u d0.c1))) u d0.c2)) = _
      rw [v2]; rfl
  have hk : ∀ d, P d → P ((rk2 S o h).call d (.dForward x u)) := by
    rintro d ⟨g, r1, r2, e1, e2, e3, e4⟩
    refine ⟨⟨ho.keepJ _ _ _ g.1, ho.keepJ _ _ _ g.2⟩, ho.readyJ _ _ _ r1, ?_, e1, e2, e3, e4⟩
    show ready (o.dForward d.x1 u d.c2) x1 u
    rw [e2]; exact ho.readyJ _ _ _ r2
  rw [he]
  refine ⟨(foldl_keeps P _ hs (fun d c hc hd => by rw [hh c hc]; exact hk d hd) _ hP0).2.2.2.2.2.2, fun hne => ?_⟩
  refine foldl_last P (fun e => IsStepJacobian S (rk2Step S f h) e.Jx e.Ju x u) _ hs (.dForward x u) hk (fun d hd => ?_) hh hne _ hP0
  obtain ⟨g, r1, r2, e1, e2, e3, e4⟩ := hd
  have := isStep_rk2 hS hx h (ho.jac x u d.c1 hx g.1 r1) hx1 (ho.jac x1 u d.c2 hp1 g.2 r2)
  have t : ∀ {k : ℕ} (v : Vec n) (J : Mat n k), S.transport x v J = S.transport x1 v J := fun v J => by
    rw [hS.transport _ _ _ hx, hS.transport _ _ _ hp1, (hJ x x1 v hx hp1).2]
  dsimp only at this
  rw [t (h • f x1 u), t (h • f x1 u), (hJ x x1 (h • f x1 u) hx hp1).1, ← e3, ← e1, ← e2, show h / 2 = 1 / 2 * h by ring] at this
  exact this

end

/-! ### Semi-implicit Euler -/

section
variable {S : Space (b + p) (p + p)} {pt : Vec (b + p) → Prop} {near : Vec (b + p) → Vec (b + p) → Prop} {o : ODE (b + p) (p + p) m σ}
  {f : Vec (b + p) → Vec m → Vec (p + p)} {Inv : σ → Prop} {ready : σ → Vec (b + p) → Vec m → Prop}

theorem append_top_bot {α : Type} (v : Fin (p + p) → α) : Fin.append (Integ.top v) (Integ.bot v) = v := by
  funext i; refine Fin.addCases (fun _ => ?_) (fun _ => ?_) i
  · rw [Fin.append_left]; rfl
  · rw [Fin.append_right]; rfl

theorem top_append {α : Type} (v w : Fin p → α) : Integ.top (Fin.append v w) = v := by
  funext i; simp [Integ.top]

theorem bot_append {α : Type} (v w : Fin p → α) : Integ.bot (Fin.append v w) = w := by
  funext i; exact Fin.append_right v w i

/-- The derivative of the velocity in the state. -/
def velSel : Mat p (p + p) := fun i => Fin.append 0 (Pi.single i 1)

/-- The last rows. -/
def botM (A : Mat (p + p) k) : Mat p k := fun i => A (Fin.natAdd p i)

theorem vcat_left (P : Mat n l) (Q : Mat m l) (i : Fin n) : vcat P Q (Fin.castAdd m i) = P i := Fin.append_left (α := Fin l → ℝ) P Q i

theorem vcat_right (P : Mat n l) (Q : Mat m l) (i : Fin m) : vcat P Q (Fin.natAdd n i) = Q i := Fin.append_right (α := Fin l → ℝ) P Q i

theorem vcat_hcat {q : ℕ} (A : Mat n k) (B : Mat n l) (C : Mat q k) (D : Mat q l) :
    vcat (hcat A B) (hcat C D) = hcat (vcat A C) (vcat B D) := by
  funext i
  refine Fin.addCases (fun a => ?_) (fun b => ?_) i
  · rw [vcat_left]; show _ = Fin.append (vcat A C (Fin.castAdd q a)) (vcat B D (Fin.castAdd q a)); rw [vcat_left, vcat_left]; rfl
  · rw [vcat_right]; show _ = Fin.append (vcat A C (Fin.natAdd n b)) (vcat B D (Fin.natAdd n b)); rw [vcat_right, vcat_right]; rfl

theorem isStep_semi (hS : Lawful S pt near) (hV : VelocityLast S) {x : Vec (b + p)} {u : Vec m} (hx : pt x) (h : ℝ)
    {A : Mat (p + p) (p + p)} {B : Mat (p + p) m}
    (hf : IsJacobian (fun z : Vec (p + p + m) => f (S.integrate x (fst z)) (u + snd z)) (hcat A B) 0) {v : Vec (p + p)}
    (hv : v = Fin.append (h • (tl x + h • tl (f x u))) (h • tl (f x u))) :
    IsStepJacobian S (semiStep S f h)
      (S.transport x v (vcat (h • (h • botM A + velSel)) (h • botM A)) + S.Jint0 x v)
      (S.transport x v (vcat (h • (h • botM B)) (h • botM B))) x u := by
  have h0 : S.integrate x (fst (0 : Vec (p + p + m))) = x := hS.integrate_zero x hx
  have hu : u + snd (0 : Vec (p + p + m)) = u := by funext i; simp [snd]
  have hb : IsJacobian (fun z : Vec (p + p + m) => Integ.bot (f (S.integrate x (fst z)) (u + snd z))) (hcat (botM A) (botM B)) 0 :=
    Integ.isJacobian_bot hf
  have ht : IsJacobian (fun z : Vec (p + p + m) => tl (S.integrate x (fst z))) (hcat velSel 0) 0 := by
    have e : (fun z : Vec (p + p + m) => tl (S.integrate x (fst z))) = fun z => tl x + Integ.bot (fst z) := by
      funext z; rw [hV.integrate]; rfl
    rw [e]
    have hb' : IsJacobian (fun z : Vec (p + p + m) => Integ.bot (fst z)) (botM (selFst (p + p) m)) 0 :=
      Integ.isJacobian_bot (isJacobian_fst (0 : Vec (p + p + m)))
    refine ((IsJacobian.const (tl x) 0).add hb').congr ?_
    rw [zero_add, selFst_eq]
    funext i
    show Fin.append ((1 : Mat (p + p) (p + p)) (Fin.natAdd p i)) 0 = Fin.append (Fin.append 0 (Pi.single i 1)) 0
    congr 1
    funext j
    refine Fin.addCases (fun a => ?_) (fun b => ?_) j
    · rw [Fin.append_left, Matrix.one_apply_ne (castAdd_ne_natAdd a i).symm]; rfl
    · rw [Fin.append_right, Matrix.one_apply]
      by_cases hij : i = b
      · subst hij; simp
      · rw [if_neg (by simpa [Fin.ext_iff] using hij), Pi.single_eq_of_ne (Ne.symm hij)]
  have hVj : IsJacobian (fun z : Vec (p + p + m) => Fin.append (h • (tl (S.integrate x (fst z)) + h •
      Integ.bot (f (S.integrate x (fst z)) (u + snd z)))) (h • Integ.bot (f (S.integrate x (fst z)) (u + snd z))))
      (vcat (h • (hcat velSel 0 + h • hcat (botM A) (botM B))) (h • hcat (botM A) (botM B))) 0 :=
    ((ht.add (hb.smul h)).smul h).append (hb.smul h)
  have := step_jac hS (X := fun z : Vec (p + p + m) => S.integrate x (fst z)) (fun y => hS.point _ _ hx) (base_jac (m := m) hS hx) hVj
  simp only [h0, hu] at this
  have ev : Fin.append (h • (tl x + h • Integ.bot (f x u))) (h • Integ.bot (f x u)) = v := hv.symm
  rw [ev] at this
  have e2 : semiStep S f h x u = S.integrate x v := by rw [hv]; rfl
  unfold IsStepJacobian
  rw [e2]
  refine this.congr ?_
  rw [hS.transport _ _ _ hx, hS.transport _ _ _ hx, selFst_eq]
  have e3 : vcat (h • (hcat velSel 0 + h • hcat (botM A) (botM B))) (h • hcat (botM A) (botM B)) =
      hcat (vcat (h • (h • botM A + velSel)) (h • botM A)) (vcat (h • (h • botM B)) (h • botM B)) := by
    rw [hcat_smul, hcat_add, hcat_smul, zero_add, add_comm (h • botM A)]
    exact vcat_hcat _ _ _ _
  rw [e3, mul_hcat, mul_hcat, hcat_add, Matrix.mul_one, Matrix.mul_zero, zero_add, add_comm (S.Jint0 x v)]

/-- **C44, semi-implicit Euler on a manifold** whose last coordinates are a velocity.  After any calls, `forward` computes the
step with the new velocity, and calls of `dForward` at the same point compute the derivatives of this map.  Missing: `dForward`
without `forward` at the same point (`C44_manifold_euler_stale` is the same defect). -/
theorem C44_manifold_semi_euler_partial (hS : Lawful S pt near) (hV : VelocityLast S) (ho : Computes S pt o f Inv ready) (h : ℝ)
    (d : IData (b + p) (p + p) m σ) (hd : Good Inv d) (cs hs : List (ICall (b + p) m)) (x : Vec (b + p)) (u : Vec m) (hx : pt x)
    (hh : ∀ c ∈ hs, c = .dForward x u) :
    let e := (cs ++ .forward x u :: hs).foldl (semiEuler S o h).call d
    e.xnext = semiStep S f h x u ∧ (hs ≠ [] → IsStepJacobian S (semiStep S f h) e.Jx e.Ju x u) := by
  intro e
  have hi : Inv (cs.foldl (semiEuler S o h).call d).c1 := by
    refine foldl_keeps (fun d : IData (b + p) (p + p) m σ => Inv d.c1) _ cs (fun d c _ hd => ?_) d hd.1
    cases c with
    | forward => exact ho.keep _ _ _ hd
    | dForward => exact ho.keepJ _ _ _ hd
  set d0 := cs.foldl (semiEuler S o h).call d
  have he : e = hs.foldl (semiEuler S o h).call ((semiEuler S o h).forward x u d0) := by
    simp only [e, List.foldl_append, List.foldl_cons]; rfl
  set v : Vec (p + p) := Fin.append (h • (tl x + h • tl (f x u))) (h • tl (f x u)) with hv
  let P : IData (b + p) (p + p) m σ → Prop := fun d => Inv d.c1 ∧ ready d.c1 x u ∧ d.dx = v ∧ d.xnext = semiStep S f h x u
  have hP0 : P ((semiEuler S o h).forward x u d0) := by
    have hdx : ((semiEuler S o h).forward x u d0).dx = v := by
      show Integ.setTop (Integ.setBot d0.dx (h • Integ.bot (o.xdot (o.forward x u d0.c1))))
        (h • tl (S.integrate x (Integ.setBot d0.dx (h • Integ.bot (o.xdot (o.forward x u d0.c1)))))) = v
      rw [ho.value _ _ _ hx hi, hV.integrate, Integ.setTop, Integ.setBot, bot_append, hv]
      have : tl (Fin.append (Integ.top d0.dx) (h • Integ.bot (f x u))) = h • tl (f x u) := bot_append _ _
      rw [this]; rfl
    refine ⟨ho.keep _ _ _ hi, ho.readyF _ _ _ hx hi, hdx, ?_⟩
    show S.integrate x ((semiEuler S o h).forward x u d0).dx = _
    rw [hdx]; rfl
  have hk : ∀ d, P d → P ((semiEuler S o h).call d (.dForward x u)) := fun d hd =>
    ⟨ho.keepJ _ _ _ hd.1, ho.readyJ _ _ _ hd.2.1, hd.2.2.1, hd.2.2.2⟩
  rw [he]
  refine ⟨(foldl_keeps P _ hs (fun d c hc hd => by rw [hh c hc]; exact hk d hd) _ hP0).2.2.2, fun hne => ?_⟩
  refine foldl_last P (fun e => IsStepJacobian S (semiStep S f h) e.Jx e.Ju x u) _ hs (.dForward x u) hk (fun d hd => ?_) hh hne _ hP0
  have := isStep_semi hS hV hx h (ho.jac x u d.c1 hx hd.1 hd.2.1) hv
  rw [← hd.2.2.1] at this
  generalize hA : o.Jx (o.dForward x u d.c1) = A at this
  generalize hB : o.Ju (o.dForward x u d.c1) = B at this
  have hE : botM (S.Jint0 x d.dx) = velSel := hV.Jint0 x d.dx
  have hT : ∀ {k : ℕ} (J : Mat (p + p) k), botM (S.transport x d.dx J) = botM J := fun J => hV.transport x d.dx J
  have hadd : ∀ {k : ℕ} (J J' : Mat (p + p) k), botM (J + J') = botM J + botM J' := fun _ _ => rfl
  have hvc : ∀ {k : ℕ} (J J' : Mat p k), botM (vcat J J') = J' := fun J J' => bot_append J J'
  have hst : ∀ {k : ℕ} (J J' : Mat (p + p) k), botM J = botM J' → Integ.setTop J (Integ.top J') = J' := fun J J' e => by
    have : Integ.setTop J (Integ.top J') = Fin.append (Integ.top J') (botM J) := rfl
    rw [this, e]; exact append_top_bot J'
  have hsb : ∀ {k : ℕ} (J : Mat (p + p) k) (P Q : Mat p k), Integ.setBot (Integ.setTop J P) Q = vcat P Q := fun J P Q => by
    have : Integ.setBot (Integ.setTop J P) Q = Fin.append (Integ.top (Fin.append P (Integ.bot J))) Q := rfl
    exact this.trans (congrArg (fun t : Fin p → Fin _ → ℝ => Fin.append t Q) (top_append (α := Fin _ → ℝ) P (Integ.bot J)))
  have eJ : ((semiEuler S o h).call d (.dForward x u)).Jx =
      S.transport x d.dx (vcat (h • (h • botM A + velSel)) (h • botM A)) + S.Jint0 x d.dx := by
    have : ((semiEuler S o h).call d (.dForward x u)).Jx = Integ.setTop (S.transport x d.dx (h • o.Jx (o.dForward x u d.c1)) + S.Jint0 x d.dx)
      (Integ.top (S.transport x d.dx (Integ.setBot (Integ.setTop d.Jtmp2 (h • botM (S.transport x d.dx (h • o.Jx (o.dForward x u d.c1)) + S.Jint0 x d.dx)))
        (h • botM (o.Jx (o.dForward x u d.c1)))) + S.Jint0 x d.dx)) := rfl
    rw [this, hA, hadd, hT, hE, hsb]
    refine hst _ _ ?_
    rw [hadd, hadd, hT, hT, hE, hvc]; rfl
  have eU : ((semiEuler S o h).call d (.dForward x u)).Ju = S.transport x d.dx (vcat (h • (h • botM B)) (h • botM B)) := by
    have : ((semiEuler S o h).call d (.dForward x u)).Ju = Integ.setTop (S.transport x d.dx (h • o.Ju (o.dForward x u d.c1)))
      (Integ.top (S.transport x d.dx (Integ.setBot (Integ.setTop d.Jtmpu (h • botM (S.transport x d.dx (h • o.Ju (o.dForward x u d.c1)))))
        (h • botM (o.Ju (o.dForward x u d.c1)))))) := rfl
    rw [this, hB, hT, hsb]
    refine hst _ _ ?_
    rw [hT, hT, hvc]; rfl
  show IsStepJacobian S (semiStep S f h) _ _ x u
  rw [eJ, eU]
  exact this

end

/-! ### Implicit midpoint -/

section
variable {S : Space a n} {pt : Vec a → Prop} {near : Vec a → Vec a → Prop} {o : DAE a n m σ} {g : Vec a → Vec m → Vec n → Vec n}
  {Inv : σ → Prop} {ready : σ → Vec a → Vec m → Vec n → Prop}

theorem hcat_zero : (hcat 0 0 : Mat k (n + m)) = 0 := by
  funext i; exact append_zero_zero

theorem sel_x : selFst n m * selFst (n + m) l = hcat (hcat 1 0) 0 := by
  rw [selFst_eq (n := n + m), mul_hcat, Matrix.mul_one, Matrix.mul_zero, selFst_eq]

theorem sel_u : selSnd n m * selFst (n + m) l = hcat (hcat 0 1) 0 := by
  rw [selFst_eq (n := n + m), mul_hcat, Matrix.mul_one, Matrix.mul_zero, selSnd_eq]

theorem sel_y : selSnd (n + m) l = hcat (hcat 0 0) 1 := by
  rw [selSnd_eq, hcat_zero]

theorem isMid (hS : Lawful S pt near) {x y : Vec a} (hx : pt x) (hy : pt y) (hn : near x y) (u : Vec m) {h : ℝ} (hh : h ≠ 0)
    {G : Mat n n} {H : Mat n m} {K : Mat n n} {v : Vec n} (hv : v = (1 / 2 : ℝ) • S.difference x y)
    (hg : IsJacobian (fun z : Vec (n + m + n) => g (S.integrate (S.integrate x v) (fst (fst z))) (u + snd (fst z))
      (h⁻¹ • S.difference x y + snd z)) (hcat (hcat G H) K) 0) :
    IsMidJacobian S g h (h • (G * (S.Jint0 x v + (1 / 2 : ℝ) • S.Jint1 x v * S.Jdiff0 x y)) + K * S.Jdiff0 x y) (h • H)
      (h • (G * ((1 / 2 : ℝ) • S.Jint1 x v * S.Jdiff1 x y)) + K * S.Jdiff1 x y) x u y := by
  have h0 : S.integrate x (fst (fst (0 : Vec (n + m + n)))) = x := hS.integrate_zero x hx
  have h1 : S.integrate y (snd (0 : Vec (n + m + n))) = y := hS.integrate_zero y hy
  have hu : u + snd (fst (0 : Vec (n + m + n))) = u := by funext i; simp [fst, snd]
  have jx : IsJacobian (fun z : Vec (n + m + n) => fst (fst z)) (hcat (hcat 1 0) 0) 0 := by
    rw [← sel_x]; exact (isJacobian_fst _).comp (isJacobian_fst _)
  have ju : IsJacobian (fun z : Vec (n + m + n) => u + snd (fst z)) (hcat (hcat 0 1) 0) 0 := by
    rw [← sel_u]
    simpa using (IsJacobian.const u 0).add ((isJacobian_snd (fst (0 : Vec (n + m + n)))).comp (G := fst) (isJacobian_fst 0))
  have jy : IsJacobian (fun z : Vec (n + m + n) => snd z) (hcat (hcat 0 0) 1) 0 := by
    rw [← sel_y]; exact isJacobian_snd _
  have jD : IsJacobian (fun z : Vec (n + m + n) => S.difference (S.integrate x (fst (fst z))) (S.integrate y (snd z)))
      (S.Jdiff0 x y * hcat (hcat 1 0) 0 + S.Jdiff1 x y * hcat (hcat 0 0) 1) 0 := by
    have := comp2 (F := fun z : Vec (n + n) => S.difference (S.integrate x (fst z)) (S.integrate y (snd z)))
      (X := fun z : Vec (n + m + n) => fst (fst z)) (Y := fun z : Vec (n + m + n) => snd z) (z := 0)
      (by have : Fin.append (fst (fst (0 : Vec (n + m + n)))) (snd (0 : Vec (n + m + n))) = 0 := append_zero_zero
          rw [this]; exact hS.difference_jac x y hx hy hn) jx jy
    simpa only [fst_append, snd_append] using this
  have jb : IsJacobian (fun z : Vec (n + m + n) => S.difference (S.integrate x (fst (fst (0 : Vec (n + m + n)))))
      (S.integrate x (fst (fst z)))) (hcat (hcat 1 0) 0) 0 := by
    rw [h0]
    exact ((hS.retract x hx).comp (G := fun z : Vec (n + m + n) => fst (fst z)) jx).congr (Matrix.one_mul _)
  have jm := step_jac hS (X := fun z : Vec (n + m + n) => S.integrate x (fst (fst z))) (fun y => hS.point _ _ hx) jb
    (jD.smul (1 / 2 : ℝ))
  simp only [h0, h1, ← hv] at jm
  have jg := chain hS (F := fun q (w : Vec (m + n)) => g q (fst w) (snd w))
    (X := fun z : Vec (n + m + n) => S.integrate (S.integrate x (fst (fst z)))
      ((1 / 2 : ℝ) • S.difference (S.integrate x (fst (fst z))) (S.integrate y (snd z))))
    (Y := fun z : Vec (n + m + n) => Fin.append (u + snd (fst z))
      (h⁻¹ • S.difference (S.integrate x (fst (fst z))) (S.integrate y (snd z))))
    (z := 0) (A := G) (B := hcat H K) (fun y => hS.point _ _ (hS.point _ _ hx))
    (by
      simp only [h0, h1, hu, ← hv]
      have k1 : IsJacobian (fun w : Vec (n + (m + n)) => fst (snd w)) (selFst m n * selSnd n (m + n)) 0 :=
        (isJacobian_fst _).comp (isJacobian_snd _)
      have k2 : IsJacobian (fun w : Vec (n + (m + n)) => snd (snd w)) (selSnd m n * selSnd n (m + n)) 0 :=
        (isJacobian_snd _).comp (isJacobian_snd _)
      have z0 : Fin.append (Fin.append (fst (0 : Vec (n + (m + n)))) (fst (snd (0 : Vec (n + (m + n))))))
          (snd (snd (0 : Vec (n + (m + n))))) = 0 := by
        have e1 : Fin.append (fst (0 : Vec (n + (m + n)))) (fst (snd (0 : Vec (n + (m + n))))) = 0 := append_zero_zero
        rw [e1]; exact append_zero_zero
      have := comp2 (F := fun z : Vec (n + m + n) => g (S.integrate (S.integrate x v) (fst (fst z))) (u + snd (fst z))
        (h⁻¹ • S.difference x y + snd z)) (X := fun w : Vec (n + (m + n)) => Fin.append (fst w) (fst (snd w)))
        (Y := fun w : Vec (n + (m + n)) => snd (snd w)) (z := 0) (A := hcat G H) (B := K)
        (by rw [z0]; exact hg) ((isJacobian_fst _).append k1) k2
      refine this.congr_of' (funext fun w => ?_) ?_
      · simp only [fst_append, snd_append]
        congr 1
        · funext i; simp [fst, Fin.append_left]
        · funext i; simp [snd, Fin.append_right]
      · show hcat G H * vcat _ _ + _ = _
        rw [hcat_mul_append, selFst_eq, selSnd_eq, selFst_eq, selSnd_eq]
        simp only [mul_hcat, Matrix.mul_zero, Matrix.mul_one, hcat_add, zero_add, add_zero])
    (by simp only [h0, h1, ← hv]; exact jm)
    (show IsJacobian _ (vcat (hcat (hcat 0 1) 0) (h⁻¹ • (S.Jdiff0 x y * hcat (hcat 1 0) 0 + S.Jdiff1 x y * hcat (hcat 0 0) 1))) 0 from
      ju.append (jD.smul h⁻¹))
  unfold IsMidJacobian midResidual
  have := jg.smul h
  simp only [fst_append, snd_append] at this
  refine this.congr ?_
  rw [hcat_mul_append]
  simp only [mul_hcat, hcat_smul, hcat_add, Matrix.mul_zero, Matrix.mul_one, add_zero, zero_add, smul_add, Matrix.mul_smul,
    Matrix.mul_add, Matrix.smul_mul, smul_smul, mul_inv_cancel₀ hh, one_smul, smul_zero]

/-- The data of the midpoint rule after a history that ends with an evaluation and Jacobian calls at the same point. -/
theorem mid_history (hS : Lawful S pt near) (ho : ComputesDAE S pt o g Inv ready) (h : ℝ)
    (d : MData a n m σ) (hd : Inv d.c) (cs hs : List (MCall a m)) (x y : Vec a) (u : Vec m) (hx : pt x)
    (hh : ∀ c ∈ hs, c = .jac x u y) :
    let e := (cs ++ .value x u y :: hs).foldl (midCall S o h) d
    e.value = midResidual S g h x u y ∧ (hs ≠ [] → ∃ d', e = midJacobians S o h x u y d' ∧ Inv d'.c ∧
      d'.dx1 = (1 / 2 : ℝ) • S.difference x y ∧ d'.xdot = h⁻¹ • S.difference x y ∧ d'.x1 = S.integrate x d'.dx1 ∧
      ready d'.c d'.x1 u d'.xdot) := by
  intro e
  have hi : Inv (cs.foldl (midCall S o h) d).c := by
    refine foldl_keeps (fun d : MData a n m σ => Inv d.c) _ cs (fun d c _ hd => ?_) d hd
    cases c with
    | value => exact ho.keep _ _ _ _ hd
    | jac => exact ho.keepS _ _ (ho.keepS _ _ (ho.keepJ _ _ _ _ hd))
  set d0 := cs.foldl (midCall S o h) d
  have he : e = hs.foldl (midCall S o h) (midEvaluate S o h x u y d0) := by
    simp only [e, List.foldl_append, List.foldl_cons]; rfl
  let P : MData a n m σ → Prop := fun d => Inv d.c ∧ d.dx1 = (1 / 2 : ℝ) • S.difference x y ∧ d.xdot = h⁻¹ • S.difference x y ∧
    d.x1 = S.integrate x d.dx1 ∧ ready d.c d.x1 u d.xdot ∧ d.value = midResidual S g h x u y
  have hP0 : P (midEvaluate S o h x u y d0) := by
    refine ⟨ho.keep _ _ _ _ hi, rfl, rfl, rfl, ho.readyF _ _ _ _ (hS.point _ _ hx) hi, ?_⟩
    show h • o.value (o.evaluate _ u _ d0.c) = _
    rw [ho.value _ _ _ _ (hS.point _ _ hx) hi]
    rfl
  have hk : ∀ d, P d → P (midCall S o h d (.jac x u y)) := fun d hd =>
    ⟨ho.keepS _ _ (ho.keepS _ _ (ho.keepJ _ _ _ _ hd.1)), hd.2.1, hd.2.2.1, hd.2.2.2.1,
      ho.readyS _ _ _ _ _ (ho.readyS _ _ _ _ _ (ho.readyJ _ _ _ _ hd.2.2.2.2.1)), hd.2.2.2.2.2⟩
  rw [he]
  refine ⟨(foldl_keeps P _ hs (fun d c hc hd => by rw [hh c hc]; exact hk d hd) _ hP0).2.2.2.2.2, fun hne => ?_⟩
  exact foldl_last P (fun e => ∃ d', e = midJacobians S o h x u y d' ∧ Inv d'.c ∧ d'.dx1 = (1 / 2 : ℝ) • S.difference x y ∧
      d'.xdot = h⁻¹ • S.difference x y ∧ d'.x1 = S.integrate x d'.dx1 ∧ ready d'.c d'.x1 u d'.xdot) _ hs (.jac x u y) hk
    (fun d hd => ⟨d, rfl, hd.1, hd.2.1, hd.2.2.1, hd.2.2.2.1, hd.2.2.2.2.1⟩) hh hne _ hP0

/-- The Jacobians the midpoint rule computes. -/
theorem mid_writes (ho : ComputesDAE S pt o g Inv ready) (h : ℝ) (x y : Vec a) (u : Vec m) (d : MData a n m σ) :
    let c := o.computeJacobians d.x1 u d.xdot d.c
    let G := S.transport x d.dx1 (o.Jx c)
    (midJacobians S o h x u y d).Jx =
      h • (G * (S.Jint0 x d.dx1 + (1 / 2 : ℝ) • S.Jint1 x d.dx1 * S.Jdiff0 x y)) + o.Jxdot c * S.Jdiff0 x y ∧
    (midJacobians S o h x u y d).Ju = h • o.Ju c ∧
    (midJacobians S o h x u y d).Jy =
      h • (S.transport y (-((2 : ℝ) • d.dx1)) G * ((1 / 2 : ℝ) • S.Jint1 x d.dx1 * S.Jdiff1 x y)) + o.Jxdot c * S.Jdiff1 x y := by
  simp only [midJacobians, ho.Jx_set, ho.Ju_set, ho.Jxdot_set, and_self]

/-- **C44, the implicit midpoint rule on a manifold.**  After any calls, `evaluate` computes the residual at the midpoint of
`x` and `y`.  Calls of `computeJacobians` at the same arguments compute the derivative in the control; those in the states are
right if and only if transporting the derivative `G` of the dynamics at the midpoint by `T1` (and by `T2 * T1`) changes neither
product: the code applies these transports to values of the dynamics, which live in no tangent space. -/
theorem C44_manifold_midpoint_iff (hS : Lawful S pt near) (ho : ComputesDAE S pt o g Inv ready) (h : ℝ) (h0 : 0 < h)
    (d : MData a n m σ) (hd : Inv d.c) (cs hs : List (MCall a m)) (x y : Vec a) (u : Vec m) (hx : pt x) (hy : pt y) (hn : near x y)
    (hh : ∀ c ∈ hs, c = .jac x u y) {G : Mat n n} {H : Mat n m} {K : Mat n n} {v : Vec n}
    (hv : v = (1 / 2 : ℝ) • S.difference x y)
    (hg : IsJacobian (fun z : Vec (n + m + n) => g (S.integrate (S.integrate x v) (fst (fst z))) (u + snd (fst z))
      (h⁻¹ • S.difference x y + snd z)) (hcat (hcat G H) K) 0) :
    let e := (cs ++ .value x u y :: hs).foldl (midCall S o h) d
    let T1 := S.Jint1 x v
    let T2 := S.Jint1 y (-(S.difference x y))
    e.value = midResidual S g h x u y ∧
    (hs ≠ [] → (∀ A B C, IsMidJacobian S g h A B C x u y → e.Ju = B) ∧
      (IsMidJacobian S g h e.Jx e.Ju e.Jy x u y ↔
        (T1 - 1) * G * (S.Jint0 x v + (1 / 2 : ℝ) • T1 * S.Jdiff0 x y) = 0 ∧
        (T2 * T1 - 1) * G * ((1 / 2 : ℝ) • T1 * S.Jdiff1 x y) = 0)) := by
  intro e T1 T2
  obtain ⟨e1, e2⟩ := mid_history hS ho h d hd cs hs x y u hx hh
  refine ⟨e1, fun hne => ?_⟩
  obtain ⟨d', he, hi, hdx, hxd, hx1, hr⟩ := e2 hne
  have he' : e = midJacobians S o h x u y d' := he
  have hj := ho.jac d'.x1 u d'.xdot d'.c (hx1 ▸ hS.point _ _ hx) hi hr
  dsimp only at hj
  rw [hx1, hxd, hdx, ← hv] at hj
  have hp := hj.unique hg
  have inj : ∀ {k r s : ℕ} {A A' : Mat k r} {B B' : Mat k s}, hcat A B = hcat A' B' → A = A' ∧ B = B' := by
    intro k r s A A' B B' hAB
    constructor
    · funext i j
      have := congrFun (congrFun hAB i) (Fin.castAdd s j)
      simpa only [hcat, Fin.append_left] using this
    · funext i j
      have := congrFun (congrFun hAB i) (Fin.natAdd r j)
      simpa only [hcat, Fin.append_right] using this
  obtain ⟨hp1, hK⟩ := inj hp
  obtain ⟨hG, hH⟩ := inj hp1
  have hx' : d'.x1 = S.integrate x v := by rw [hx1, hdx, ← hv]
  rw [← hx', ← hxd] at hG hH hK
  have htrue := isMid hS hx hy hn u h0.ne' hv hg
  have hdv : d'.dx1 = v := by rw [hdx, ← hv]
  have h2 : (2 : ℝ) • d'.dx1 = S.difference x y := by rw [hdx, smul_smul]; norm_num
  obtain ⟨w1, w2, w3⟩ := mid_writes ho h x y u d'
  have hJu : e.Ju = h • H := by rw [he', w2, hH]
  have hJx : e.Jx = h • (T1 * G * (S.Jint0 x v + (1 / 2 : ℝ) • T1 * S.Jdiff0 x y)) + K * S.Jdiff0 x y := by
    rw [he', w1, hG, hK, hS.transport _ _ _ hx, hdv]
  have hJy : e.Jy = h • (T2 * (T1 * G) * ((1 / 2 : ℝ) • T1 * S.Jdiff1 x y)) + K * S.Jdiff1 x y := by
    rw [he', w3, hG, hK, hS.transport _ _ _ hx, hS.transport _ _ _ hy, h2, hdv]
  refine ⟨fun A B C hABC => ?_, ?_⟩
  · obtain ⟨q1, _⟩ := inj (hABC.unique htrue)
    rw [hJu, (inj q1).2]
  · have key : ∀ (T J : Mat n n), h • (T * G * J) = h • (G * J) ↔ (T - 1) * G * J = 0 := by
      intro T J
      rw [Matrix.sub_mul, Matrix.sub_mul, Matrix.one_mul, sub_eq_zero]
      exact ⟨fun q => smul_right_injective _ h0.ne' q, fun q => by rw [q]⟩
    rw [← key T1, ← key (T2 * T1)]
    constructor
    · intro hm
      obtain ⟨q1, q2⟩ := inj (hm.unique htrue)
      have q3 := (inj q1).1
      rw [hJx] at q3
      rw [hJy] at q2
      rw [Matrix.mul_assoc T2]
      exact ⟨add_right_cancel q3, add_right_cancel q2⟩
    · rintro ⟨q1, q2⟩
      rw [Matrix.mul_assoc T2] at q2
      rw [hJx, hJy, hJu, q1, q2]
      exact htrue

/-- Steps of length zero have derivative one. -/
theorem Jint1_zero (hS : Lawful S pt near) {x : Vec a} (hx : pt x) : S.Jint1 x 0 = 1 := by
  have h1 := hS.integrate_jac x 0 hx
  rw [hS.integrate_zero x hx] at h1
  have h2 := comp2 (X := fun _ : Vec n => (0 : Vec n)) (Y := fun w : Vec n => w) (z := 0)
    (by rw [append_zero_zero]; exact h1) (IsJacobian.const 0 0) (IsJacobian.id 0)
  simp only [fst_append, snd_append, hS.integrate_zero x hx, zero_add, Matrix.mul_zero, Matrix.mul_one] at h2
  exact h2.unique (hS.retract x hx)

/-- **C44, the implicit midpoint rule on a manifold: where it is right.**  The Jacobians are the derivatives of the residual
where both transports are the identity: on vector spaces, and on any manifold at `y = x`. -/
theorem C44_manifold_midpoint_partial (hS : Lawful S pt near) (ho : ComputesDAE S pt o g Inv ready) (h : ℝ) (h0 : 0 < h)
    (d : MData a n m σ) (hd : Inv d.c) (cs hs : List (MCall a m)) (x y : Vec a) (u : Vec m) (hx : pt x) (hy : pt y) (hn : near x y)
    (hh : ∀ c ∈ hs, c = .jac x u y) (hne : hs ≠ [])
    (hT : y = x ∨ S.Jint1 x ((1 / 2 : ℝ) • S.difference x y) = 1 ∧ S.Jint1 y (-(S.difference x y)) = 1) :
    let e := (cs ++ .value x u y :: hs).foldl (midCall S o h) d
    e.value = midResidual S g h x u y ∧ IsMidJacobian S g h e.Jx e.Ju e.Jy x u y := by
  intro e
  have hT' : S.Jint1 x ((1 / 2 : ℝ) • S.difference x y) = 1 ∧ S.Jint1 y (-(S.difference x y)) = 1 := by
    rcases hT with rfl | hT
    · rw [hS.difference_self _ hx, smul_zero, neg_zero]
      exact ⟨Jint1_zero hS hx, Jint1_zero hS hx⟩
    · exact hT
  obtain ⟨_, e2⟩ := mid_history hS ho h d hd cs hs x y u hx hh
  obtain ⟨d', _, hi, hdx, hxd, hx1, hr⟩ := e2 hne
  have hj := ho.jac d'.x1 u d'.xdot d'.c (hx1 ▸ hS.point _ _ hx) hi hr
  dsimp only at hj
  have hg := hj
  rw [show (fun z : Vec (n + m + n) => g (S.integrate d'.x1 (fst (fst z))) (u + snd (fst z)) (d'.xdot + snd z)) =
    fun z => g (S.integrate (S.integrate x ((1 / 2 : ℝ) • S.difference x y)) (fst (fst z))) (u + snd (fst z))
      (h⁻¹ • S.difference x y + snd z) by rw [hx1, hxd, hdx]] at hg
  obtain ⟨r1, r2⟩ := C44_manifold_midpoint_iff hS ho h h0 d hd cs hs x y u hx hy hn hh rfl hg
  refine ⟨r1, (r2 hne).2.2 ?_⟩
  rw [hT'.1, hT'.2]
  simp

end

/-! ### Manifolds that satisfy the laws -/

theorem euclid_lawful : Lawful (euclid n) (fun _ => True) (fun _ _ => True) where
  point _ _ _ := trivial
  integrate_zero x _ := add_zero x
  difference_self x _ := sub_self x
  integrate_difference x y _ _ := add_sub_cancel x y
  retract x _ := (IsJacobian.id (0 : Vec n)).congr_of' (funext fun w => (add_sub_cancel_left x w).symm) rfl
  integrate_jac x v _ := by
    refine ((isJacobian_fst (0 : Vec (n + n))).add (isJacobian_snd 0)).congr_of' (funext fun z => ?_) ?_
    · show _ = x + fst z + (v + snd z) - (x + v); abel
    · rw [selFst_eq, selSnd_eq, hcat_add, add_zero, zero_add]; rfl
  difference_jac x y _ _ _ := by
    refine (((IsJacobian.const (y - x) (0 : Vec (n + n))).add (isJacobian_snd 0)).sub (isJacobian_fst 0)).congr_of' (funext fun z => ?_) ?_
    · show _ = y + snd z - (x + fst z); abel
    · rw [selFst_eq, selSnd_eq, zero_add, Integ.hcat_sub, zero_sub, sub_zero]; rfl
  transport x v J _ := (Matrix.one_mul J).symm

theorem sel_fs : selFst n m * selSnd l (n + m) = hcat 0 (hcat 1 0) := by
  rw [selSnd_eq, mul_hcat, Matrix.mul_one, Matrix.mul_zero, selFst_eq]

theorem sel_ss : selSnd n m * selSnd l (n + m) = hcat 0 (hcat 0 1) := by
  rw [selSnd_eq (n := l), mul_hcat, Matrix.mul_one, Matrix.mul_zero, selSnd_eq]

theorem diag2_eq (A B : Mat p p) : diag2 A B = vcat (hcat A 0) (hcat 0 B) := rfl

theorem diag2_one : diag2 (1 : Mat p p) 1 = 1 := by
  have h1 := selFst_eq (n := p) (m := p)
  have h2 := selSnd_eq (n := p) (m := p)
  rw [diag2_eq, ← h1, ← h2]
  funext i
  refine Fin.addCases (fun a => ?_) (fun b => ?_) i
  · rw [vcat_left]; funext j; rw [Matrix.one_apply, eq_comm]; unfold selFst; simp [Pi.single_apply, eq_comm]
  · rw [vcat_right]; funext j; rw [Matrix.one_apply, eq_comm]; unfold selSnd; simp [-Fin.natAdd_eq_addNat, Pi.single_apply, eq_comm]

theorem bundle_jac {F : Vec (p + p) → Vec p} {A B : Mat p p} (hF : IsJacobian F (hcat A B) 0) (c : Vec p) (α β : ℝ) :
    IsJacobian (fun z : Vec ((p + p) + (p + p)) => Fin.append (F (Fin.append (fst (fst z)) (fst (snd z))))
      (c + (α • snd (fst z) + β • snd (snd z)))) (hcat (diag2 A (α • 1)) (diag2 B (β • 1))) 0 := by
  have j1 : IsJacobian (fun z : Vec ((p + p) + (p + p)) => fst (fst z)) (selFst p p * selFst (p + p) (p + p)) 0 :=
    (isJacobian_fst _).comp (isJacobian_fst _)
  have j2 : IsJacobian (fun z : Vec ((p + p) + (p + p)) => snd (fst z)) (selSnd p p * selFst (p + p) (p + p)) 0 :=
    (isJacobian_snd _).comp (isJacobian_fst _)
  have j3 : IsJacobian (fun z : Vec ((p + p) + (p + p)) => fst (snd z)) (selFst p p * selSnd (p + p) (p + p)) 0 :=
    (isJacobian_fst _).comp (isJacobian_snd _)
  have j4 : IsJacobian (fun z : Vec ((p + p) + (p + p)) => snd (snd z)) (selSnd p p * selSnd (p + p) (p + p)) 0 :=
    (isJacobian_snd _).comp (isJacobian_snd _)
  rw [sel_x] at j1
  rw [sel_u] at j2
  rw [sel_fs] at j3
  rw [sel_ss] at j4
  have hz : Fin.append (fst (fst (0 : Vec ((p + p) + (p + p))))) (fst (snd (0 : Vec ((p + p) + (p + p))))) = 0 := append_zero_zero
  have h1 := comp2 (z := 0) (by rw [hz]; exact hF) j1 j3
  have h2 := (IsJacobian.const c (0 : Vec ((p + p) + (p + p)))).add ((j2.smul α).add (j4.smul β))
  refine (show IsJacobian _ (vcat _ _) 0 from h1.append h2).congr ?_
  rw [diag2_eq, diag2_eq, ← vcat_hcat]
  simp only [mul_hcat, hcat_smul, hcat_add, Matrix.mul_one, Matrix.mul_zero, add_zero, zero_add, smul_zero]

/-- **C44, tangent bundles.**  The tangent bundle of a lawful manifold is lawful, and its last coordinates are a velocity, so the
theorems on semi-implicit Euler apply to it. -/
theorem C44_manifold_bundle {Q : Space b p} {pt : Vec b → Prop} {near : Vec b → Vec b → Prop} (hQ : Lawful Q pt near) :
    Lawful (bundle Q) (fun x => pt (hd x)) (fun x y => near (hd x) (hd y)) ∧ VelocityLast (bundle Q) := by
  have hdA : ∀ {α : Type} (v : Fin b → α) (w : Fin p → α), hd (Fin.append v w) = v := fun v w => funext fun i => Fin.append_left v w i
  have tlA : ∀ {c : ℕ} {α : Type} (v : Fin c → α) (w : Fin p → α), tl (Fin.append v w) = w := fun v w => funext fun i => Fin.append_right v w i
  have ap : ∀ {c : ℕ} (x : Vec (c + p)), Fin.append (hd x) (tl x) = x := fun x => append_fst_snd x
  have z1 : hd (0 : Vec (p + p)) = 0 := rfl
  have z2 : tl (0 : Vec (p + p)) = 0 := rfl
  have hdP : ∀ (v : Vec p) (w : Vec p), hd (Fin.append v w) = v := fun v w => funext fun i => Fin.append_left v w i
  refine ⟨⟨?_, ?_, ?_, ?_, ?_, ?_, ?_, ?_⟩, ⟨?_, ?_, ?_⟩⟩
  · intro x v hx
    show pt (hd (Fin.append _ _))
    rw [hdA]; exact hQ.point _ _ hx
  · intro x hx
    show Fin.append (Q.integrate (hd x) (hd 0)) (tl x + tl 0) = x
    rw [z1, z2, hQ.integrate_zero _ hx, add_zero, ap]
  · intro x hx
    show Fin.append (Q.difference (hd x) (hd x)) (tl x - tl x) = 0
    rw [hQ.difference_self _ hx, sub_self, append_zero_zero]
  · intro x y hx hy
    show Fin.append (Q.integrate (hd x) (hd (Fin.append _ _))) (tl x + tl (Fin.append _ _)) = y
    rw [hdP, tlA, hQ.integrate_difference _ _ hx hy, add_sub_cancel, ap]
  · intro x hx
    have h1 := (hQ.retract (hd x) hx).comp (G := fst) (isJacobian_fst (0 : Vec (p + p)))
    refine (show IsJacobian _ (vcat _ _) 0 from h1.append (isJacobian_snd (0 : Vec (p + p)))).congr_of' (funext fun w => ?_) ?_
    · show _ = Fin.append (Q.difference (hd x) (hd (Fin.append _ _))) (tl (Fin.append _ _) - tl x)
      rw [hdA, tlA, add_sub_cancel_left]; rfl
    · rw [Matrix.one_mul, selFst_eq, selSnd_eq, ← diag2_eq, diag2_one]
  · intro x v hx
    refine (bundle_jac (hQ.integrate_jac (hd x) (hd v) hx) 0 1 1).congr_of' (funext fun z => ?_) ?_
    · show _ = Fin.append (Q.difference (hd (Fin.append _ _)) (hd (Fin.append (Q.integrate (hd (Fin.append _ _)) _) _)))
        (tl (Fin.append _ _) - tl (Fin.append _ _))
      rw [hdA, hdA, hdA, tlA, tlA]
      refine congrArg₂ Fin.append ?_ ?_
      · rw [fst_append, snd_append]; rfl
      · show _ = tl (Fin.append _ _) + tl (v + snd z) - _
        rw [tlA]
        funext i
        simp only [tl, snd, fst, hd, Pi.add_apply, Pi.sub_apply, Pi.smul_apply, one_smul, Pi.zero_apply]
        ring
    · rw [one_smul]; rfl
  · intro x y hx hy hn
    refine (bundle_jac (hQ.difference_jac (hd x) (hd y) hx hy hn) (tl y - tl x) (-1) 1).congr_of' (funext fun z => ?_) ?_
    · show _ = Fin.append (Q.difference (hd (Fin.append _ _)) (hd (Fin.append _ _))) (tl (Fin.append _ _) - tl (Fin.append _ _))
      rw [hdA, hdA, tlA, tlA]
      refine congrArg₂ Fin.append ?_ ?_
      · rw [fst_append, snd_append]; rfl
      · funext i
        simp only [tl, snd, fst, Pi.add_apply, Pi.sub_apply, Pi.smul_apply, one_smul, neg_smul, Pi.neg_apply]
        ring
    · rw [one_smul, neg_smul, one_smul]; rfl
  · intro k x v J hx
    let J1 : Mat p k := fun i => J (Fin.castAdd p i)
    let J2 : Mat p k := fun i => J (Fin.natAdd p i)
    show vcat (Q.transport (hd x) (hd v) J1) J2 = diag2 (Q.Jint1 (hd x) (hd v)) 1 * J
    rw [hQ.transport _ _ J1 hx]
    funext i j
    rw [Matrix.mul_apply, Fin.sum_univ_add]
    refine Fin.addCases (fun r => ?_) (fun r => ?_) i
    · rw [vcat_left, diag2_eq]
      simp only [vcat_left, hcat, Fin.append_left, Fin.append_right, Matrix.zero_apply, zero_mul, Finset.sum_const_zero, add_zero]
      rfl
    · rw [vcat_right, diag2_eq]
      simp only [vcat_right, hcat, Fin.append_left, Fin.append_right, Matrix.zero_apply, zero_mul, Finset.sum_const_zero, zero_add,
        Matrix.one_apply, ite_mul, one_mul, Finset.sum_ite_eq, Finset.mem_univ, if_true]
      rfl
  · intro x v
    exact tlA _ _
  · intro x v
    have : tl (diag2 (Q.Jint0 (hd x) (hd v)) 1) = fun i => Fin.append 0 ((1 : Mat p p) i) := tlA (α := Fin (p + p) → ℝ) _ _
    refine this.trans (funext fun i => ?_)
    congr 1
    funext j
    rw [Matrix.one_apply, Pi.single_apply]
    simp [eq_comm]
  · intro k x v J
    exact tlA (α := Fin k → ℝ) _ _

/-! ### A curved manifold: the Heisenberg group -/

/-- The Heisenberg group in exponential coordinates; difference and Jacobians are those of a Lie group. -/
noncomputable def heis : Space 3 3 where
  integrate x v := ![x 0 + v 0, x 1 + v 1, x 2 + v 2 + (1 / 2) * (x 0 * v 1 - x 1 * v 0)]
  Jint0 _ v := !![1, 0, 0; 0, 1, 0; v 1, -v 0, 1]
  Jint1 _ v := !![1, 0, 0; 0, 1, 0; (1 / 2) * v 1, -((1 / 2) * v 0), 1]
  transport _ v J := !![1, 0, 0; 0, 1, 0; (1 / 2) * v 1, -((1 / 2) * v 0), 1] * J
  difference x y := ![y 0 - x 0, y 1 - x 1, y 2 - x 2 + (1 / 2) * (x 1 * y 0 - x 0 * y 1)]
  Jdiff0 x y := !![-1, 0, 0; 0, -1, 0; -((1 / 2) * (y 1 - x 1)), (1 / 2) * (y 0 - x 0), -1]
  Jdiff1 x y := !![1, 0, 0; 0, 1, 0; -((1 / 2) * (y 1 - x 1)), (1 / 2) * (y 0 - x 0), 1]

/-- Functions that are affine up to second order. -/
theorem isGradient_quad (L M : Vec k) {c : ℝ} {r : Vec (k + k) → ℝ} (hr : IsGradient r 0 0) :
    IsGradient (fun z : Vec (k + k) => c + (L ⬝ᵥ fst z + M ⬝ᵥ snd z) + r z) (Fin.append L M) 0 := by
  have h1 := (IsJacobian.const L (0 : Vec (k + k))).dot (isJacobian_fst 0)
  have h2 := (IsJacobian.const M (0 : Vec (k + k))).dot (isJacobian_snd 0)
  refine (((IsGradient.const c (0 : Vec (k + k))).add (h1.add h2)).add hr).congr ?_
  rw [selFst_transpose_mulVec, selSnd_transpose_mulVec]
  simp [append_add]

/-- Products of functions that vanish. -/
theorem isGradient_mul0 {f g : Vec k → ℝ} {a b : Vec k} (hf : IsGradient f a 0) (hg : IsGradient g b 0) (h1 : f 0 = 0) (h2 : g 0 = 0) :
    IsGradient (fun z => f z * g z) 0 0 := (hf.mul hg).congr (by rw [h1, h2]; simp)

theorem grad_fst (i : Fin k) : IsGradient (fun z : Vec (k + k) => fst z i) (Pi.single (Fin.castAdd k i) 1) 0 := IsGradient.coord _ _

theorem grad_snd (i : Fin k) : IsGradient (fun z : Vec (k + k) => snd z i) (Pi.single (Fin.natAdd k i) 1) 0 := IsGradient.coord _ _

theorem quad0 (q : ℝ) (i j i' j' : Fin k) :
    IsGradient (fun z : Vec (k + k) => q * (fst z i * snd z j - fst z i' * snd z j')) 0 0 :=
  (((isGradient_mul0 (grad_fst i) (grad_snd j) rfl rfl).sub (isGradient_mul0 (grad_fst i') (grad_snd j') rfl rfl)).smul q).congr
    (by simp)

theorem heis_lawful : Lawful heis (fun _ => True) (fun _ _ => True) where
  point _ _ _ := trivial
  integrate_zero x _ := by funext i; fin_cases i <;> simp [heis]
  difference_self x _ := by funext i; fin_cases i <;> simp [heis, mul_comm]
  integrate_difference x y _ _ := by funext i; fin_cases i <;> simp [heis]; ring
  retract x _ := by
    refine (IsJacobian.id (0 : Vec 3)).congr_of' (funext fun w => ?_) rfl
    funext i; fin_cases i <;> simp [heis]; ring
  integrate_jac x v _ := by
    intro i
    fin_cases i
    · refine (isGradient_quad (heis.Jint0 x v 0) (heis.Jint1 x v 0) (c := 0) (quad0 0 0 0 0 0)).congr_of (funext fun z => ?_) rfl
      simp [heis, dotProduct, Fin.sum_univ_succ]; ring
    · refine (isGradient_quad (heis.Jint0 x v 1) (heis.Jint1 x v 1) (c := 0) (quad0 0 0 0 0 0)).congr_of (funext fun z => ?_) rfl
      simp [heis, dotProduct, Fin.sum_univ_succ]; ring
    · refine (isGradient_quad (heis.Jint0 x v 2) (heis.Jint1 x v 2) (c := 0) (quad0 (1 / 2) 0 1 1 0)).congr_of (funext fun z => ?_) rfl
      simp [heis, dotProduct, Fin.sum_univ_succ]; ring
  difference_jac x y _ _ _ := by
    intro i
    fin_cases i
    · refine (isGradient_quad (heis.Jdiff0 x y 0) (heis.Jdiff1 x y 0) (c := heis.difference x y 0) (quad0 0 0 0 0 0)).congr_of
        (funext fun z => ?_) rfl
      simp [heis, dotProduct, Fin.sum_univ_succ]; ring
    · refine (isGradient_quad (heis.Jdiff0 x y 1) (heis.Jdiff1 x y 1) (c := heis.difference x y 1) (quad0 0 0 0 0 0)).congr_of
        (funext fun z => ?_) rfl
      simp [heis, dotProduct, Fin.sum_univ_succ]; ring
    · refine (isGradient_quad (heis.Jdiff0 x y 2) (heis.Jdiff1 x y 2) (c := heis.difference x y 2) (quad0 (1 / 2) 1 0 0 1)).congr_of
        (funext fun z => ?_) rfl
      simp [heis, dotProduct, Fin.sum_univ_succ]; ring
  transport x v J _ := rfl

/-- An ODE with a constant derivative; its data hold the vector field. -/
def constODE (f : Vec a → Vec m → Vec n) (A : Mat n n) (B : Mat n m) : ODE a n m (Vec n) where
  createData := 0
  forward x u _ := f x u
  dForward _ _ d := d
  xdot d := d
  Jx _ := A
  Ju _ := B

/-- The same as implicit dynamics `f(x, u) - v`; the data also hold `Jx_`. -/
def constDAE (f : Vec a → Vec m → Vec n) (A : Mat n n) (B : Mat n m) : DAE a n m (Vec n × Mat n n) where
  evaluate x u v d := (f x u - v, d.2)
  computeJacobians _ _ _ d := (d.1, A)
  value d := d.1
  Jx d := d.2
  setJx d J := (d.1, J)
  Ju _ := B
  Jxdot _ := -1

theorem constODE_computes {S : Space a n} {f : Vec a → Vec m → Vec n} {A : Mat n n} {B : Mat n m}
    (h : ∀ x u, IsJacobian (fun z : Vec (n + m) => f (S.integrate x (fst z)) (u + snd z)) (hcat A B) 0) :
    Computes S (fun _ => True) (constODE f A B) f (fun _ => True) (fun _ _ _ => True) where
  keep _ _ _ _ := trivial
  keepJ _ _ _ _ := trivial
  readyF _ _ _ _ _ := trivial
  readyJ _ _ _ _ := trivial
  value _ _ _ _ _ := rfl
  jac x u _ _ _ _ := h x u

theorem constDAE_jac {S : Space a n} {f : Vec a → Vec m → Vec n} {A : Mat n n} {B : Mat n m}
    (h : ∀ x u, IsJacobian (fun z : Vec (n + m) => f (S.integrate x (fst z)) (u + snd z)) (hcat A B) 0) (x : Vec a) (u : Vec m)
    (v : Vec n) :
    IsJacobian (fun z : Vec (n + m + n) => f (S.integrate x (fst (fst z))) (u + snd (fst z)) - (v + snd z))
      (hcat (hcat A B) (-1)) 0 := by
  have h1 := IsJacobian.comp (F := fun z : Vec (n + m) => f (S.integrate x (fst z)) (u + snd z)) (G := fst) (z := (0 : Vec (n + m + n)))
    (h x u) (isJacobian_fst _)
  refine (h1.sub ((IsJacobian.const v 0).add (isJacobian_snd (0 : Vec (n + m + n))))).congr ?_
  rw [selFst_eq, selSnd_eq, mul_hcat, zero_add, Integ.hcat_sub]
  simp

theorem constDAE_computes {S : Space a n} {f : Vec a → Vec m → Vec n} {A : Mat n n} {B : Mat n m}
    (h : ∀ x u, IsJacobian (fun z : Vec (n + m) => f (S.integrate x (fst z)) (u + snd z)) (hcat A B) 0) :
    ComputesDAE S (fun _ => True) (constDAE f A B) (fun x u v => f x u - v) (fun _ => True) (fun _ _ _ _ => True) where
  keep _ _ _ _ _ := trivial
  keepJ _ _ _ _ _ := trivial
  keepS _ _ _ := trivial
  readyF _ _ _ _ _ _ := trivial
  readyJ _ _ _ _ _ := trivial
  readyS _ _ _ _ _ _ := trivial
  value _ _ _ _ _ _ := rfl
  jac x u v _ _ _ _ := constDAE_jac h x u v
  Jx_set _ _ := rfl
  Ju_set _ _ := rfl
  Jxdot_set _ _ := rfl

/-- On the Heisenberg group: the first coordinate plus the first control, the second control, nothing. -/
def heisF (x : Vec 3) (u : Vec 2) : Vec 3 := ![x 0 + u 0, u 1, 0]

theorem heisF_jac (x : Vec 3) (u : Vec 2) :
    IsJacobian (fun z : Vec (3 + 2) => heisF (heis.integrate x (fst z)) (u + snd z))
      (hcat !![1, 0, 0; 0, 0, 0; 0, 0, 0] !![1, 0; 0, 1; 0, 0]) 0 := by
  have c1 : ∀ i : Fin 3, IsGradient (fun z : Vec (3 + 2) => fst z i) (Pi.single (Fin.castAdd 2 i) 1) 0 := fun i => IsGradient.coord _ _
  have c2 : ∀ i : Fin 2, IsGradient (fun z : Vec (3 + 2) => snd z i) (Pi.single (Fin.natAdd 3 i) 1) 0 := fun i => IsGradient.coord _ _
  intro i
  fin_cases i
  · refine ((IsGradient.const (x 0 + u 0) 0).add ((c1 0).add (c2 0))).congr_of (funext fun z => ?_) ?_
    · simp [heisF, heis]; ring
    · funext j; fin_cases j <;> simp [hcat, Fin.append, Fin.addCases, Pi.single_apply, Fin.ext_iff]
  · refine ((IsGradient.const (u 1) 0).add (c2 1)).congr_of (funext fun z => ?_) ?_
    · simp [heisF]
    · funext j; fin_cases j <;> simp [hcat, Fin.append, Fin.addCases, Pi.single_apply, Fin.ext_iff]
  · refine (IsGradient.const 0 0).congr_of (funext fun z => ?_) ?_
    · simp [heisF]
    · funext j; fin_cases j <;> simp [hcat, Fin.append, Fin.addCases]

/-- The ODE above. -/
noncomputable def heisODE : ODE 3 3 2 (Vec 3) := constODE heisF !![1, 0, 0; 0, 0, 0; 0, 0, 0] !![1, 0; 0, 1; 0, 0]

theorem heisODE_computes : Computes heis (fun _ => True) heisODE heisF (fun _ => True) (fun _ _ _ => True) :=
  constODE_computes heisF_jac

/-- The theorem on explicit Euler on a curved group, where the Jacobians are not those of a vector space. -/
example (h : ℝ) (hh : h ≠ 0) (d : IData 3 3 2 (Vec 3)) (cs : List (ICall 3 2)) :
    let e := (cs ++ [ICall.forward 0 ![1, 0], .dForward 0 ![1, 0]]).foldl (euler heis heisODE h).call d
    IsStepJacobian heis (eulerStep heis heisF h) e.Jx e.Ju 0 ![1, 0] ∧ e.Jx ≠ (1 : Mat 3 3) + h • (!![1, 0, 0; 0, 0, 0; 0, 0, 0] : Mat 3 3) := by
  intro e
  refine ⟨(C44_manifold_euler_partial heis_lawful heisODE_computes h d ⟨trivial, trivial⟩ cs [.dForward 0 ![1, 0]] 0 ![1, 0] trivial
    (by simp)).2 (by simp), fun hj => hh ?_⟩
  have := congrFun (congrFun hj 2) 1
  simpa [e, List.foldl_append, Integrator.call, euler, heisODE, constODE, heis, heisF, Matrix.mul_apply, Fin.sum_univ_succ] using this

/-- **C44 fails for explicit Euler on manifolds** if `dForward` is called at another point than the last `forward`: the ODE
computes its derivatives, but the step they are transported along is the stale one.  (On vector spaces `C44_euler` holds on any
data.) -/
theorem C44_manifold_euler_stale (h : ℝ) (hh : h ≠ 0) (d : IData 3 3 2 (Vec 3)) :
    let e := [ICall.forward 0 0, .dForward 0 ![1, 0]].foldl (euler heis heisODE h).call d
    ¬ IsStepJacobian heis (eulerStep heis heisF h) e.Jx e.Ju 0 ![1, 0] := by
  intro e he
  have ht := isStep_euler heis_lawful (x := 0) (u := ![1, 0]) trivial h (heisF_jac 0 ![1, 0])
  have := congrFun (congrFun (he.unique ht) 2) (Fin.castAdd 2 1)
  simp only [hcat, Fin.append_left] at this
  simp [e, Integrator.call, euler, heisODE, constODE, heis, heisF] at this
  exact hh this

/-- The theorem on RK2 on a curved group. -/
example (h : ℝ) (d : IData 3 3 2 (Vec 3)) (cs : List (ICall 3 2)) (x : Vec 3) (u : Vec 2) :
    let e := (cs ++ [ICall.forward x u, .dForward x u]).foldl (rk2 heis heisODE h).call d
    IsStepJacobian heis (rk2Step heis heisF h) e.Jx e.Ju x u :=
  (C44_manifold_rk2_partial heis_lawful heisODE_computes (fun _ _ _ _ _ => ⟨rfl, rfl⟩) h d ⟨trivial, trivial⟩ cs [.dForward x u] x u trivial
    (by simp)).2 (by simp)

/-! ### A manifold whose Jacobians depend on the base point -/

/-- The plane with steps sheared by the square of the first coordinate. -/
noncomputable def shear : Space 2 2 where
  integrate x v := ![x 0 + v 0, x 1 + v 1 + x 0 * x 0 * v 0]
  Jint0 _ v := !![1, 0; -(v 0 * v 0), 1]
  Jint1 x v := !![1, 0; -(2 * x 0 * v 0 + v 0 * v 0), 1]
  transport x v J := !![1, 0; -(2 * x 0 * v 0 + v 0 * v 0), 1] * J
  difference x y := ![y 0 - x 0, y 1 - x 1 - x 0 * x 0 * (y 0 - x 0)]
  Jdiff0 x y := !![-1, 0; -(2 * x 0 * (y 0 - x 0)), -1]
  Jdiff1 x y := !![1, 0; y 0 * y 0 - x 0 * x 0, 1]

theorem shear_lawful : Lawful shear (fun _ => True) (fun _ _ => True) where
  point _ _ _ := trivial
  integrate_zero x _ := by funext i; fin_cases i <;> simp [shear]
  difference_self x _ := by funext i; fin_cases i <;> simp [shear]
  integrate_difference x y _ _ := by funext i; fin_cases i <;> simp [shear]; ring
  retract x _ := by
    refine (IsJacobian.id (0 : Vec 2)).congr_of' (funext fun w => ?_) rfl
    funext i; fin_cases i <;> simp [shear]; ring
  integrate_jac x v _ := by
    intro i
    fin_cases i
    · refine (isGradient_quad (shear.Jint0 x v 0) (shear.Jint1 x v 0) (c := 0) (quad0 0 0 0 0 0)).congr_of (funext fun z => ?_) rfl
      simp [shear, dotProduct, Fin.sum_univ_succ]; ring
    · have hg := (((grad_snd (k := 2) 0).smul (2 * x 0)).add ((grad_fst (k := 2) 0).smul (v 0))).add
        (isGradient_mul0 (grad_fst (k := 2) 0) (grad_snd 0) rfl rfl)
      have hr := isGradient_mul0 (grad_fst (k := 2) 0) hg rfl (by simp [fst, snd])
      refine (isGradient_quad (shear.Jint0 x v 1) (shear.Jint1 x v 1) (c := 0) hr).congr_of (funext fun z => ?_) rfl
      simp [shear, dotProduct, Fin.sum_univ_succ]; ring
  difference_jac x y _ _ _ := by
    intro i
    fin_cases i
    · refine (isGradient_quad (shear.Jdiff0 x y 0) (shear.Jdiff1 x y 0) (c := shear.difference x y 0) (quad0 0 0 0 0 0)).congr_of
        (funext fun z => ?_) rfl
      simp [shear, dotProduct, Fin.sum_univ_succ]; ring
    · have hw := (grad_snd (k := 2) 0).sub (grad_fst 0)
      have hg := ((hw.smul (-(2 * x 0))).add ((grad_fst (k := 2) 0).smul (-(y 0 - x 0)))).sub
        (isGradient_mul0 (grad_fst (k := 2) 0) hw rfl (by simp [fst, snd]))
      have hr := isGradient_mul0 (grad_fst (k := 2) 0) hg rfl (by simp [fst, snd])
      refine (isGradient_quad (shear.Jdiff0 x y 1) (shear.Jdiff1 x y 1) (c := shear.difference x y 1) hr).congr_of
        (funext fun z => ?_) rfl
      simp [shear, dotProduct, Fin.sum_univ_succ]; ring
  transport x v J _ := rfl

/-- The control moves the first coordinate. -/
def shearF (_ : Vec 2) (u : Vec 1) : Vec 2 := ![u 0, 0]

theorem shearF_jac (x : Vec 2) (u : Vec 1) :
    IsJacobian (fun z : Vec (2 + 1) => shearF (shear.integrate x (fst z)) (u + snd z)) (hcat 0 !![1; 0]) 0 := by
  have c2 : IsGradient (fun z : Vec (2 + 1) => snd z 0) (Pi.single (Fin.natAdd 2 0) 1) 0 := IsGradient.coord _ _
  intro i
  fin_cases i
  · refine ((IsGradient.const (u 0) 0).add c2).congr_of (funext fun z => ?_) ?_
    · simp [shearF]
    · funext j; fin_cases j <;> simp [hcat, Fin.append, Fin.addCases, Pi.single_apply, Fin.ext_iff]
  · refine (IsGradient.const 0 0).congr_of (funext fun z => ?_) ?_
    · simp [shearF]
    · funext j; fin_cases j <;> simp [hcat, Fin.append, Fin.addCases]

/-- **C44 fails for RK2 on manifolds whose Jacobians depend on the base point**, even right after `forward`: the step starts at
`x`, but its derivatives are taken at the midpoint `x1` (modelling/dynamics/integrator-rk2.hxx:55-59). -/
theorem C44_manifold_rk2_base_point (h : ℝ) (hh : h ≠ 0) (d : IData 2 2 1 (Vec 2)) :
    let e := [ICall.forward 0 ![1], .dForward 0 ![1]].foldl (rk2 shear (constODE shearF 0 !![1; 0]) h).call d
    e.xnext = rk2Step shear shearF h 0 ![1] ∧ ¬ IsStepJacobian shear (rk2Step shear shearF h) e.Jx e.Ju 0 ![1] := by
  intro e
  refine ⟨rfl, fun he => ?_⟩
  have ht := isStep_rk2 shear_lawful (x := 0) (u := ![1]) trivial h (shearF_jac 0 ![1]) rfl (shearF_jac _ ![1])
  have := congrFun (congrFun (he.unique ht) 1) (Fin.natAdd 2 0)
  simp only [hcat, Fin.append_right] at this
  simp [e, Integrator.call, rk2, constODE, shear, shearF] at this
  have h3 : h * h * h = 0 := by linarith
  simp at h3
  exact hh h3

/-! ### Tangent bundles and the midpoint rule -/

/-- The double integrator on a tangent bundle. -/
def doubleF (x : Vec (3 + 3)) (u : Vec 3) : Vec (3 + 3) := Fin.append (tl x) u

theorem doubleF_jac (x : Vec (3 + 3)) (u : Vec 3) :
    IsJacobian (fun z : Vec (3 + 3 + 3) => doubleF ((bundle heis).integrate x (fst z)) (u + snd z))
      (hcat (vcat velSel 0) (vcat 0 1)) 0 := by
  have h1 : IsJacobian (fun z : Vec (3 + 3 + 3) => snd (fst z)) (selSnd 3 3 * selFst (3 + 3) 3) 0 :=
    (isJacobian_snd _).comp (isJacobian_fst _)
  have h2 : IsJacobian (fun z : Vec (3 + 3 + 3) => tl x + snd (fst z)) (hcat (hcat 0 1) 0) 0 := by
    rw [sel_u] at h1; simpa using (IsJacobian.const (tl x) 0).add h1
  have h3 : IsJacobian (fun z : Vec (3 + 3 + 3) => u + snd z) (hcat 0 1) 0 := by
    rw [← selSnd_eq]; simpa using (IsJacobian.const u 0).add (isJacobian_snd (0 : Vec (3 + 3 + 3)))
  refine (show IsJacobian _ (vcat _ _) 0 from h2.append h3).congr_of' (funext fun z => ?_) ?_
  · show _ = Fin.append (tl (Fin.append _ _)) _
    congr 1
    funext i; exact (Fin.append_right _ _ i).symm
  · rw [vcat_hcat]
    congr 2
    funext i
    exact congrArg (Fin.append 0) (funext fun j => by rw [Matrix.one_apply, Pi.single_apply]; simp [eq_comm])

/-- The theorem on semi-implicit Euler on the tangent bundle of a curved group. -/
example (h : ℝ) (d : IData (3 + 3) (3 + 3) 3 (Vec (3 + 3))) (cs : List (ICall (3 + 3) 3)) (x : Vec (3 + 3)) (u : Vec 3) :
    let e := (cs ++ [ICall.forward x u, .dForward x u]).foldl
      (semiEuler (bundle heis) (constODE doubleF (vcat velSel 0) (vcat 0 1)) h).call d
    IsStepJacobian (bundle heis) (semiStep (bundle heis) doubleF h) e.Jx e.Ju x u :=
  (C44_manifold_semi_euler_partial (C44_manifold_bundle heis_lawful).1 (C44_manifold_bundle heis_lawful).2
    (constODE_computes doubleF_jac) h d ⟨trivial, trivial⟩ cs [.dForward x u] x u trivial (by simp)).2 (by simp)

/-- **C44 fails for the midpoint rule on curved groups**, even right after the evaluation at the same arguments: one entry of the
derivative in `x` is off. -/
theorem C44_manifold_midpoint_curved (h : ℝ) (hh : 0 < h) (d : MData 3 3 2 (Vec 3 × Mat 3 3)) :
    let e := [MCall.value 0 0 ![0, 1, 0], .jac 0 0 ![0, 1, 0]].foldl
      (midCall heis (constDAE heisF !![1, 0, 0; 0, 0, 0; 0, 0, 0] !![1, 0; 0, 1; 0, 0]) h) d
    e.value = midResidual heis (fun x u v => heisF x u - v) h 0 0 ![0, 1, 0] ∧
    ¬ IsMidJacobian heis (fun x u v => heisF x u - v) h e.Jx e.Ju e.Jy 0 0 ![0, 1, 0] := by
  intro e
  obtain ⟨r1, r2⟩ := C44_manifold_midpoint_iff heis_lawful (constDAE_computes heisF_jac) h hh d trivial []
    [.jac 0 0 ![0, 1, 0]] 0 ![0, 1, 0] 0 trivial trivial trivial (by simp) rfl
    (constDAE_jac heisF_jac _ 0 (h⁻¹ • heis.difference 0 ![0, 1, 0]))
  refine ⟨r1, fun he => ?_⟩
  have := congrFun (congrFun ((r2 (by simp)).2.1 he).1 2) 0
  simp [heis, Matrix.mul_apply, Fin.sum_univ_succ] at this
  norm_num at this

/-- The theorem on the midpoint rule on a curved group, at `y = x`. -/
example (h : ℝ) (hh : 0 < h) (d : MData 3 3 2 (Vec 3 × Mat 3 3)) (cs : List (MCall 3 2)) (x : Vec 3) (u : Vec 2) :
    let e := (cs ++ [MCall.value x u x, .jac x u x]).foldl
      (midCall heis (constDAE heisF !![1, 0, 0; 0, 0, 0; 0, 0, 0] !![1, 0; 0, 1; 0, 0]) h) d
    IsMidJacobian heis (fun x u v => heisF x u - v) h e.Jx e.Ju e.Jy x u x :=
  (C44_manifold_midpoint_partial heis_lawful (constDAE_computes heisF_jac) h hh d trivial cs [.jac x u x] x x u trivial trivial trivial
    (by simp) (by simp) (Or.inl rfl)).2

/-- And on a vector space, at any pair of points. -/
example (h : ℝ) (hh : 0 < h) (f : Vec n → Vec m → Vec n) (A : Mat n n) (B : Mat n m)
    (hf : ∀ x u, IsJacobian (fun z : Vec (n + m) => f ((euclid n).integrate x (fst z)) (u + snd z)) (hcat A B) 0)
    (d : MData n n m (Vec n × Mat n n)) (cs : List (MCall n m)) (x y : Vec n) (u : Vec m) :
    let e := (cs ++ [MCall.value x u y, .jac x u y]).foldl (midCall (euclid n) (constDAE f A B) h) d
    IsMidJacobian (euclid n) (fun x u v => f x u - v) h e.Jx e.Ju e.Jy x u y :=
  (C44_manifold_midpoint_partial euclid_lawful (constDAE_computes hf) h hh d trivial cs [.jac x u y] x y u trivial trivial trivial
    (by simp) (by simp) (Or.inr ⟨rfl, rfl⟩)).2

end Aligator.MInteg
