import Verif.Model.Affine
import Verif.Spec.Derivatives
import Verif.Lemmas.Derivatives

/-!
# C64: affine stage functions, linear dynamics, control boxes and constant costs
-/

namespace Aligator.Aff

open Matrix Aligator.Wrap Aligator.Deriv

variable {n m r : ℕ}

theorem Mx.as_self (A : Mat r n) : (⟨r, n, A⟩ : Mx).as r n = some A := by
  rw [Mx.as, dif_pos ⟨rfl, rfl⟩]; rfl

theorem Mx.as_none (A : Mx) (h : A.rows ≠ r ∨ A.cols ≠ n) : A.as r n = none := by
  rw [Mx.as, dif_neg]
  rintro ⟨h1, h2⟩
  rcases h with h | h <;> contradiction

/-- The matrix of the columns of `A` and `B` is the derivative of an affine function. -/
theorem affine_jacobian (A : Mat r n) (B : Mat r m) (c : Vec r) (z : Vec (n + m)) :
    IsJacobian (fun z : Vec (n + m) => fun i => ∑ j, A i j * fst z j + ∑ j, B i j * snd z j + c i) (cols A B) z := by
  have h := ((IsJacobian.const c z).add ((isJacobian_fst z).mulVec A)).add ((isJacobian_snd z).mulVec B)
  refine h.congr_of' ?_ ?_
  · funext y i
    simp only [Pi.add_apply, mulVec, dotProduct]
    ring
  · rw [mul_selFst, mul_selSnd]
    funext i
    show (0 + Fin.append (A i) 0) + Fin.append 0 (B i) = Fin.append (A i) (B i)
    rw [zero_add, append_add, add_zero, zero_add]

/-! ### Linear functions -/

/-- The linear function of matrices of matching rows. -/
abbrev linFun (A : Mat r n) (B : Mat r m) (c : Vec r) : LinFun := ⟨⟨r, n, A⟩, ⟨r, m, B⟩, ⟨r, c⟩⟩

theorem linFun_createData (A : Mat r n) (B : Mat r m) (c : Vec r) :
    (linFun A B c).createData = some { (FData.new : FData n m r) with jac := cols A B } := by
  show (Option.bind ((⟨r, n, A⟩ : Mx).as r n) fun A => Option.bind ((⟨r, m, B⟩ : Mx).as r m) fun B => some _) = _
  rw [Mx.as_self, Mx.as_self]; rfl

theorem linFun_evaluate (A : Mat r n) (B : Mat r m) (c : Vec r) (x : Vec n) (u : Vec m) (d : FData n m r) :
    (linFun A B c).evaluate x u d = some { d with value := c + A *ᵥ x + B *ᵥ u } := by
  show (Option.bind ((⟨r, n, A⟩ : Mx).as r n) fun A => Option.bind ((⟨r, m, B⟩ : Mx).as r m) fun B => some _) = _
  rw [Mx.as_self, Mx.as_self]; rfl

theorem linFun_jacobians (A : Mat r n) (B : Mat r m) (c : Vec r) (x : Vec n) (u : Vec m) (d : FData n m r) :
    (linFun A B c).computeJacobians x u d = some { d with jac := cols A B } := by
  show (Option.bind ((⟨r, n, A⟩ : Mx).as r n) fun A => Option.bind ((⟨r, m, B⟩ : Mx).as r m) fun B => some _) = _
  rw [Mx.as_self, Mx.as_self]; rfl

/-- **C64.** Matrices with matching rows: data can be created; after any calls an evaluation gives `A x + B u + d`, and the
Jacobians are the derivative at every point, before the first call and after any. -/
theorem C64_linear_function (A : Mat r n) (B : Mat r m) (c : Vec r) :
    ∃ d0 : FData n m r, (linFun A B c).createData = some d0 ∧ ∀ cs : List (Call n m),
      ∃ d : FData n m r, cs.foldlM (linFun A B c).call d0 = some d ∧
        (∀ z, IsJacobian (fun z : Vec (n + m) => fun i => ∑ j, A i j * fst z j + ∑ j, B i j * snd z j + c i) d.jac z) ∧
        ∀ (x : Vec n) (u : Vec m), ∃ e : FData n m r, (linFun A B c).evaluate x u d = some e ∧ e.jac = d.jac ∧
          e.value = fun i => ∑ j, A i j * x j + ∑ j, B i j * u j + c i := by
  have key : ∀ (cs : List (Call n m)) (d : FData n m r), d.jac = cols A B →
      ∃ d' : FData n m r, cs.foldlM (linFun A B c).call d = some d' ∧ d'.jac = cols A B := by
    intro cs
    induction cs with
    | nil => intro d hd; exact ⟨d, rfl, hd⟩
    | cons k cs ih =>
      intro d hd
      cases k with
      | value x u =>
        obtain ⟨d', h1, h2⟩ := ih { d with value := c + A *ᵥ x + B *ᵥ u } hd
        refine ⟨d', ?_, h2⟩
        show Option.bind ((linFun A B c).evaluate x u d) _ = _
        rw [linFun_evaluate]
        exact h1
      | jac x u =>
        obtain ⟨d', h1, h2⟩ := ih { d with jac := cols A B } rfl
        refine ⟨d', ?_, h2⟩
        show Option.bind ((linFun A B c).computeJacobians x u d) _ = _
        rw [linFun_jacobians]
        exact h1
  refine ⟨_, linFun_createData A B c, fun cs => ?_⟩
  obtain ⟨d, h1, h2⟩ := key cs { (FData.new : FData n m r) with jac := cols A B } rfl
  refine ⟨d, h1, fun z => h2 ▸ affine_jacobian A B c z, fun x u => ⟨_, linFun_evaluate A B c x u d, rfl, ?_⟩⟩
  funext i
  simp only [Pi.add_apply, mulVec, dotProduct]
  ring

/-- **C64.** Rows that do not match pass the constructor, and the creation of data is undefined. -/
theorem C64_linear_function_sizes (f : LinFun) (h : f.A.rows ≠ f.d.size ∨ f.B.rows ≠ f.d.size) : f.createData = none := by
  unfold LinFun.createData
  rcases h with h | h
  · rw [Mx.as_none f.A (Or.inl h)]; rfl
  · rw [Mx.as_none f.B (Or.inl h)]
    cases f.A.as f.nr f.ndx <;> rfl

/-- **C64.** The constructor from dimensions gives the zero function. -/
theorem C64_linear_function_zero (d : FData n m r) (x : Vec n) (u : Vec m) :
    ∃ e : FData n m r, LinFun.evaluate (newLinFunDim n m r) x u d = some e ∧ e.value = 0 := by
  refine ⟨_, linFun_evaluate (0 : Mat r n) (0 : Mat r m) 0 x u d, ?_⟩
  simp

/-! ### Linear dynamics -/

/-- The linear dynamics of matrices of matching sizes. -/
abbrev linDyn (A : Mat n n) (B : Mat n m) (c : Vec n) : LinDyn := ⟨⟨n, n, A⟩, ⟨n, m, B⟩, ⟨n, c⟩⟩

theorem linDyn_createData (A : Mat n n) (B : Mat n m) (c : Vec n) :
    (linDyn A B c).createData = some (⟨⟨n, 0⟩, cols A B⟩ : DData n m) := by
  show (Option.bind ((⟨n, n, A⟩ : Mx).as n n) fun A => Option.bind ((⟨n, m, B⟩ : Mx).as n m) fun B => some _) = _
  rw [Mx.as_self, Mx.as_self]; rfl

theorem linDyn_forward (A : Mat n n) (B : Mat n m) (c : Vec n) (x : Vec n) (u : Vec m) (d : DData n m) :
    (linDyn A B c).forward x u d = some { d with xnext := ⟨n, c + A *ᵥ x + B *ᵥ u⟩ } := by
  show (Option.bind ((⟨n, n, A⟩ : Mx).as n n) fun A => Option.bind ((⟨n, m, B⟩ : Mx).as n m) fun B => some _) = _
  rw [Mx.as_self, Mx.as_self]; rfl

/-- **C64.** Square `A` and matching rows: data can be created, calls are defined, the next state is `A x + B u + c`, and
the Jacobians are its derivative before the first call and after any. -/
theorem C64_linear_dynamics (A : Mat n n) (B : Mat n m) (c : Vec n) :
    ∃ d0 : DData n m, (linDyn A B c).createData = some d0 ∧ ∀ cs : List (Call n m),
      ∃ d : DData n m, cs.foldlM (linDyn A B c).call d0 = some d ∧
        (∀ z, IsJacobian (fun z : Vec (n + m) => fun i => ∑ j, A i j * fst z j + ∑ j, B i j * snd z j + c i) d.jac z) ∧
        ∀ (x : Vec n) (u : Vec m), ∃ e : DData n m, (linDyn A B c).forward x u d = some e ∧ e.jac = d.jac ∧
          e.xnext = ⟨n, fun i => ∑ j, A i j * x j + ∑ j, B i j * u j + c i⟩ := by
  have key : ∀ (cs : List (Call n m)) (d : DData n m), d.jac = cols A B →
      ∃ d' : DData n m, cs.foldlM (linDyn A B c).call d = some d' ∧ d'.jac = cols A B := by
    intro cs
    induction cs with
    | nil => intro d hd; exact ⟨d, rfl, hd⟩
    | cons k cs ih =>
      intro d hd
      cases k with
      | value x u =>
        obtain ⟨d', h1, h2⟩ := ih { d with xnext := ⟨n, c + A *ᵥ x + B *ᵥ u⟩ } hd
        refine ⟨d', ?_, h2⟩
        show Option.bind ((linDyn A B c).forward x u d) _ = _
        rw [linDyn_forward]
        exact h1
      | jac x u => exact ih d hd
  refine ⟨_, linDyn_createData A B c, fun cs => ?_⟩
  obtain ⟨d, h1, h2⟩ := key cs ⟨⟨n, 0⟩, cols A B⟩ rfl
  refine ⟨d, h1, fun z => h2 ▸ affine_jacobian A B c z, fun x u => ⟨_, linDyn_forward A B c x u d, rfl, ?_⟩⟩
  show (⟨n, c + A *ᵥ x + B *ᵥ u⟩ : Vx) = _
  congr 1
  funext i
  simp only [Pi.add_apply, mulVec, dotProduct]
  ring

/-- **C64.** Other sizes pass the constructor: a non-square `A`, or `B` with other rows, makes the creation of data
undefined; `c` of another size makes every step undefined. -/
theorem C64_linear_dynamics_sizes (f : LinDyn) :
    (f.A.rows ≠ f.A.cols ∨ f.B.rows ≠ f.A.cols → f.createData = none) ∧
    (f.A.rows ≠ f.c.size → ∀ x u d, f.forward x u d = none) := by
  refine ⟨fun h => ?_, fun h x u d => ?_⟩
  · unfold LinDyn.createData
    rcases h with h | h
    · rw [Mx.as_none f.A (Or.inl h)]; rfl
    · rw [Mx.as_none f.B (Or.inl h)]
      cases f.A.as f.ndx f.ndx <;> rfl
  · unfold LinDyn.forward
    rw [Mx.as_none f.A (Or.inl h)]; rfl

/-! ### Control boxes -/

/-- The Jacobian of a box. -/
def boxJac (n m : ℕ) : Mat (m + m) (n + m) :=
  Fin.append (fun k => Fin.append 0 (-(Pi.single k 1 : Vec m))) (fun k => Fin.append 0 (Pi.single k 1 : Vec m))

theorem boxDiagonals_zero : boxDiagonals (0 : Mat (m + m) (n + m)) = boxJac n m := by
  funext i
  refine Fin.addCases (fun k => ?_) (fun k => ?_) i
  · simp only [boxDiagonals, boxJac, Fin.addCases_left, Fin.append_left]
    congr 1
    funext j
    by_cases h : j = k <;> simp [Function.update_apply, h]
  · simp only [boxDiagonals, boxJac, Fin.addCases_right, Fin.append_right]
    congr 1

theorem boxDiagonals_boxJac : boxDiagonals (boxJac n m) = boxJac n m := by
  funext i
  refine Fin.addCases (fun k => ?_) (fun k => ?_) i
  · simp only [boxDiagonals, boxJac, Fin.addCases_left, Fin.append_left, Fin.append_right]
    congr 1
    funext j
    by_cases h : j = k <;> simp [Pi.single_apply, h]
  · simp only [boxDiagonals, boxJac, Fin.addCases_right, Fin.append_right, Fin.append_left]
    congr 1
    funext j
    by_cases h : j = k <;> simp [Pi.single_apply, h]

/-- **C64.** A control box is built exactly from bounds of one size.  After any calls an evaluation is nonpositive exactly
when the control lies between the bounds, each row the signed distance to its bound, and the Jacobian is the derivative
before the first call and after any. -/
theorem C64_control_box (lo hi : Vx) :
    ((newBox lo hi).isSome ↔ lo.size = hi.size) ∧
    ∀ (l h : Vec m) (c : Box m), newBox ⟨m, l⟩ ⟨m, h⟩ = some c → ∀ (a n : ℕ) (cs : List (Call a m)),
      let d := cs.foldl c.call (c.createData n)
      (∀ u, (c.evaluate u d).value = Fin.append (fun i => l i - u i) (fun i => u i - h i) ∧
        ((∀ i, (c.evaluate u d).value i ≤ 0) ↔ ∀ i, l i ≤ u i ∧ u i ≤ h i)) ∧
      ∀ z, IsJacobian (fun z : Vec (n + m) => Fin.append (fun i => l i - snd z i) (fun i => snd z i - h i)) d.jac z := by
  refine ⟨by unfold newBox; split <;> simp_all, fun l h c hc a n cs => ?_⟩
  have hc' : c = ⟨l, h⟩ := by
    unfold newBox at hc
    rw [dif_pos rfl] at hc
    simpa using hc.symm
  have key : ∀ (cs : List (Call a m)) (d : FData n m (m + m)), d.jac = boxJac n m → (cs.foldl c.call d).jac = boxJac n m := by
    intro cs
    induction cs with
    | nil => intro d hd; exact hd
    | cons k cs ih =>
      intro d hd
      cases k with
      | value x u => exact ih _ hd
      | jac x u => exact ih _ (by simp only [Box.call, Box.computeJacobians, hd]; exact boxDiagonals_boxJac)
  intro d
  have hd : d.jac = boxJac n m := key cs _ boxDiagonals_zero
  have hv : ∀ u, (c.evaluate u d).value = Fin.append (fun i => l i - u i) (fun i => u i - h i) := by
    intro u
    subst hc'
    show Fin.append (Wrap.hd (Fin.append (l - u) _)) (u - h) = _
    rw [show ∀ w : Vec m, Wrap.hd (Fin.append (l - u) w) = l - u from fun w => funext fun i => Fin.append_left _ _ _]
    rfl
  refine ⟨fun u => ⟨hv u, ?_⟩, fun z => ?_⟩
  · rw [hv u]
    constructor
    · intro hh i
      have h1 := hh (Fin.castAdd m i)
      have h2 := hh (Fin.natAdd m i)
      rw [Fin.append_left] at h1
      rw [Fin.append_right] at h2
      constructor <;> linarith
    · intro hh i
      refine Fin.addCases (fun k => ?_) (fun k => ?_) i
      · rw [Fin.append_left]; linarith [(hh k).1]
      · rw [Fin.append_right]; linarith [(hh k).2]
  · rw [hd]
    have hs := isJacobian_snd (n := n) (m := m) z
    refine (((IsJacobian.const l z).sub hs).append (hs.sub (IsJacobian.const h z))).congr ?_
    funext i
    refine Fin.addCases (fun k => ?_) (fun k => ?_) i
    · refine (Fin.append_left _ _ _).trans (Eq.trans ?_ (Fin.append_left _ _ _).symm)
      funext j
      refine Fin.addCases (fun j => ?_) (fun j => ?_) j
      · simp [selSnd, castAdd_ne_natAdd]
      · simp [selSnd, Pi.single_apply, -Fin.natAdd_eq_addNat]
    · refine (Fin.append_right _ _ _).trans (Eq.trans ?_ (Fin.append_right _ _ _).symm)
      funext j
      refine Fin.addCases (fun j => ?_) (fun j => ?_) j
      · simp [selSnd, castAdd_ne_natAdd]
      · simp [selSnd, Pi.single_apply, -Fin.natAdd_eq_addNat]

/-- **C64.** Bounds given as numbers. -/
theorem C64_control_box_scalar (nu : ℕ) (lo hi : ℝ) : newBoxScalar nu lo hi = some ⟨fun _ => lo, fun _ => hi⟩ := by
  simp [newBoxScalar, newBox]

/-! ### Constant costs -/

/-- **C64.** A constant cost: value, and the derivatives of a constant function, before the first call and after any. -/
theorem C64_constant_cost {a : ℕ} (v : ℝ) (cs : List (KCall a m)) :
    cs.foldl (constCall v) (constData v : CData n m) = ⟨v, 0, 0, 0, 0, 0, 0⟩ := by
  induction cs with
  | nil => rfl
  | cons k cs ih =>
    rw [List.foldl_cons]
    have : constCall v (constData v : CData n m) k = constData v := by cases k <;> rfl
    rw [this]; exact ih

/-- The hypotheses of C64 are met: a box, a control inside and one outside. -/
example : ∃ c : Box 2, newBox ⟨2, ![-1, 0]⟩ ⟨2, ![1, 2]⟩ = some c ∧
    (∀ i, (c.evaluate ![0, 1] (c.createData 3)).value i ≤ 0) ∧ ¬ ∀ i, (c.evaluate ![0, 3] (c.createData 3)).value i ≤ 0 := by
  obtain ⟨-, h⟩ := C64_control_box (m := 2) ⟨2, ![-1, 0]⟩ ⟨2, ![1, 2]⟩
  have hc : newBox ⟨2, ![-1, 0]⟩ ⟨2, ![1, 2]⟩ = some ⟨![-1, 0], ![1, 2]⟩ := by simp [newBox]
  obtain ⟨h1, -⟩ := h _ _ _ hc 3 3 []
  refine ⟨_, hc, (h1 _).2.2 ?_, fun hb => ?_⟩
  · intro i; fin_cases i <;> norm_num
  · have := (h1 _).2.1 hb 1
    norm_num at this

end Aligator.Aff
