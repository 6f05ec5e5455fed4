import Verif.Spec.Wrappers
import Verif.Lemmas.Derivatives
import Mathlib.LinearAlgebra.Matrix.Notation
import Mathlib.Tactic.FinCases
import Mathlib.Tactic.NormNum

/-!
# C46, C47: slices, affine compositions, direct sums
-/

namespace Aligator.Wrap

open Matrix Aligator.Deriv Spec

variable {a n m r k : ℕ}

/-! ### Slices -/

theorem at?_valid {α : Type} {idx : Fin k → ℤ} (h : Valid r idx) (v : Fin r → α) (j : Fin k) :
    at? v (idx j) = some (v (pick h j)) := by
  rw [at?, dif_pos (h j)]; rfl

theorem at?_none {α : Type} (v : Fin r → α) (i : ℤ) : at? v i = none ↔ ¬ (0 ≤ i ∧ i < r) := by
  unfold at?
  split
  · simp [*]
  · simp [*]

theorem value_loop {idx : Fin k → ℤ} (h : Valid r idx) (l : List (Fin k)) (d : SData n m r k) :
    ∃ e, l.foldlM (fun d j => do
      let v ← at? d.sub.value (idx j)
      pure { d with value := Function.update d.value j v }) d = some e ∧
    e.sub = d.sub ∧ e.jac = d.jac ∧ e.vhp = d.vhp ∧
    ∀ j, e.value j = if j ∈ l then d.sub.value (pick h j) else d.value j := by
  induction l generalizing d with
  | nil => exact ⟨d, rfl, rfl, rfl, rfl, fun j => by simp⟩
  | cons i l ih =>
    obtain ⟨e, h1, h2, h3, h4, h5⟩ := ih { d with value := Function.update d.value i (d.sub.value (pick h i)) }
    refine ⟨e, ?_, h2, h3, h4, fun j => ?_⟩
    · rw [List.foldlM_cons, show at? d.sub.value (idx i) = _ from at?_valid h _ i]
      exact h1
    · rw [h5 j]
      by_cases hl : j ∈ l
      · simp [hl]
      · by_cases hi : j = i
        · subst hi; simp [hl]
        · simp [hl, hi]

theorem jac_loop {idx : Fin k → ℤ} (h : Valid r idx) (l : List (Fin k)) (d : SData n m r k) :
    ∃ e, l.foldlM (fun d j => do
      let v ← at? d.sub.jac (idx j)
      pure { d with jac := Function.update d.jac j v }) d = some e ∧
    e.sub = d.sub ∧ e.value = d.value ∧ e.vhp = d.vhp ∧
    ∀ j, e.jac j = if j ∈ l then d.sub.jac (pick h j) else d.jac j := by
  induction l generalizing d with
  | nil => exact ⟨d, rfl, rfl, rfl, rfl, fun j => by simp⟩
  | cons i l ih =>
    obtain ⟨e, h1, h2, h3, h4, h5⟩ := ih { d with jac := Function.update d.jac i (d.sub.jac (pick h i)) }
    refine ⟨e, ?_, h2, h3, h4, fun j => ?_⟩
    · rw [List.foldlM_cons, show at? d.sub.jac (idx i) = _ from at?_valid h _ i]
      exact h1
    · rw [h5 j]
      by_cases hl : j ∈ l
      · simp [hl]
      · by_cases hi : j = i
        · subst hi; rw [if_neg hl, if_pos List.mem_cons_self]; exact Function.update_self _ _ _
        · rw [if_neg hl, if_neg (by simp [hl, hi])]; exact Function.update_of_ne hi _ _

/-- **C46, values of slices.**  On any data, with valid indices (repeated or not, in any order), a slice reports exactly the
selected outputs, and leaves the other buffers. -/
theorem C46_slice_value (f : Fun a n m r) (F : Vec a → Vec m → Vec r) (x : Vec a) (u : Vec m)
    (hf : ∀ d, (f.evaluate x u d).value = F x u) (idx : Fin k → ℤ) (h : Valid r idx) (d : SData n m r k) :
    ∃ e, sliceEvaluate f idx x u d = some e ∧ (∀ j, e.value j = F x u (pick h j)) ∧ e.jac = d.jac ∧ e.vhp = d.vhp := by
  obtain ⟨e, h1, -, h3, h4, h5⟩ := value_loop h (List.finRange k) { d with sub := f.evaluate x u d.sub }
  refine ⟨e, h1, fun j => ?_, h3, h4⟩
  rw [h5 j, if_pos (List.mem_finRange j), hf]

/-- **C46, Jacobians of slices.**  On any data, with valid indices, the rows are the selected rows of the wrapped function's
Jacobian; when that is the derivative of `F`, the result is the derivative of the sliced function. -/
theorem C46_slice_jacobian (f : Fun n n m r) (F : Vec n → Vec m → Vec r) (x : Vec n) (u : Vec m)
    (hf : ∀ d, IsJacobian (stacked F) (f.computeJacobians x u d).jac (Fin.append x u)) (idx : Fin k → ℤ) (h : Valid r idx)
    (d : SData n m r k) :
    ∃ e, sliceJacobians f idx x u d = some e ∧
      (∀ j, e.jac j = (f.computeJacobians x u d.sub).jac (pick h j)) ∧ e.value = d.value ∧ e.vhp = d.vhp ∧
      IsJacobian (stacked fun x u j => F x u (pick h j)) e.jac (Fin.append x u) := by
  obtain ⟨e, h1, -, h3, h4, h5⟩ := jac_loop h (List.finRange k) { d with sub := f.computeJacobians x u d.sub }
  have h6 : ∀ j, e.jac j = (f.computeJacobians x u d.sub).jac (pick h j) := fun j => by
    rw [h5 j, if_pos (List.mem_finRange j)]
  refine ⟨e, h1, h6, h3, h4, fun j => ?_⟩
  rw [h6 j]
  exact hf d.sub (pick h j)

theorem loop_none {σ : Type} {α : Type} (g : σ → Fin r → α) (upd : σ → Fin k → α → σ)
    (idx : Fin k → ℤ) (l : List (Fin k)) (d : σ) (j : Fin k) (hj : j ∈ l) (hi : ¬ (0 ≤ idx j ∧ idx j < r)) :
    l.foldlM (fun d j => do let v ← at? (g d) (idx j); pure (upd d j v)) d = none := by
  induction l generalizing d with
  | nil => simp at hj
  | cons i l ih =>
    rw [List.foldlM_cons]
    by_cases hv : 0 ≤ idx i ∧ idx i < r
    · have hji : j ∈ l := by
        rcases List.mem_cons.1 hj with e | e
        · subst e; exact absurd hv hi
        · exact e
      have : at? (g d) (idx i) = some (g d ⟨(idx i).toNat, by omega⟩) := by rw [at?, dif_pos hv]
      rw [this]
      exact ih _ hji
    · rw [(at?_none _ _).2 hv]; rfl

/-- **C46, index checks.**  There are none: with an invalid index, evaluating or differentiating a slice reads out of
range. -/
theorem C46_slice_range (f : Fun a n m r) (idx : Fin k → ℤ) (h : ¬ Valid r idx) (x : Vec a) (u : Vec m)
    (d : SData n m r k) : sliceEvaluate f idx x u d = none ∧ sliceJacobians f idx x u d = none := by
  unfold Valid at h
  push Not at h
  obtain ⟨j, hj⟩ := h
  have hi : ¬ (0 ≤ idx j ∧ idx j < r) := by omega
  exact ⟨loop_none (fun d : SData n m r k => d.sub.value) (fun d j v => { d with value := Function.update d.value j v }) idx _
    _ j (List.mem_finRange j) hi, loop_none (fun d : SData n m r k => d.sub.jac)
    (fun d j v => { d with jac := Function.update d.jac j v }) idx _ _ j (List.mem_finRange j) hi⟩

/-- **C46, vector-Hessian products of slices: what is computed.**  Whatever the function, the multipliers and the data, the
reported buffer never changes. -/
theorem C46_slice_vhp_unchanged (f : Fun a n m r) (idx : Fin k → ℤ) (x : Vec a) (u : Vec m) (lbda : List ℝ)
    (d e : SData n m r k) (h : sliceVHP f idx x u lbda d = some e) : e.vhp = d.vhp ∧ e.value = d.value ∧ e.jac = d.jac := by
  simp only [sliceVHP, bind, Option.bind_eq_some_iff, pure] at h
  obtain ⟨l, -, h⟩ := h
  cases h
  exact ⟨rfl, rfl, rfl⟩

/-- The function `x²` on the line, with correct derivatives; its multipliers are read as the code of a function would. -/
noncomputable def sq : Fun 1 1 0 1 where
  evaluate x _ d := { d with value := fun _ => x 0 * x 0 }
  computeJacobians x _ d := { d with jac := Matrix.of fun _ _ => 2 * x 0 }
  computeVHP _ _ l d := { d with vhp := Matrix.of fun _ _ => 2 * l.headD 0 }

theorem sq_gradient (z : Vec (1 + 0)) : IsGradient (fun z => stacked (n := 1) (m := 0) (fun x _ => x 0 * x 0) z)
    (fun _ => 2 * z 0) z := by
  have h0 := IsGradient.coord (0 : Fin (1 + 0)) z
  refine (h0.mul h0).congr ?_
  funext j
  fin_cases j
  simp; ring

theorem sq_hessian (c : ℝ) (x : Vec 1) (u : Vec 0) : IsVHP (fun x (_ : Vec 0) (_ : Fin 1) => x 0 * x 0) ![c]
    (Matrix.of fun _ _ => 2 * c) x u := by
  refine ⟨fun z _ => c * (2 * z 0), Filter.Eventually.of_forall fun z => ?_, fun i => ?_⟩
  · refine IsGradient.congr (g := c • fun _ => 2 * z 0) ?_ (by funext j; simp)
    have := (sq_gradient z).smul c
    simpa [stacked] using this
  · refine (((IsGradient.coord (0 : Fin (1 + 0)) (Fin.append x u)).smul 2).smul c).congr ?_
    funext j
    fin_cases j; fin_cases i
    simp; ring

/-- **C46, vector-Hessian products of slices: wrong.**  For `x²` and the slice that keeps it, the products of the wrapped
function are right, but after the call the slice's data report zero, and so do those of the wrapped function, instead of
`2 λ`. -/
theorem C46_slice_vhp_wrong (x : Vec 1) (u : Vec 0) (l : List ℝ) :
    (∀ (c : ℝ) d, IsVHP (fun x (_ : Vec 0) (_ : Fin 1) => x 0 * x 0) ![c] (sq.computeVHP x u [c] d).vhp x u) ∧
    ∃ e : SData 1 0 1 1, sliceVHP sq (fun _ => 0) x u [1] (SData.new FData.new l) = some e ∧
      ¬ IsVHP (fun x (_ : Vec 0) (_ : Fin 1) => x 0 * x 0) (scatter (r := 1) (fun _ => 0) ![1]) e.vhp x u ∧
      ¬ IsVHP (fun x (_ : Vec 0) (_ : Fin 1) => x 0 * x 0) (scatter (r := 1) (fun _ => 0) ![1]) e.sub.vhp x u := by
  refine ⟨fun c d => ?_, ?_⟩
  · have := sq_hessian c x u
    simpa [sq] using this
  · refine ⟨_, rfl, ?_, ?_⟩
    · intro h
      have hs : (scatter (r := 1) (k := 1) (fun _ => 0) ![1]) = ![1] := by funext i; fin_cases i; simp [scatter]
      rw [hs] at h
      have := congrFun (congrFun (IsHessian.unique h (sq_hessian 1 x u)) 0) 0
      simp [SData.new, FData.new] at this
    · intro h
      have hs : (scatter (r := 1) (k := 1) (fun _ => 0) ![1]) = ![1] := by funext i; fin_cases i; simp [scatter]
      rw [hs] at h
      have := congrFun (congrFun (IsHessian.unique h (sq_hessian 1 x u)) 0) 0
      simp [sq] at this

theorem vhp_loop_none (idx : Fin k → ℤ) (l : List (Fin k)) (v : List ℝ) (j : Fin k) (hj : j ∈ l)
    (hi : ¬ (0 ≤ idx j ∧ idx j < v.length)) : l.foldlM (fun v j => set? v (idx j) 0) v = none := by
  induction l generalizing v with
  | nil => simp at hj
  | cons i l ih =>
    rw [List.foldlM_cons]
    by_cases hv : 0 ≤ idx i ∧ idx i < v.length
    · have hji : j ∈ l := by
        rcases List.mem_cons.1 hj with e | e
        · subst e; exact absurd hv hi
        · exact e
      rw [set?, if_pos hv]
      exact ih _ hji (by simpa using hi)
    · rw [set?, if_neg hv]; rfl

/-- **C46, vector-Hessian products of slices: out of range.**  Called with one multiplier per selected output, as the
solvers do, a slice that selects any output of index at least the number of selected outputs writes out of range. -/
theorem C46_slice_vhp_range (f : Fun a n m r) (idx : Fin k → ℤ) (x : Vec a) (u : Vec m) (lbda : List ℝ)
    (hl : lbda.length = k) (d : SData n m r k) (j : Fin k) (hj : (k : ℤ) ≤ idx j) : sliceVHP f idx x u lbda d = none := by
  simp only [sliceVHP]
  rw [vhp_loop_none idx _ lbda j (List.mem_finRange j) (by omega)]
  rfl

/-- The slice of the third of three outputs, with one multiplier. -/
example (f : Fun a n m 3) (x : Vec a) (u : Vec m) (d : SData n m 3 1) : sliceVHP f (fun _ => 2) x u [5] d = none :=
  C46_slice_vhp_range f _ x u [5] rfl d 0 (by norm_num)

/-- Repeated and permuted indices of a function with three outputs. -/
example (F : Vec a → Vec m → Vec 3) (x : Vec a) (u : Vec m) (d : SData n m 3 3) :
    let f : Fun a n m 3 := ⟨fun x u d => { d with value := F x u }, fun _ _ d => d, fun _ _ _ d => d⟩
    ∃ e, sliceEvaluate f ![2, 0, 2] x u d = some e ∧ e.value = ![F x u 2, F x u 0, F x u 2] := by
  intro f
  have hv : Valid 3 ![(2 : ℤ), 0, 2] := by intro j; fin_cases j <;> simp
  obtain ⟨e, h1, h2, -⟩ := C46_slice_value f F x u (fun _ => rfl) _ hv d
  refine ⟨e, h1, ?_⟩
  funext j
  rw [h2 j]
  fin_cases j <;> rfl

/-! ### Affine compositions -/

/-- **C46, compositions.**  The constructor throws exactly when the sizes do not fit; on any data the value is `A F + b`, the
Jacobian is `A J`, and it is the derivative of the composition when `J` is that of `F`. -/
theorem C46_compose (f : Fun n n m r) (F : Vec n → Vec m → Vec r) (x : Vec n) (u : Vec m)
    (hv : ∀ d, (f.evaluate x u d).value = F x u)
    (hJ : ∀ d, IsJacobian (stacked F) (f.computeJacobians x u d).jac (Fin.append x u)) (A : Mat k r) (b : Vec k)
    (d : LData n m r k) :
    (composeEvaluate f A b x u d).value = (fun i => A i ⬝ᵥ F x u + b i) ∧
    (composeJacobians f A x u d).jac = A * (f.computeJacobians x u d.sub).jac ∧
    IsJacobian (stacked fun x u => A *ᵥ F x u + b) (composeJacobians f A x u d).jac (Fin.append x u) ∧
    ∀ rowsA rowsb colsA nr, composeThrows rowsA rowsb colsA nr = false ↔ rowsA = rowsb ∧ colsA = nr := by
  refine ⟨?_, rfl, ?_, fun _ _ _ _ => by simp [composeThrows]⟩
  · funext i
    simp [composeEvaluate, hv, Matrix.mulVec, add_comm]
  · refine (((hJ d.sub).mulVec A).add (IsJacobian.const b _)).congr ?_
    simp [composeJacobians]

/-- **C46, vector-Hessian products of compositions: wrong.**  They are those of a function that does nothing: for the
identity composition of `x²` the reported product stays zero. -/
theorem C46_compose_vhp_wrong (x : Vec 1) (u : Vec 0) (sub : FData 1 0 1) :
    let d : LData 1 0 1 1 := { (FData.new : FData 1 0 1) with sub := sub }
    ¬ IsVHP (fun x u => (1 : Mat 1 1) *ᵥ (fun (x : Vec 1) (_ : Vec 0) (_ : Fin 1) => x 0 * x 0) x u + 0) ![1]
      (composeVHP d).vhp x u := by
  intro d h
  have h' : IsVHP (fun x (_ : Vec 0) (_ : Fin 1) => x 0 * x 0) ![1] (composeVHP d).vhp x u := by
    simpa using h
  have := congrFun (congrFun (IsHessian.unique h' (sq_hessian 1 x u)) 0) 0
  simp [composeVHP, d, FData.new] at this

/-- A case: `x²` satisfies the hypotheses. -/
example (x : Vec 1) (u : Vec 0) (d : LData 1 0 1 2) :
    (composeEvaluate sq !![2; 3] ![1, 1] x u d).value = ![2 * (x 0 * x 0) + 1, 3 * (x 0 * x 0) + 1] := by
  rw [(C46_compose sq (fun x _ _ => x 0 * x 0) x u (fun _ => rfl) (fun d i => by
    fin_cases i
    refine (sq_gradient (Fin.append x u)).congr ?_
    funext j; fin_cases j
    rfl) !![2; 3] ![1, 1] d).1]
  funext i
  fin_cases i <;> simp [dotProduct]

/-! ### Direct sums -/

variable {a₁ a₂ n₁ n₂ m₁ m₂ : ℕ}

@[simp] theorem setTl_setHd (v : Vec (a₁ + a₂)) (w₁ : Vec a₁) (w₂ : Vec a₂) : setTl (setHd v w₁) w₂ = Fin.append w₁ w₂ := by
  unfold setTl setHd
  congr 1
  funext i; simp [hd]

theorem diag_castAdd (A : Mat n₁ m₁) (B : Mat n₂ m₂) (i : Fin n₁) : Spec.diag A B (Fin.castAdd n₂ i) = Fin.append (A i) 0 := by
  unfold Spec.diag blocks
  exact Fin.append_left _ _ i

theorem diag_natAdd (A : Mat n₁ m₁) (B : Mat n₂ m₂) (i : Fin n₂) : Spec.diag A B (Fin.natAdd n₁ i) = Fin.append 0 (B i) := by
  unfold Spec.diag blocks
  exact Fin.append_right _ _ i

theorem setBR_setTL (M : Mat (n₁ + n₂) (m₁ + m₂)) (A : Mat n₁ m₁) (B : Mat n₂ m₂)
    (h1 : ∀ i j, M (Fin.castAdd n₂ i) (Fin.natAdd m₁ j) = 0) (h2 : ∀ i j, M (Fin.natAdd n₁ i) (Fin.castAdd m₂ j) = 0) :
    setBR (setTL M A) B = Spec.diag A B := by
  funext i j
  refine Fin.addCases (fun i => ?_) (fun i => ?_) i
  · have : Spec.diag A B (Fin.castAdd n₂ i) = Fin.append (A i) 0 := diag_castAdd A B i
    rw [this]
    refine Fin.addCases (fun j => ?_) (fun j => ?_) j <;> simp [setBR, setTL, h1]
  · have : Spec.diag A B (Fin.natAdd n₁ i) = Fin.append 0 (B i) := diag_natAdd A B i
    rw [this]
    refine Fin.addCases (fun j => ?_) (fun j => ?_) j <;> simp [setBR, setTL, h2]

/-- The calls the first component sees. -/
def CCall.left : CCall (a₁ + a₂) (m₁ + m₂) → CCall a₁ m₁
  | .value x u => .value (fst x) (fst u)
  | .grad x u => .grad (fst x) (fst u)
  | .hess x u => .hess (fst x) (fst u)

/-- The calls the second component sees. -/
def CCall.right : CCall (a₁ + a₂) (m₁ + m₂) → CCall a₂ m₂
  | .value x u => .value (snd x) (snd u)
  | .grad x u => .grad (snd x) (snd u)
  | .hess x u => .hess (snd x) (snd u)

/-- **C47, components.**  Whatever the calling history, the data of each component are those it would have if it were called
alone, on its own block of state and control. -/
theorem C47_components (c₁ : Cost a₁ n₁ m₁) (c₂ : Cost a₂ n₂ m₂) (cs : List (CCall (a₁ + a₂) (m₁ + m₂)))
    (d : DData c₁ c₂) :
    let e : DData c₁ c₂ := cs.foldl (directSum c₁ c₂).call d
    e.data1 = (cs.map CCall.left).foldl c₁.call d.data1 ∧ e.data2 = (cs.map CCall.right).foldl c₂.call d.data2 := by
  induction cs generalizing d with
  | nil => exact ⟨rfl, rfl⟩
  | cons c cs ih =>
    have := ih ((directSum c₁ c₂).call d c)
    cases c with
    | value x u => exact this
    | grad x u => exact this
    | hess x u => exact this

/-- **C47, value and gradients.**  On any data the value is the sum and the gradients are the stacked gradients of the
components. -/
theorem C47_value_gradient (c₁ : Cost a₁ n₁ m₁) (c₂ : Cost a₂ n₂ m₂) (x : Vec (a₁ + a₂)) (u : Vec (m₁ + m₂))
    (d : DData c₁ c₂) :
    (sumEvaluate c₁ c₂ x u d).value =
      (c₁.base (c₁.evaluate (fst x) (fst u) d.data1)).value + (c₂.base (c₂.evaluate (snd x) (snd u) d.data2)).value ∧
    (sumGradients c₁ c₂ x u d).Lx = Fin.append (c₁.base (c₁.computeGradients (fst x) (fst u) d.data1)).Lx
      (c₂.base (c₂.computeGradients (snd x) (snd u) d.data2)).Lx ∧
    (sumGradients c₁ c₂ x u d).Lu = Fin.append (c₁.base (c₁.computeGradients (fst x) (fst u) d.data1)).Lu
      (c₂.base (c₂.computeGradients (snd x) (snd u) d.data2)).Lu := by
  refine ⟨rfl, ?_, ?_⟩
  · simp only [sumGradients, setTl_setHd]; rfl
  · simp only [sumGradients, setTl_setHd]; rfl

/-- No cross terms in the Hessians of a direct sum. -/
def NoCross (d : CData (n₁ + n₂) (m₁ + m₂)) : Prop :=
  (∀ i j, d.Lxx (Fin.castAdd n₂ i) (Fin.natAdd n₁ j) = 0 ∧ d.Lxx (Fin.natAdd n₁ j) (Fin.castAdd n₂ i) = 0) ∧
  (∀ i j, d.Luu (Fin.castAdd m₂ i) (Fin.natAdd m₁ j) = 0 ∧ d.Luu (Fin.natAdd m₁ j) (Fin.castAdd m₂ i) = 0) ∧
  (∀ i j, d.Lxu (Fin.castAdd n₂ i) (Fin.natAdd m₁ j) = 0) ∧ (∀ i j, d.Lxu (Fin.natAdd n₁ i) (Fin.castAdd m₂ j) = 0)

theorem diag_transpose (A : Mat n₁ m₁) (B : Mat n₂ m₂) : (Spec.diag A B)ᵀ = Spec.diag Aᵀ Bᵀ := by
  funext i j
  show Spec.diag A B j i = _
  refine Fin.addCases (fun i => ?_) (fun i => ?_) i <;> refine Fin.addCases (fun j => ?_) (fun j => ?_) j <;>
    simp [diag_castAdd, diag_natAdd]

theorem diag_apply_cross (A : Mat n₁ m₁) (B : Mat n₂ m₂) :
    (∀ i j, Spec.diag A B (Fin.castAdd n₂ i) (Fin.natAdd m₁ j) = 0) ∧
    (∀ i j, Spec.diag A B (Fin.natAdd n₁ i) (Fin.castAdd m₂ j) = 0) := by
  refine ⟨fun i j => ?_, fun i j => ?_⟩
  · have : Spec.diag A B (Fin.castAdd n₂ i) = Fin.append (A i) 0 := diag_castAdd A B i
    rw [this]; simp
  · have : Spec.diag A B (Fin.natAdd n₁ i) = Fin.append 0 (B i) := diag_natAdd A B i
    rw [this]; simp

theorem hess_blocks (c₁ : Cost a₁ n₁ m₁) (c₂ : Cost a₂ n₂ m₂) (x : Vec (a₁ + a₂)) (u : Vec (m₁ + m₂)) (d : DData c₁ c₂)
    (h : NoCross d.toCData) :
    let e := sumHessians c₁ c₂ x u d
    let d1 := c₁.base (c₁.computeHessians (fst x) (fst u) d.data1)
    let d2 := c₂.base (c₂.computeHessians (snd x) (snd u) d.data2)
    e.Lxx = Spec.diag d1.Lxx d2.Lxx ∧ e.Luu = Spec.diag d1.Luu d2.Luu ∧ e.Lxu = Spec.diag d1.Lxu d2.Lxu ∧ e.Lux = e.Lxuᵀ :=
  ⟨setBR_setTL _ _ _ (fun i j => (h.1 i j).1) (fun i j => (h.1 j i).2),
    setBR_setTL _ _ _ (fun i j => (h.2.1 i j).1) (fun i j => (h.2.1 j i).2),
    setBR_setTL _ _ _ h.2.2.1 h.2.2.2, rfl⟩

/-- **C47, Hessians.**  From new data, after any history, the Hessian blocks are block diagonal: the blocks of the components
and no cross terms. -/
theorem C47_hessian (c₁ : Cost a₁ n₁ m₁) (c₂ : Cost a₂ n₂ m₂) (cs : List (CCall (a₁ + a₂) (m₁ + m₂))) (d1 : c₁.Data)
    (d2 : c₂.Data) (x : Vec (a₁ + a₂)) (u : Vec (m₁ + m₂)) :
    let d : DData c₁ c₂ := cs.foldl (directSum c₁ c₂).call (DData.new c₁ c₂ d1 d2)
    NoCross d.toCData ∧
    let e := sumHessians c₁ c₂ x u d
    let e1 := c₁.base (c₁.computeHessians (fst x) (fst u) d.data1)
    let e2 := c₂.base (c₂.computeHessians (snd x) (snd u) d.data2)
    e.Lxx = Spec.diag e1.Lxx e2.Lxx ∧ e.Luu = Spec.diag e1.Luu e2.Luu ∧ e.Lxu = Spec.diag e1.Lxu e2.Lxu ∧ e.Lux = e.Lxuᵀ := by
  have key : ∀ (cs : List (CCall (a₁ + a₂) (m₁ + m₂))) (d : DData c₁ c₂), NoCross d.toCData →
      NoCross (cs.foldl (directSum c₁ c₂).call d : DData c₁ c₂).toCData := by
    intro cs
    induction cs with
    | nil => exact fun d h => h
    | cons c cs ih =>
      intro d h
      refine ih ((directSum c₁ c₂).call d c) ?_
      cases c with
      | value x u => exact h
      | grad x u => exact h
      | hess x u =>
        obtain ⟨h1, h2, h3, -⟩ := hess_blocks c₁ c₂ x u d h
        refine ⟨fun i j => ?_, fun i j => ?_, fun i j => ?_, fun i j => ?_⟩
        · show (sumHessians c₁ c₂ x u d).Lxx _ _ = 0 ∧ (sumHessians c₁ c₂ x u d).Lxx _ _ = 0
          rw [h1]; exact ⟨(diag_apply_cross _ _).1 i j, (diag_apply_cross _ _).2 j i⟩
        · show (sumHessians c₁ c₂ x u d).Luu _ _ = 0 ∧ (sumHessians c₁ c₂ x u d).Luu _ _ = 0
          rw [h2]; exact ⟨(diag_apply_cross _ _).1 i j, (diag_apply_cross _ _).2 j i⟩
        · show (sumHessians c₁ c₂ x u d).Lxu _ _ = 0
          rw [h3]; exact (diag_apply_cross _ _).1 i j
        · show (sumHessians c₁ c₂ x u d).Lxu _ _ = 0
          rw [h3]; exact (diag_apply_cross _ _).2 i j
  have h0 : NoCross (DData.new c₁ c₂ d1 d2).toCData :=
    ⟨fun _ _ => ⟨rfl, rfl⟩, fun _ _ => ⟨rfl, rfl⟩, fun _ _ => rfl, fun _ _ => rfl⟩
  intro d
  exact ⟨key cs _ h0, hess_blocks c₁ c₂ x u d (key cs _ h0)⟩

/-! ### Derivatives of direct sums -/

/-- The block of the first component in the stacked variable of the sum. -/
def part1 (z : Vec ((n₁ + n₂) + (m₁ + m₂))) : Vec (n₁ + m₁) := Fin.append (fst (fst z)) (fst (snd z))

/-- The block of the second component. -/
def part2 (z : Vec ((n₁ + n₂) + (m₁ + m₂))) : Vec (n₂ + m₂) := Fin.append (snd (fst z)) (snd (snd z))

/-- `part1` as a linear map. -/
noncomputable def part1L : (Vec ((n₁ + n₂) + (m₁ + m₂))) →L[ℝ] Vec (n₁ + m₁) :=
  LinearMap.toContinuousLinearMap
    { toFun := part1
      map_add' := fun a b => by
        funext i; refine Fin.addCases (fun i => ?_) (fun i => ?_) i <;> simp [part1, fst, snd]
      map_smul' := fun c a => by
        funext i; refine Fin.addCases (fun i => ?_) (fun i => ?_) i <;> simp [part1, fst, snd] }

/-- `part2` as a linear map. -/
noncomputable def part2L : (Vec ((n₁ + n₂) + (m₁ + m₂))) →L[ℝ] Vec (n₂ + m₂) :=
  LinearMap.toContinuousLinearMap
    { toFun := part2
      map_add' := fun a b => by
        funext i; refine Fin.addCases (fun i => ?_) (fun i => ?_) i <;> simp [part2, fst, snd]
      map_smul' := fun c a => by
        funext i; refine Fin.addCases (fun i => ?_) (fun i => ?_) i <;> simp [part2, fst, snd] }

theorem embed1 {φ : Vec (n₁ + m₁) → ℝ} {gx : Vec n₁} {gu : Vec m₁} {z : Vec ((n₁ + n₂) + (m₁ + m₂))}
    (h : IsGradient φ (Fin.append gx gu) (part1 z)) :
    IsGradient (fun z => φ (part1 z)) (Fin.append (Fin.append gx 0) (Fin.append gu 0)) z := by
  have hd : HasFDerivAt (part1 (n₁ := n₁) (n₂ := n₂) (m₁ := m₁) (m₂ := m₂)) part1L z := part1L.hasFDerivAt
  have e : form (Fin.append (Fin.append gx 0) (Fin.append gu 0)) = (form (Fin.append gx gu)).comp
      (part1L (n₁ := n₁) (n₂ := n₂) (m₁ := m₁) (m₂ := m₂)) := by
    refine ContinuousLinearMap.ext fun v => ?_
    rw [ContinuousLinearMap.comp_apply, form_apply, form_apply]
    show _ = Fin.append gx gu ⬝ᵥ part1 v
    simp [dotProduct, Fin.sum_univ_add, part1, fst, snd]
  unfold IsGradient
  rw [e]
  exact HasFDerivAt.comp z h hd

theorem embed2 {φ : Vec (n₂ + m₂) → ℝ} {gx : Vec n₂} {gu : Vec m₂} {z : Vec ((n₁ + n₂) + (m₁ + m₂))}
    (h : IsGradient φ (Fin.append gx gu) (part2 z)) :
    IsGradient (fun z => φ (part2 z)) (Fin.append (Fin.append 0 gx) (Fin.append 0 gu)) z := by
  have hd : HasFDerivAt (part2 (n₁ := n₁) (n₂ := n₂) (m₁ := m₁) (m₂ := m₂)) part2L z := part2L.hasFDerivAt
  have e : form (Fin.append (Fin.append 0 gx) (Fin.append 0 gu)) = (form (Fin.append gx gu)).comp
      (part2L (n₁ := n₁) (n₂ := n₂) (m₁ := m₁) (m₂ := m₂)) := by
    refine ContinuousLinearMap.ext fun v => ?_
    rw [ContinuousLinearMap.comp_apply, form_apply, form_apply]
    show _ = Fin.append gx gu ⬝ᵥ part2 v
    simp [dotProduct, Fin.sum_univ_add, part2, fst, snd]
  unfold IsGradient
  rw [e]
  exact HasFDerivAt.comp z h hd

theorem part1_append (x : Vec (n₁ + n₂)) (u : Vec (m₁ + m₂)) : part1 (Fin.append x u) = Fin.append (fst x) (fst u) := by
  simp [part1]

theorem part2_append (x : Vec (n₁ + n₂)) (u : Vec (m₁ + m₂)) : part2 (Fin.append x u) = Fin.append (snd x) (snd u) := by
  simp [part2]

theorem stacked_sumFun (l₁ : Vec n₁ → Vec m₁ → ℝ) (l₂ : Vec n₂ → Vec m₂ → ℝ) :
    stacked (sumFun l₁ l₂) = fun z => stacked l₁ (part1 z) + stacked l₂ (part2 z) := by
  funext z
  simp [stacked, sumFun, part1, part2]

theorem sum_gradient (l₁ : Vec (n₁ + m₁) → ℝ) (l₂ : Vec (n₂ + m₂) → ℝ) (g₁ : Vec (n₁ + m₁)) (g₂ : Vec (n₂ + m₂))
    (z : Vec ((n₁ + n₂) + (m₁ + m₂))) (h₁ : IsGradient l₁ g₁ (part1 z)) (h₂ : IsGradient l₂ g₂ (part2 z)) :
    IsGradient (fun z => l₁ (part1 z) + l₂ (part2 z))
      (Fin.append (Fin.append (fst g₁) (fst g₂)) (Fin.append (snd g₁) (snd g₂))) z := by
  rw [← append_fst_snd g₁] at h₁
  rw [← append_fst_snd g₂] at h₂
  refine ((embed1 h₁).add (embed2 h₂)).congr ?_
  rw [append_add, append_add, append_add]
  simp

theorem blocks_castAdd {p q : ℕ} (A : Mat n p) (B : Mat n q) (C : Mat m p) (D : Mat m q) (i : Fin n) :
    blocks A B C D (Fin.castAdd m i) = Fin.append (A i) (B i) := by
  unfold blocks; exact Fin.append_left _ _ i

theorem blocks_natAdd {p q : ℕ} (A : Mat n p) (B : Mat n q) (C : Mat m p) (D : Mat m q) (i : Fin m) :
    blocks A B C D (Fin.natAdd n i) = Fin.append (C i) (D i) := by
  unfold blocks; exact Fin.append_right _ _ i

/-- **C47, derivatives of direct sums of costs.**  When the components report the value, gradient and Hessian of `l₁` and
`l₂` (at the blocks of the point), the direct sum, from new data and after any history, reports those of
`l₁(x₁, u₁) + l₂(x₂, u₂)`. -/
theorem C47_cost_derivatives (c₁ : Cost n₁ n₁ m₁) (c₂ : Cost n₂ n₂ m₂) (l₁ : Vec n₁ → Vec m₁ → ℝ) (l₂ : Vec n₂ → Vec m₂ → ℝ)
    (x : Vec (n₁ + n₂)) (u : Vec (m₁ + m₂))
    (hv₁ : ∀ d, (c₁.base (c₁.evaluate (fst x) (fst u) d)).value = l₁ (fst x) (fst u))
    (hv₂ : ∀ d, (c₂.base (c₂.evaluate (snd x) (snd u) d)).value = l₂ (snd x) (snd u))
    (hg₁ : ∀ d, let e := c₁.base (c₁.computeGradients (fst x) (fst u) d); IsGradient₂ l₁ e.Lx e.Lu (fst x) (fst u))
    (hg₂ : ∀ d, let e := c₂.base (c₂.computeGradients (snd x) (snd u) d); IsGradient₂ l₂ e.Lx e.Lu (snd x) (snd u))
    (hH₁ : ∀ d, let e := c₁.base (c₁.computeHessians (fst x) (fst u) d);
      IsHessian₂ l₁ e.Lxx e.Lxu e.Lxuᵀ e.Luu (fst x) (fst u))
    (hH₂ : ∀ d, let e := c₂.base (c₂.computeHessians (snd x) (snd u) d);
      IsHessian₂ l₂ e.Lxx e.Lxu e.Lxuᵀ e.Luu (snd x) (snd u))
    (cs : List (CCall (n₁ + n₂) (m₁ + m₂))) (d1 : c₁.Data) (d2 : c₂.Data) :
    let d : DData c₁ c₂ := cs.foldl (directSum c₁ c₂).call (DData.new c₁ c₂ d1 d2)
    (sumEvaluate c₁ c₂ x u d).value = sumFun l₁ l₂ x u ∧
    (let e := sumGradients c₁ c₂ x u d; IsGradient₂ (sumFun l₁ l₂) e.Lx e.Lu x u) ∧
    (let e := sumHessians c₁ c₂ x u d; IsHessian₂ (sumFun l₁ l₂) e.Lxx e.Lxu e.Lux e.Luu x u) := by
  intro d
  obtain ⟨h1, h2, h3⟩ := C47_value_gradient c₁ c₂ x u d
  refine ⟨by rw [h1, hv₁, hv₂]; rfl, ?_, ?_⟩
  · intro e
    unfold IsGradient₂
    rw [stacked_sumFun]
    have H₁ := hg₁ d.data1
    have H₂ := hg₂ d.data2
    dsimp only [IsGradient₂] at H₁ H₂
    rw [← part1_append] at H₁
    rw [← part2_append] at H₂
    refine (sum_gradient _ _ _ _ _ H₁ H₂).congr ?_
    simp only [fst_append, snd_append]
    rw [h2, h3]
  · obtain ⟨-, e1, e2, e3, e4⟩ := C47_hessian c₁ c₂ cs d1 d2 x u
    intro e
    unfold IsHessian₂
    rw [stacked_sumFun]
    obtain ⟨g₁, hg₁, hJ₁⟩ := hH₁ d.data1
    obtain ⟨g₂, hg₂, hJ₂⟩ := hH₂ d.data2
    rw [← part1_append] at hg₁ hJ₁
    rw [← part2_append] at hg₂ hJ₂
    have c1 : ContinuousAt (part1 (n₁ := n₁) (n₂ := n₂) (m₁ := m₁) (m₂ := m₂)) (Fin.append x u) :=
      part1L.continuous.continuousAt
    have c2 : ContinuousAt (part2 (n₁ := n₁) (n₂ := n₂) (m₁ := m₁) (m₂ := m₂)) (Fin.append x u) :=
      part2L.continuous.continuousAt
    refine ⟨fun z => Fin.append (Fin.append (fst (g₁ (part1 z))) (fst (g₂ (part2 z))))
      (Fin.append (snd (g₁ (part1 z))) (snd (g₂ (part2 z)))), ?_, ?_⟩
    · filter_upwards [c1.eventually hg₁, c2.eventually hg₂] with z hz1 hz2
      exact sum_gradient _ _ _ _ z hz1 hz2
    · have E1 : e.Lxx = _ := e1
      have E2 : e.Luu = _ := e2
      have E3 : e.Lxu = _ := e3
      have E4 : e.Lux = _ := e4
      intro i
      refine Fin.addCases (fun i => ?_) (fun i => ?_) i
      · rw [blocks_castAdd, E1, E3]
        refine Fin.addCases (fun i => ?_) (fun i => ?_) i
        · rw [diag_castAdd, diag_castAdd]
          have := hJ₁ (Fin.castAdd m₁ i)
          rw [blocks_castAdd] at this
          simpa [fst] using embed1 this
        · rw [diag_natAdd, diag_natAdd]
          have := hJ₂ (Fin.castAdd m₂ i)
          rw [blocks_castAdd] at this
          simpa [fst] using embed2 this
      · rw [blocks_natAdd, E2, E4, E3]
        refine Fin.addCases (fun i => ?_) (fun i => ?_) i
        · have := hJ₁ (Fin.natAdd n₁ i)
          rw [blocks_natAdd] at this
          rw [diag_castAdd, diag_transpose, diag_castAdd]
          simpa [snd] using embed1 this
        · have := hJ₂ (Fin.natAdd n₂ i)
          rw [blocks_natAdd] at this
          rw [diag_natAdd, diag_transpose, diag_natAdd]
          simpa [snd] using embed2 this

/-! ### Direct sums of dynamics -/

/-- The calls the first component sees. -/
def DCall.left : DCall (a₁ + a₂) (m₁ + m₂) → DCall a₁ m₁
  | .forward x u => .forward (fst x) (fst u)
  | .dForward x u => .dForward (fst x) (fst u)

/-- The calls the second component sees. -/
def DCall.right : DCall (a₁ + a₂) (m₁ + m₂) → DCall a₂ m₂
  | .forward x u => .forward (snd x) (snd u)
  | .dForward x u => .dForward (snd x) (snd u)

/-- **C47, dynamics: components.**  As for costs. -/
theorem C47_dyn_components (f : Dyn a₁ n₁ m₁) (g : Dyn a₂ n₂ m₂) (cs : List (DCall (a₁ + a₂) (m₁ + m₂))) (d : DDData f g) :
    let e : DDData f g := cs.foldl (directSumDyn f g).call d
    e.data1 = (cs.map DCall.left).foldl f.call d.data1 ∧ e.data2 = (cs.map DCall.right).foldl g.call d.data2 := by
  induction cs generalizing d with
  | nil => exact ⟨rfl, rfl⟩
  | cons c cs ih =>
    have := ih ((directSumDyn f g).call d c)
    cases c with
    | forward x u => exact this
    | dForward x u => exact this

/-- **C47, dynamics: next state.**  On any data, the next states of the components stacked; the Jacobians stay. -/
theorem C47_dyn_forward (f : Dyn a₁ n₁ m₁) (g : Dyn a₂ n₂ m₂) (x : Vec (a₁ + a₂)) (u : Vec (m₁ + m₂)) (d : DDData f g) :
    (sumForward f g x u d).xnext = Fin.append (f.base (f.forward (fst x) (fst u) d.data1)).xnext
      (g.base (g.forward (snd x) (snd u) d.data2)).xnext ∧
    (sumForward f g x u d).Jx = d.Jx ∧ (sumForward f g x u d).Ju = d.Ju := by
  refine ⟨?_, rfl, rfl⟩
  simp only [sumForward, setTl_setHd]; rfl

/-- No cross terms in the Jacobians of a direct sum. -/
def NoCrossJ (d : EData (a₁ + a₂) (n₁ + n₂) (m₁ + m₂)) : Prop :=
  (∀ i j, d.Jx (Fin.castAdd n₂ i) (Fin.natAdd n₁ j) = 0) ∧ (∀ i j, d.Jx (Fin.natAdd n₁ i) (Fin.castAdd n₂ j) = 0) ∧
  (∀ i j, d.Ju (Fin.castAdd n₂ i) (Fin.natAdd m₁ j) = 0) ∧ (∀ i j, d.Ju (Fin.natAdd n₁ i) (Fin.castAdd m₂ j) = 0)

theorem jac_blocks (f : Dyn a₁ n₁ m₁) (g : Dyn a₂ n₂ m₂) (x : Vec (a₁ + a₂)) (u : Vec (m₁ + m₂)) (d : DDData f g)
    (h : NoCrossJ d.toEData) :
    let e := sumDForward f g x u d
    let d1 := f.base (f.dForward (fst x) (fst u) d.data1)
    let d2 := g.base (g.dForward (snd x) (snd u) d.data2)
    e.Jx = Spec.diag d1.Jx d2.Jx ∧ e.Ju = Spec.diag d1.Ju d2.Ju :=
  ⟨setBR_setTL _ _ _ h.1 h.2.1, setBR_setTL _ _ _ h.2.2.1 h.2.2.2⟩

/-- **C47, dynamics: Jacobians.**  From new data, after any history, the Jacobians are block diagonal. -/
theorem C47_dyn_jacobians (f : Dyn a₁ n₁ m₁) (g : Dyn a₂ n₂ m₂) (cs : List (DCall (a₁ + a₂) (m₁ + m₂)))
    (x₀ : Vec (a₁ + a₂)) (d1 : f.Data) (d2 : g.Data) (x : Vec (a₁ + a₂)) (u : Vec (m₁ + m₂)) :
    let d : DDData f g := cs.foldl (directSumDyn f g).call (DDData.new f g x₀ d1 d2)
    let e := sumDForward f g x u d
    let e1 := f.base (f.dForward (fst x) (fst u) d.data1)
    let e2 := g.base (g.dForward (snd x) (snd u) d.data2)
    e.Jx = Spec.diag e1.Jx e2.Jx ∧ e.Ju = Spec.diag e1.Ju e2.Ju ∧ e.xnext = d.xnext := by
  have key : ∀ (cs : List (DCall (a₁ + a₂) (m₁ + m₂))) (d : DDData f g), NoCrossJ d.toEData →
      NoCrossJ (cs.foldl (directSumDyn f g).call d : DDData f g).toEData := by
    intro cs
    induction cs with
    | nil => exact fun d h => h
    | cons c cs ih =>
      intro d h
      refine ih ((directSumDyn f g).call d c) ?_
      cases c with
      | forward x u => exact h
      | dForward x u =>
        obtain ⟨h1, h2⟩ := jac_blocks f g x u d h
        refine ⟨fun i j => ?_, fun i j => ?_, fun i j => ?_, fun i j => ?_⟩
        · show (sumDForward f g x u d).Jx _ _ = 0
          rw [h1]; exact (diag_apply_cross _ _).1 i j
        · show (sumDForward f g x u d).Jx _ _ = 0
          rw [h1]; exact (diag_apply_cross _ _).2 i j
        · show (sumDForward f g x u d).Ju _ _ = 0
          rw [h2]; exact (diag_apply_cross _ _).1 i j
        · show (sumDForward f g x u d).Ju _ _ = 0
          rw [h2]; exact (diag_apply_cross _ _).2 i j
  have h0 : NoCrossJ (DDData.new f g x₀ d1 d2).toEData := ⟨fun _ _ => rfl, fun _ _ => rfl, fun _ _ => rfl, fun _ _ => rfl⟩
  intro d
  obtain ⟨h1, h2⟩ := jac_blocks f g x u d (key cs _ h0)
  exact ⟨h1, h2, rfl⟩

/-- **C47, derivatives of direct sums of dynamics.**  When the components report the Jacobians of `F` and `G`, the direct
sum, from new data and after any history, reports those of `(F(x₁, u₁), G(x₂, u₂))` (on vector spaces). -/
theorem C47_dyn_derivatives (f : Dyn n₁ n₁ m₁) (g : Dyn n₂ n₂ m₂) (F : Vec n₁ → Vec m₁ → Vec n₁)
    (G : Vec n₂ → Vec m₂ → Vec n₂) (x : Vec (n₁ + n₂)) (u : Vec (m₁ + m₂))
    (hF : ∀ d, let e := f.base (f.dForward (fst x) (fst u) d);
      IsJacobian (stacked F) (fun i => Fin.append (e.Jx i) (e.Ju i)) (Fin.append (fst x) (fst u)))
    (hG : ∀ d, let e := g.base (g.dForward (snd x) (snd u) d);
      IsJacobian (stacked G) (fun i => Fin.append (e.Jx i) (e.Ju i)) (Fin.append (snd x) (snd u)))
    (cs : List (DCall (n₁ + n₂) (m₁ + m₂))) (x₀ : Vec (n₁ + n₂)) (d1 : f.Data) (d2 : g.Data) :
    let d : DDData f g := cs.foldl (directSumDyn f g).call (DDData.new f g x₀ d1 d2)
    let e := sumDForward f g x u d
    IsJacobian (stacked (prodFun F G)) (fun i => Fin.append (e.Jx i) (e.Ju i)) (Fin.append x u) := by
  intro d e
  obtain ⟨e1, e2, -⟩ := C47_dyn_jacobians f g cs x₀ d1 d2 x u
  have E1 : e.Jx = _ := e1
  have E2 : e.Ju = _ := e2
  intro i
  refine Fin.addCases (fun i => ?_) (fun i => ?_) i
  · have := hF d.data1 i
    rw [← part1_append] at this
    have h := embed1 this
    rw [E1, E2]
    dsimp only
    rw [diag_castAdd, diag_castAdd]
    simpa [stacked, prodFun, part1] using h
  · have := hG d.data2 i
    rw [← part2_append] at this
    have h := embed2 this
    rw [E1, E2]
    dsimp only
    rw [diag_natAdd, diag_natAdd]
    simpa [stacked, prodFun, part2] using h

/-! ### Cases -/

/-- The cost `x² + x u` on the line. -/
noncomputable def exCost : Cost 1 1 1 where
  Data := CData 1 1
  base d := d
  evaluate x u d := { d with value := x 0 * x 0 + x 0 * u 0 }
  computeGradients x u d := { d with Lx := fun _ => 2 * x 0 + u 0, Lu := fun _ => x 0 }
  computeHessians _ _ d := { d with Lxx := fun _ _ => 2, Lxu := fun _ _ => 1, Lux := fun _ _ => 1, Luu := fun _ _ => 0 }

theorem exCost_gradient (z : Vec (1 + 1)) :
    IsGradient (stacked (n := 1) (m := 1) fun x u => x 0 * x 0 + x 0 * u 0)
      (Fin.append (fun _ => 2 * fst z 0 + snd z 0) (fun _ => fst z 0)) z := by
  have h0 := IsGradient.coord (Fin.castAdd 1 (0 : Fin 1)) z
  have h1 := IsGradient.coord (Fin.natAdd 1 (0 : Fin 1)) z
  refine ((h0.mul h0).add (h0.mul h1)).congr ?_
  funext j
  fin_cases j
  · simp [Fin.append, Fin.addCases, fst, snd, Pi.single_apply]; ring
  · simp [Fin.append, Fin.addCases, fst, snd, Pi.single_apply]

/-- The hypotheses of `C47_cost_derivatives` hold for two such costs. -/
example (x : Vec (1 + 1)) (u : Vec (1 + 1)) (cs : List (CCall (1 + 1) (1 + 1))) (d1 d2 : CData 1 1) :
    let d : DData exCost exCost := cs.foldl (directSum exCost exCost).call (DData.new exCost exCost d1 d2)
    let e := sumHessians exCost exCost x u d
    IsHessian₂ (sumFun (fun (x u : Vec 1) => x 0 * x 0 + x 0 * u 0) (fun (x u : Vec 1) => x 0 * x 0 + x 0 * u 0))
      e.Lxx e.Lxu e.Lux e.Luu x u := by
  have hg : ∀ (x u : Vec 1), IsGradient₂ (fun (x u : Vec 1) => x 0 * x 0 + x 0 * u 0) (fun _ => 2 * x 0 + u 0)
      (fun _ => x 0) x u := fun x u => by
    have := exCost_gradient (Fin.append x u)
    rw [fst_append, snd_append] at this
    exact this
  have hH : ∀ (x u : Vec 1), IsHessian₂ (fun (x u : Vec 1) => x 0 * x 0 + x 0 * u 0) (Matrix.of fun _ _ => 2) (Matrix.of fun _ _ => 1)
      (Matrix.of fun _ _ => 1) (Matrix.of fun _ _ => 0) x u := fun x u => by
    refine ⟨_, Filter.Eventually.of_forall exCost_gradient, fun i => ?_⟩
    have h0 := IsGradient.coord (Fin.castAdd 1 (0 : Fin 1)) (Fin.append x u)
    have h1 := IsGradient.coord (Fin.natAdd 1 (0 : Fin 1)) (Fin.append x u)
    refine Fin.addCases (fun i => ?_) (fun i => ?_) i
    · rw [blocks_castAdd]
      simp only [Fin.append_left]
      refine ((h0.smul 2).add h1).congr ?_
      funext j; fin_cases j <;> simp [Fin.append, Fin.addCases, Pi.single_apply]
    · rw [blocks_natAdd]
      simp only [Fin.append_right]
      refine h0.congr ?_
      funext j; fin_cases j <;> simp [Fin.append, Fin.addCases, Pi.single_apply]
  exact (C47_cost_derivatives exCost exCost _ _ x u (fun _ => rfl) (fun _ => rfl) (fun _ => hg _ _) (fun _ => hg _ _)
    (fun _ => hH _ _) (fun _ => hH _ _) cs d1 d2).2.2

/-- The dynamics `x + 3 u` on the line. -/
noncomputable def exDyn : Dyn 1 1 1 where
  Data := EData 1 1 1
  base d := d
  forward x u d := { d with xnext := fun _ => x 0 + 3 * u 0 }
  dForward _ _ d := { d with Jx := Matrix.of fun _ _ => 1, Ju := Matrix.of fun _ _ => 3 }

/-- The hypotheses of `C47_dyn_derivatives` hold for two of them. -/
example (x u : Vec (1 + 1)) (cs : List (DCall (1 + 1) (1 + 1))) (x₀ : Vec (1 + 1)) (d1 d2 : EData 1 1 1) :
    let F := fun (x u : Vec 1) (_ : Fin 1) => x 0 + 3 * u 0
    let d : DDData exDyn exDyn := cs.foldl (directSumDyn exDyn exDyn).call (DDData.new exDyn exDyn x₀ d1 d2)
    let e := sumDForward exDyn exDyn x u d
    IsJacobian (stacked (prodFun F F)) (fun i => Fin.append (e.Jx i) (e.Ju i)) (Fin.append x u) := by
  intro F
  have h : ∀ (x u : Vec 1), IsJacobian (stacked F) (fun _ => Fin.append (fun _ => 1) (fun _ => 3)) (Fin.append x u) := by
    intro x u i
    have h0 := IsGradient.coord (Fin.castAdd 1 (0 : Fin 1)) (Fin.append x u)
    have h1 := IsGradient.coord (Fin.natAdd 1 (0 : Fin 1)) (Fin.append x u)
    refine (h0.add (h1.smul 3)).congr ?_
    funext j; fin_cases j <;> simp [Fin.append, Fin.addCases]
  exact C47_dyn_derivatives exDyn exDyn F F x u (fun _ => h _ _) (fun _ => h _ _) cs x₀ d1 d2

end Aligator.Wrap
