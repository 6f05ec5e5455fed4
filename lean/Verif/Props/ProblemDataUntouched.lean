import Verif.Props.ProblemData

/-!
# Properties of the problem data: what the callbacks of the user do not write (C57)
-/

namespace Aligator.PData

variable {nx nu : ℕ → ℕ} {N : ℕ}

theorem calls_induct {M : Model nx nu N} {P : Data M → Prop} (h0 : P (Data.create M)) (hs : ∀ d c, P d → P (step M d c))
    (cs : List (Call nx nu)) : P (calls M cs) := by
  unfold calls
  generalize Data.create M = d at h0 ⊢
  induction cs generalizing d with
  | nil => exact h0
  | cons c cs ih => exact ih _ (hs d c h0)

/-- **C57**  Whatever part `g` of its data a cost does not write (value, a gradient, a block of the Hessian), is zero after
any sequence of calls: the cost does not contribute to it. -/
theorem C57_unwritten_cost (M : Model nx nu N) (cs : List (Call nx nu)) {α : Type} (i : ℕ) (g : CostData (nx i) (nu i) → α)
    (h1 : ∀ x u d, g ((M.cost i).evaluate x u d) = g d) (h2 : ∀ x u d, g ((M.cost i).computeGradients x u d) = g d)
    (h3 : ∀ x u d, g ((M.cost i).computeHessians x u d) = g d) : g ((calls M cs).cost i) = g ⟨0, 0, 0, 0, 0, 0⟩ := by
  refine calls_induct (P := fun d => g (d.cost i) = g ⟨0, 0, 0, 0, 0, 0⟩) rfl (fun d c h => ?_) cs
  cases c with
  | evaluate x u => exact (h1 _ _ _).trans h
  | rollout x u => exact (h1 _ _ _).trans h
  | derivatives x u second =>
    cases second with
    | false => exact (h2 _ _ _).trans h
    | true => exact (h3 _ _ _).trans ((h2 _ _ _).trans h)

/-- **C57**  The same for the terminal cost. -/
theorem C57_unwritten_terminal_cost (M : Model nx nu N) (cs : List (Call nx nu)) {α : Type} (g : CostData (nx N) 0 → α)
    (h1 : ∀ x u d, g (M.termCost.evaluate x u d) = g d) (h2 : ∀ x u d, g (M.termCost.computeGradients x u d) = g d)
    (h3 : ∀ x u d, g (M.termCost.computeHessians x u d) = g d) : g (calls M cs).termCost = g ⟨0, 0, 0, 0, 0, 0⟩ := by
  refine calls_induct (P := fun d => g d.termCost = g ⟨0, 0, 0, 0, 0, 0⟩) rfl (fun d c h => ?_) cs
  cases c with
  | evaluate x u => exact (h1 _ _ _).trans h
  | rollout x u => exact (h1 _ _ _).trans h
  | derivatives x u second =>
    cases second with
    | false => exact (h2 _ _ _).trans h
    | true => exact (h3 _ _ _).trans ((h2 _ _ _).trans h)

/-- **C57**  The same for the constraints of the stages, whose `computeVectorHessianProducts` no solver calls. -/
theorem C57_unwritten_constraint (M : Model nx nu N) (cs : List (Call nx nu)) {α : Type} (i j : ℕ)
    (g : FunData (nx i) (nu i) (M.dim i j) → α) (h1 : ∀ x u d, g ((M.cstr i j).evaluate x u d) = g d)
    (h2 : ∀ x u d, g ((M.cstr i j).computeJacobians x u d) = g d) : g ((calls M cs).cstr i j) = g ⟨0, 0, 0, 0, 0, 0⟩ := by
  refine calls_induct (P := fun d => g (d.cstr i j) = g ⟨0, 0, 0, 0, 0, 0⟩) rfl (fun d c h => ?_) cs
  cases c with
  | evaluate x u => exact (h1 _ _ _).trans h
  | rollout x u => exact (h1 _ _ _).trans h
  | derivatives x u second => exact (h2 _ _ _).trans h

/-- **C57**  The same for the terminal constraints. -/
theorem C57_unwritten_terminal_constraint (M : Model nx nu N) (cs : List (Call nx nu)) {α : Type} (j : ℕ)
    (g : FunData (nx N) 0 (M.dimN j) → α) (h1 : ∀ x u d, g ((M.termCstr j).evaluate x u d) = g d)
    (h2 : ∀ x u d, g ((M.termCstr j).computeJacobians x u d) = g d) : g ((calls M cs).termCstr j) = g ⟨0, 0, 0, 0, 0, 0⟩ := by
  refine calls_induct (P := fun d => g (d.termCstr j) = g ⟨0, 0, 0, 0, 0, 0⟩) rfl (fun d c h => ?_) cs
  cases c with
  | evaluate x u => exact (h1 _ _ _).trans h
  | rollout x u => exact (h1 _ _ _).trans h
  | derivatives x u second => exact (h2 _ _ _).trans h

/-- **C57**  The same for the dynamics, except that the next state starts at the neutral element. -/
theorem C57_unwritten_dynamics (M : Model nx nu N) (cs : List (Call nx nu)) {α : Type} (i : ℕ)
    (g : DynData (nx i) (nu i) (nx (i + 1)) → α) (h1 : ∀ x u d, g ((M.dyn i).forward x u d) = g d)
    (h2 : ∀ x u d, g ((M.dyn i).dForward x u d) = g d) :
    g ((calls M cs).dyn i) = g ⟨(M.dyn i).neutral, 0, 0, 0, 0, 0⟩ := by
  refine calls_induct (P := fun d => g (d.dyn i) = g ⟨(M.dyn i).neutral, 0, 0, 0, 0, 0⟩) rfl (fun d c h => ?_) cs
  cases c with
  | evaluate x u => exact (h1 _ _ _).trans h
  | rollout x u => exact (h1 _ _ _).trans h
  | derivatives x u second => exact (h2 _ _ _).trans h

/-- **C57**  Rollouts do not evaluate the initial condition: after the other calls are left out, its data are the same. -/
theorem C57_rollout_keeps_initial (M : Model nx nu N) (cs : List (Call nx nu)) :
    (calls M cs).init = (calls M (cs.filter fun c => match c with | .rollout _ _ => false | _ => true)).init := by
  unfold calls
  suffices h : ∀ d d' : Data M, d.init = d'.init → (cs.foldl (step M) d).init =
      ((cs.filter fun c => match c with | .rollout _ _ => false | _ => true).foldl (step M) d').init from h _ _ rfl
  induction cs with
  | nil => exact fun d d' h => h
  | cons c cs ih =>
    intro d d' h
    cases c with
    | evaluate x u =>
      rw [List.filter_cons_of_pos rfl]
      exact ih _ _ (congrArg (M.init.evaluate (x 0) 0) h)
    | rollout x u =>
      rw [List.filter_cons_of_neg (by simp)]
      exact ih _ _ h
    | derivatives x u second =>
      rw [List.filter_cons_of_pos rfl]
      exact ih _ _ (congrArg (M.init.computeJacobians (x 0) 0) h)

/-- A cost that writes neither its value nor mixed second derivatives. -/
example (M : Model nx nu N) (i : ℕ) (hM : (M.cost i) = ⟨fun _ _ d => d, fun x _ d => { d with Lx := x },
    fun _ _ d => { d with Lxx := 1 }⟩) (cs : List (Call nx nu)) :
    ((calls M cs).cost i).value = 0 ∧ ((calls M cs).cost i).Lxu = 0 :=
  ⟨C57_unwritten_cost M cs i CostData.value (by simp [hM]) (by simp [hM]) (by simp [hM]),
    C57_unwritten_cost M cs i CostData.Lxu (by simp [hM]) (by simp [hM]) (by simp [hM])⟩

end Aligator.PData
