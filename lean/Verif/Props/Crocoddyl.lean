import Verif.Spec.Crocoddyl
import Verif.Lemmas.Derivatives

/-!
# C65: wrapped Crocoddyl models
-/

namespace Aligator.Croc

open Aligator.Deriv Aligator.Croc.Spec
open PData (FunData FunCB)

variable {a n m : ℕ} {σ : Type}

/-! ### States -/

/-- **C65.** The Jacobians of a wrapped state are the requested ones, whatever was in the buffer. -/
theorem C65_state (S : State a n) (x y : Vec a) (v : Vec n) (J : Mat n n) :
    S.Jintegrate x v J 0 = S.Jint1 x v ∧ S.Jintegrate x v J 1 = S.Jint2 x v ∧
    S.Jdifference x y J 0 = S.Jdiff1 x y ∧ S.Jdifference x y J 1 = S.Jdiff2 x y := ⟨rfl, rfl, rfl, rfl⟩

/-! ### Stages -/

/-- The calls between an evaluation at `(x, u)` and the use of the data: derivatives at this point, second-order calls. -/
def At (x : Vec a) (u : Vec m) : Call a m → Prop
  | .evaluate _ _ => False
  | .first y v => y = x ∧ v = u
  | .second _ _ => True

/-- What the data of a stage must hold after evaluation and derivatives at a point. -/
structure StageOk (S : State a n) (l : Vec a → Vec m → ℝ) (f : Vec a → Vec m → Vec a)
    (H : Vec a → Vec m → Mat n n × Mat n m × Mat m m) (x : Vec a) (u : Vec m) (c : CostData n m) (y : DynData a n m) :
    Prop where
  value : c.value = l x u
  next : y.xnext = f x u
  grad : IsGradient (fun z : Vec (n + m) => l (S.integrate x (fst z)) (u + snd z)) (Fin.append c.Lx c.Lu) 0
  jac : IsJacobian (fun z : Vec (n + m) => S.diff (f x u) (f (S.integrate x (fst z)) (u + snd z)))
    (fun i => Fin.append (y.Jx i) (y.Ju i)) 0
  hess : (c.Lxx, c.Lxu, c.Luu) = H x u

section
variable {S : State a n} {l : Vec a → Vec m → ℝ} {f : Vec a → Vec m → Vec a}
  {H : Vec a → Vec m → Mat n n × Mat n m × Mat m m} {ready : σ → Vec a → Vec m → Prop}

theorem stage_first {s : Stage a n m σ} (hA : ActionLaw S s.action l f H ready) {x : Vec a} {u : Vec m} {d : StageData s}
    (h1 : ready d.croc x u) (h2 : d.cost.value = l x u) (h3 : d.dyn.xnext = f x u) :
    ready (s.firstOrder x u d).croc x u ∧ StageOk S l f H x u (s.firstOrder x u d).cost (s.firstOrder x u d).dyn :=
  ⟨hA.ready_diff _ x u h1, h2, h3, hA.grad _ x u h1, hA.jac _ x u h1, hA.hess _ x u h1⟩

/-- **C65.** A stage made of an action model, with data that has seen any calls: an evaluation at a point and, with any calls
of `computeSecondOrderDerivatives` in between and afterwards, at least one `computeFirstOrderDerivatives` at the same point
leave cost, next state, gradient, dynamics Jacobians and Hessian blocks of the action model at this point. -/
theorem C65_stage (s : Stage a n m σ) (hA : ActionLaw S s.action l f H ready) (cs hs : List (Call a m)) (x : Vec a)
    (u : Vec m) (hh : ∀ c ∈ hs, At x u c) :
    let d := (cs ++ .evaluate x u :: hs).foldl s.call s.createData
    d.cost.value = l x u ∧ d.dyn.xnext = f x u ∧
      (Call.first x u ∈ hs → StageOk S l f H x u d.cost d.dyn) := by
  intro d
  have key : ∀ (hs : List (Call a m)), (∀ c ∈ hs, At x u c) → ∀ d : StageData s, ready d.croc x u → d.cost.value = l x u →
      d.dyn.xnext = f x u → (hs.foldl s.call d).cost.value = l x u ∧ (hs.foldl s.call d).dyn.xnext = f x u ∧
      (StageOk S l f H x u d.cost d.dyn ∨ Call.first x u ∈ hs →
        StageOk S l f H x u (hs.foldl s.call d).cost (hs.foldl s.call d).dyn) := by
    intro hs
    induction hs with
    | nil => intro _ d _ h2 h3; exact ⟨h2, h3, fun h => h.elim id (fun h => by simp at h)⟩
    | cons c hs ih =>
      intro hh d h1 h2 h3
      have hc := hh c List.mem_cons_self
      have hr := fun c' hc' => hh c' (List.mem_cons_of_mem _ hc')
      cases c with
      | evaluate y v => exact hc.elim
      | first y v =>
        obtain ⟨rfl, rfl⟩ := hc
        obtain ⟨g1, g2⟩ := stage_first hA h1 h2 h3
        obtain ⟨k1, k2, k3⟩ := ih hr _ g1 h2 h3
        exact ⟨k1, k2, fun _ => k3 (Or.inl g2)⟩
      | second y v =>
        obtain ⟨k1, k2, k3⟩ := ih hr d h1 h2 h3
        refine ⟨k1, k2, fun h => k3 (h.imp_right fun h => ?_)⟩
        simpa using h
  obtain ⟨k1, k2, k3⟩ := key hs hh (s.evaluate x u (cs.foldl s.call s.createData)) (hA.ready_calc _ x u) (hA.cost _ x u)
    (hA.next _ x u)
  have hd : d = hs.foldl s.call (s.evaluate x u (cs.foldl s.call s.createData)) := by
    simp only [d, List.foldl_append, List.foldl_cons]; rfl
  rw [hd]
  exact ⟨k1, k2, fun h => k3 (Or.inr h)⟩

end

/-- **C65.** What is missing, first part: the lower mixed block of the Hessian is zero after any calls, also where the upper
one is not. -/
theorem C65_lower_block_zero (s : Stage a n m σ) (cs : List (Call a m)) : (cs.foldl s.call s.createData).cost.Lux = 0 := by
  have : ∀ d : StageData s, (cs.foldl s.call d).cost.Lux = d.cost.Lux := by
    induction cs with
    | nil => intro d; rfl
    | cons c cs ih => intro d; rw [List.foldl_cons, ih]; cases c <;> rfl
  exact this _

/-- **C65.** What is missing, second part: constraints can be added to a wrapped stage, but after any calls their data is as
created: they are never evaluated. -/
theorem C65_constraints_ignored (s s' : Stage a n m σ) (f : Fun n) (h : s.addConstraint f = some s') (cs : List (Call a m)) :
    s'.constraints = s.constraints ++ [f] ∧ (cs.foldl s'.call s'.createData).cstr = fun _ => .create := by
  constructor
  · unfold Stage.addConstraint at h
    split at h
    · simp at h
    · simp at h; rw [← h]
  · have : ∀ d : StageData s', (cs.foldl s'.call d).cstr = d.cstr := by
      induction cs with
      | nil => intro d; rfl
      | cons c cs ih => intro d; rw [List.foldl_cons, ih]; cases c <;> rfl
    exact this _

/-- A constraint function that is one everywhere. -/
def oneFun (n m : ℕ) : Fun n where
  nu := m
  nr := 1
  cb := ⟨fun _ _ d => { d with value := 1 }, fun _ _ d => { d with Jx := 0, Ju := 0 }, fun _ _ _ d => d⟩

/-- **C65.** So a constraint that no point meets is reported as met (`= 0`) at every point, by every wrapped stage. -/
theorem C65_constraint_negation (s : Stage a n m σ) : ∃ s', s.addConstraint (oneFun n m) = some s' ∧
    (∀ (x : Vec n) (u : Vec m) d, ((oneFun n m).cb.evaluate x u d).value = 1) ∧
    ∃ k : Fin s'.constraints.length, s'.constraints[k] = oneFun n m ∧
      ∀ (x : Vec a) (u : Vec m) (j : Fin s'.constraints[k].nr), ((s'.evaluate x u s'.createData).cstr k).value j = 0 := by
  refine ⟨{ s with constraints := s.constraints ++ [oneFun n m] }, by simp [Stage.addConstraint, oneFun], fun _ _ _ => rfl,
    ⟨s.constraints.length, by simp⟩, by simp, fun x u j => rfl⟩

/-- **C65.** What is missing, third part: the dynamics model of a wrapped stage does nothing, so a rollout with it stays at the
zero state. -/
theorem C65_dynamics_negation (S : State a n) (x0 : Vec a) (us : List (Vec m)) :
    rolloutFrom S x0 us = x0 :: List.replicate us.length S.zero := by
  have : ∀ (p : DynData a n m × Vec a × List (Vec a)), (us.foldl (fun (p : DynData a n m × Vec a × List (Vec a)) u =>
      let d := noOpForward p.2.1 u p.1
      (d, d.xnext, p.2.2 ++ [d.xnext])) p).2.2 = p.2.2 ++ List.replicate us.length p.1.xnext := by
    induction us with
    | nil => intro p; simp
    | cons u us ih => intro p; rw [List.foldl_cons, ih]; simp [noOpForward, List.replicate_succ]
  simp only [rolloutFrom]
  rw [this]
  simp [noOpData]

/-! ### Terminal costs -/

/-- **C65.** A terminal cost of an action model: an evaluation on any data gives its cost, and derivative calls at the same
point, in any order and number, its gradient and Hessian. -/
theorem C65_terminal {S : State a n} {A : Action a n m σ} {l : Vec a → ℝ} {H : Vec a → Mat n n} {ready : σ → Vec a → Prop}
    (hA : TerminalLaw S A l H ready) (x : Vec a) (d : TermData n m σ) (hs : List Bool) :
    let e := hs.foldl (fun e b => if b then termHessians A x e else termGradients A x e) (termEvaluate A x d)
    e.cost.value = l x ∧ (false ∈ hs → IsGradient (fun z : Vec n => l (S.integrate x z)) e.cost.Lx 0) ∧
      (true ∈ hs → e.cost.Lxx = H x) := by
  have key : ∀ (hs : List Bool) (d : TermData n m σ), ready d.croc x → d.cost.value = l x →
      let e := hs.foldl (fun e b => if b then termHessians A x e else termGradients A x e) d
      e.cost.value = l x ∧
      (IsGradient (fun z : Vec n => l (S.integrate x z)) d.cost.Lx 0 ∨ false ∈ hs →
        IsGradient (fun z : Vec n => l (S.integrate x z)) e.cost.Lx 0) ∧
      (d.cost.Lxx = H x ∨ true ∈ hs → e.cost.Lxx = H x) := by
    intro hs
    induction hs with
    | nil => intro d _ h2; exact ⟨h2, fun h => h.elim id (fun h => by simp at h), fun h => h.elim id (fun h => by simp at h)⟩
    | cons b hs ih =>
      intro d h1 h2
      cases b with
      | true =>
        obtain ⟨k1, k2, k3⟩ := ih (termHessians A x d) (hA.ready_diff _ x h1) h2
        refine ⟨k1, fun h => k2 (h.imp_right fun h => by simpa using h), fun _ => k3 (Or.inl (hA.hess _ x h1))⟩
      | false =>
        obtain ⟨k1, k2, k3⟩ := ih (termGradients A x d) (hA.ready_diff _ x h1) h2
        refine ⟨k1, fun _ => k2 (Or.inl (hA.grad _ x h1)), fun h => k3 (h.imp_right fun h => by simpa using h)⟩
  obtain ⟨k1, k2, k3⟩ := key hs (termEvaluate A x d) (hA.ready_calc _ x) (hA.cost _ x)
  exact ⟨k1, fun h => k2 (Or.inr h), fun h => k3 (Or.inr h)⟩

/-- **C65.** What is missing, fourth part: no data can be made for a wrapped cost model, nor for any problem that ends with
one. -/
theorem C65_cost_model_negation : (CostWrap.cost : CostWrap a n m σ).createData = none ∧
    ∀ P : Problem a n, P.term = .cost → Data.create P = none :=
  ⟨rfl, fun P h => by simp [Data.create, h, CostWrap.createData]⟩

/-! ### Problems -/

theorem foldl_cost (c : ℝ) (v : ℕ → ℝ) (N : ℕ) :
    (List.range N).foldl (fun c i => c + v i) c = c + ∑ i ∈ Finset.range N, v i := by
  induction N generalizing c with
  | zero => simp
  | succ N ih => rw [List.range_succ, List.foldl_append, ih, Finset.sum_range_succ]; simp [add_assoc]

/-- The problem of wrapped models. -/
abbrev wrapped (P : Shooting a n) : Problem a n :=
  ⟨P.x0, P.T, P.nu, P.σ, fun i => newStage (P.running i), .action P.terminal⟩

/-- **C65.** A shooting problem with running models is converted into the problem of its wrapped models; its data can be made,
and on data that has seen any calls: an evaluation of a trajectory gives the cost of the shooting problem; derivatives of the
same trajectory leave in every stage what `C65_stage` says, and in the terminal cost its gradient and, if asked for, its
Hessian. -/
theorem C65_convert (P : Shooting a n) (hT : P.T ≠ 0) (S : State a n)
    (l : ∀ i, Vec a → Vec (P.nu i) → ℝ) (f : ∀ i, Vec a → Vec (P.nu i) → Vec a)
    (H : ∀ i, Vec a → Vec (P.nu i) → Mat n n × Mat n (P.nu i) × Mat (P.nu i) (P.nu i))
    (ready : ∀ i, P.σ i → Vec a → Vec (P.nu i) → Prop) (lT : Vec a → ℝ) (HT : Vec a → Mat n n) (readyT : P.σ P.T → Vec a → Prop)
    (hA : ∀ i, ActionLaw S (P.running i) (l i) (f i) (H i) (ready i)) (hT' : TerminalLaw S P.terminal lT HT readyT) :
    convert P = some (wrapped P) ∧ ∃ d0, Data.create (wrapped P) = some d0 ∧
      ∀ (cs : List (PCall (wrapped P))) (x : ℕ → Vec a) (u : ∀ i, Vec (P.nu i)) (second : Bool),
        let d := evaluate (wrapped P) x u (cs.foldl (pcall (wrapped P)) d0)
        trajectoryCost (wrapped P) d = ∑ i ∈ Finset.range P.T, l i (x i) (u i) + lT (x P.T) ∧
        (∀ i, (d.stage i).dyn.xnext = f i (x i) (u i)) ∧
        let e := computeDerivatives (wrapped P) x u second d
        (∀ i, StageOk S (l i) (f i) (H i) (x i) (u i) (e.stage i).cost (e.stage i).dyn) ∧
        IsGradient (fun z : Vec n => lT (S.integrate (x P.T) z)) e.term.cost.Lx 0 ∧
        (second = true → e.term.cost.Lxx = HT (x P.T)) := by
  refine ⟨by simp [convert, hT], _, rfl, fun cs x u second => ⟨?_, fun i => (hA i).next _ _ _, fun i => ?_, ?_, ?_⟩⟩
  · simp only [trajectoryCost]
    rw [foldl_cost, zero_add]
    refine congrArg₂ (· + ·) (Finset.sum_congr rfl fun i _ => (hA i).cost _ _ _) (hT'.cost _ _)
  · cases second
    · exact (stage_first (s := newStage (P.running i)) (hA i) ((hA i).ready_calc _ _ _) ((hA i).cost _ _ _) ((hA i).next _ _ _)).2
    · exact (stage_first (s := newStage (P.running i)) (hA i) ((hA i).ready_calc _ _ _) ((hA i).cost _ _ _) ((hA i).next _ _ _)).2
  · cases second
    · exact hT'.grad _ _ (hT'.ready_calc _ _)
    · exact hT'.grad _ _ (hT'.ready_calc _ _)
  · rintro rfl
    exact hT'.hess _ _ (hT'.ready_diff _ _ (hT'.ready_calc _ _))

/-- **C65.** What is missing, fifth part: a shooting problem without running models cannot be converted. -/
theorem C65_empty (P : Shooting a n) (h : P.T = 0) : convert P = none := by simp [convert, h]

/-! ### A witness -/

/-- The data of `adder`: the last point of `calc`, the results of `calcDiff`. -/
structure AdderData (n : ℕ) where
  x : Vec n
  u : Vec n
  Lx : Vec n
  Lu : Vec n

/-- An action model that adds the control to the state and pays for both squares; `calcDiff` differentiates at the point of the
last `calc`, not at its arguments. -/
def adder (n : ℕ) : Action n n n (AdderData n) where
  createData := ⟨0, 0, 0, 0⟩
  calcU s x u := { s with x := x, u := u }
  calcDiffU s _ _ := { s with Lx := s.x + s.x, Lu := s.u + s.u }
  calcX s x := { s with x := x, u := 0 }
  calcDiffX s _ := { s with Lx := s.x + s.x }
  cost s := s.x ⬝ᵥ s.x + s.u ⬝ᵥ s.u
  xnext s := s.x + s.u
  Lx s := s.Lx
  Lu s := s.Lu
  Lxx _ := 1 + 1
  Lxu _ := 0
  Luu _ := 1 + 1
  Fx _ := 1
  Fu _ := 1

/-- Euclidean space. -/
def euclid (n : ℕ) : State n n where
  zero := 0
  integrate x v := x + v
  diff x y := y - x
  Jint1 _ _ := 1
  Jint2 _ _ := 1
  Jdiff1 _ _ := -1
  Jdiff2 _ _ := 1

theorem adder_law (n : ℕ) : ActionLaw (euclid n) (adder n) (fun x u => x ⬝ᵥ x + u ⬝ᵥ u) (fun x u => x + u)
    (fun _ _ => (1 + 1, 0, 1 + 1)) (fun s x u => s.x = x ∧ s.u = u) where
  cost _ _ _ := rfl
  next _ _ _ := rfl
  ready_calc _ _ _ := ⟨rfl, rfl⟩
  ready_diff _ _ _ h := h
  grad s x u h := by
    obtain ⟨rfl, rfl⟩ := h
    have hx := (IsJacobian.const s.x (0 : Vec (n + n))).add (isJacobian_fst (n := n) (m := n) 0)
    have hu := (IsJacobian.const s.u (0 : Vec (n + n))).add (isJacobian_snd (n := n) (m := n) 0)
    refine ((hx.dot hx).add (hu.dot hu)).congr ?_
    rw [zero_add, zero_add, selFst_transpose_mulVec, selSnd_transpose_mulVec, append_add, append_add, append_add]
    show Fin.append ((s.x + 0) + (s.x + 0) + (0 + 0)) ((0 + 0) + ((s.u + 0) + (s.u + 0))) = Fin.append (s.x + s.x) (s.u + s.u)
    simp only [add_zero, zero_add]
  jac s x u h := by
    have hx := (isJacobian_fst (n := n) (m := n) 0).add (isJacobian_snd (n := n) (m := n) 0)
    refine hx.congr_of' ?_ ?_
    · funext z; simp only [euclid]; abel
    · funext i j
      refine Fin.addCases (fun j => ?_) (fun j => ?_) j
      · simp [selFst, selSnd, adder, (castAdd_ne_natAdd _ _).symm, Matrix.one_apply, Pi.single_apply, eq_comm,
          -Fin.natAdd_eq_addNat]
      · simp [selFst, selSnd, adder, (castAdd_ne_natAdd _ _).symm, Matrix.one_apply, Pi.single_apply, eq_comm,
          -Fin.natAdd_eq_addNat]
  hess _ _ _ _ := rfl

theorem adder_terminal (n : ℕ) : TerminalLaw (euclid n) (adder n) (fun x => x ⬝ᵥ x) (fun _ => 1 + 1)
    (fun s x => s.x = x) where
  cost s x := by simp [adder]
  ready_calc _ _ := rfl
  ready_diff _ _ h := h
  grad s x h := by
    subst h
    have hx := (IsJacobian.const s.x (0 : Vec n)).add (IsJacobian.id (n := n) 0)
    refine (hx.dot hx).congr ?_
    rw [zero_add, Matrix.transpose_one, Matrix.one_mulVec, add_zero]
    rfl
  hess _ _ _ := rfl

/-- The hypotheses of C65 are met: a problem of two such models in the plane, evaluated after an earlier run elsewhere. -/
example : ∃ d0, Data.create (wrapped (⟨0, 2, fun _ => 2, fun _ => AdderData 2, fun _ => adder 2, adder 2⟩ : Shooting 2 2)) =
      some d0 ∧
    ∃ e, evaluate (wrapped _) (fun i => ![i, 1]) (fun _ => ![1, 0])
      ([.evaluate (fun _ => 0) (fun _ => 0), .derivatives (fun _ => 0) (fun _ => 0) true].foldl (pcall (wrapped _)) d0) = e ∧
    trajectoryCost _ e = 10 := by
  obtain ⟨-, d0, h0, h⟩ := C65_convert (⟨0, 2, fun _ => 2, fun _ => AdderData 2, fun _ => adder 2, adder 2⟩ : Shooting 2 2)
    (by decide) (euclid 2) _ _ _ _ _ _ _ (fun _ => adder_law 2) (adder_terminal 2)
  refine ⟨d0, h0, _, rfl, ?_⟩
  refine (h _ (fun i => ![i, 1]) (fun _ => ![1, 0]) true).1.trans ?_
  norm_num [Finset.sum_range_succ, Matrix.vec2_dotProduct]

end Aligator.Croc
