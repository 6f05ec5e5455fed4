import Verif.Lemmas.FDDPPasses
import Verif.Props.FDDP
import Verif.Spec.Lagrangian
import Mathlib.Analysis.Calculus.Deriv.Add

/-!
# C59 FDDP: the passes on an actual problem
-/

namespace Aligator.FDDP

open Matrix Finset Linesearch

variable {X : Type} {U : ℕ → Type} {n : ℕ} {m : ℕ → ℕ}

/-! ### Gaps -/

/-- All nodes live in the same space. -/
structure Problem.OneSpace (P : Problem X U n m) (s : Space X n) : Prop where
  space : ∀ i, P.space i = s
  next : ∀ i, P.next i = s
  term : P.term = s

/-- Laws of a space, for fractions of differences. -/
structure Space.Laws (s : Space X n) : Prop where
  /-- going from `x` the fraction `1 - a` of a difference backwards, and back -/
  back : ∀ x p q (a : ℝ), 0 ≤ a → a ≤ 1 → s.difference (s.integrate x ((a - 1) • s.difference p q)) x = (1 - a) • s.difference p q
  /-- going the fraction `a` from `x` to `y` leaves the fraction `1 - a` -/
  ray : ∀ x y (a : ℝ), 0 ≤ a → a ≤ 1 → s.difference (s.integrate x (a • s.difference x y)) y = (1 - a) • s.difference x y
  zero : ∀ x, s.integrate x 0 = x
  reach : ∀ x y, s.integrate x (s.difference x y) = y

/-- Every gap of the trial trajectory, that of the initial condition included, is `1 - α` times the gap of the iterate, whatever the
gains. -/
theorem C59_gaps_contract {P : Problem X U n m} {s : Space X n} (hP : P.OneSpace s) (hs : s.Laws) (it : Iterate X U) (g : Gains n m)
    {a : ℝ} (h0 : 0 ≤ a) (h1 : a ≤ 1) (i : ℕ) : gaps P (trial P it g (gaps P it) a) i = (1 - a) • gaps P it i := by
  cases i with
  | zero =>
    simp only [gaps, trial, roll, hP.space]
    exact hs.ray _ _ _ h0 h1
  | succ i =>
    have e : gaps P it (i + 1) = s.difference (it.x (i + 1)) (P.f i (it.x i) (it.u i)) := by rw [gaps, hP.space]
    have : gaps P (trial P it g (gaps P it) a) (i + 1) =
        s.difference (s.integrate (P.f i (roll P it g (gaps P it) a i).1 (newControl P it g a i (roll P it g (gaps P it) a i).2))
          ((a - 1) • gaps P it (i + 1))) (P.f i (roll P it g (gaps P it) a i).1 (newControl P it g a i (roll P it g (gaps P it) a i).2)) := by
      rw [gaps, hP.space]
      simp only [trial]
      rw [roll, hP.next]
    rw [this, e]
    exact hs.back _ _ _ _ h0 h1

/-- A trajectory starts at the initial state and follows the dynamics. -/
def Feasible (P : Problem X U n m) (N : ℕ) (it : Iterate X U) : Prop :=
  it.x 0 = P.x0 ∧ ∀ i, i < N → it.x (i + 1) = P.f i (it.x i) (it.u i)

/-- The full step gives a feasible trajectory. -/
theorem C59_full_step_feasible {P : Problem X U n m} {s : Space X n} (hP : P.OneSpace s) (hs : s.Laws) (it : Iterate X U) (g : Gains n m)
    (N : ℕ) : Feasible P N (trial P it g (gaps P it) 1) := by
  constructor
  · simp only [trial, roll, gaps, hP.space, one_smul]
    exact hs.reach _ _
  · intro i _
    simp only [trial]
    rw [roll, hP.next]
    simp only [sub_self, zero_smul]
    exact hs.zero _

theorem searchLoop_last {p : LSParams} {thGrad phi0 : ℝ} {phi : ℝ → ℝ} {model : ℝ → ℝ × ℝ} (hc0 : 0 ≤ p.o.contractionMin)
    (hc : p.o.contractionMin ≤ 1) (hm0 : 0 ≤ p.o.alphaMin) (hm : p.o.alphaMin ≤ 1) {fuel : ℕ} {r : ℝ × ℝ × Bool}
    (h : searchLoop p thGrad phi0 phi model fuel 1 1 = some r) : 0 ≤ r.2.1 ∧ r.2.1 ≤ 1 := by
  suffices H : ∀ k a l, 0 ≤ a → a ≤ 1 → 0 ≤ l → l ≤ 1 → searchLoop p thGrad phi0 phi model k a l = some r → 0 ≤ r.2.1 ∧ r.2.1 ≤ 1 from
    H fuel 1 1 zero_le_one le_rfl zero_le_one le_rfl h
  intro k
  induction k with
  | zero => intro a l _ _ _ _ h; simp [searchLoop] at h
  | succ k ih =>
    intro a l ha0 ha hl0 hl h
    rw [searchLoop] at h
    dsimp only at h
    split_ifs at h
    · cases h; exact ⟨hl0, hl⟩
    · cases h; exact ⟨ha0, ha⟩
    · exact ih _ _ (le_max_of_le_right hm0) (max_le (by nlinarith) hm) ha0 ha h

/-- The search is that of C21. -/
theorem searchLoop_goldstein (p : LSParams) (thGrad phi0 : ℝ) (phi : ℝ → ℝ) (model : ℝ → ℝ × ℝ) (fuel : ℕ) :
    ∀ a l w, (w = phi l) → goldsteinLoop p.o p.eps thGrad p.thAccept p.thAcceptNeg phi0 (fun a => some (.fin (phi a))) model fuel a (.fin w) =
      (searchLoop p thGrad phi0 phi model fuel a l).map fun r => (r.1, .fin (phi r.2.1), r.2.2) := by
  induction fuel with
  | zero => intro a l w _; rfl
  | succ k ih =>
    intro a l w hw
    rw [goldsteinLoop, searchLoop]
    dsimp only
    simp only [Fl.sub_fin, Fl.le_fin]
    split_ifs with h1 h2
    · simp [hw]
    · rfl
    · exact ih _ _ _ rfl

/-- An invariant of the iterates that every step of the search keeps holds for the result. -/
theorem loop_iterates {e : Env X} (p : Params) {I : X → Prop} (hI : ∀ x preg phi0 t, I x → e.search x preg phi0 = some t → I t.x) :
    ∀ k (s : St X), I s.x → I (loop p e k s).st.x := by
  intro k
  induction k with
  | zero => intro s h; exact h
  | succ k ih =>
    intro s h
    rw [loop]
    cases h1 : maxNorm (e.gaps s.x) with
    | nan => exact h
    | inf b => exact h
    | fin prim =>
      dsimp only
      cases h2 : maxNorm (e.grads s.x s.preg) with
      | nan => exact h
      | inf b => exact h
      | fin dual =>
        dsimp only
        split_ifs with h3
        · exact h
        · cases h4 : s.cost with
          | nan => exact h
          | inf b => exact h
          | fin phi0 =>
            dsimp only
            cases h5 : e.search s.x s.preg phi0 with
            | none => exact h
            | some t =>
              have ht := hI _ _ _ _ h h5
              dsimp only
              split_ifs <;> first | exact ht | exact ih _ ht

theorem search_trial {llt : LLT} {p : LSParams} {thGrad : ℝ} {fuel : ℕ} {P : Problem X U n m} {N : ℕ} {it : Iterate X U} {preg phi0 : ℝ}
    {t : Step (Iterate X U)} (hc0 : 0 ≤ p.o.contractionMin) (hc : p.o.contractionMin ≤ 1) (hm0 : 0 ≤ p.o.alphaMin) (hm : p.o.alphaMin ≤ 1)
    (h : search llt p thGrad fuel P N it preg phi0 = some t) :
    ∃ a, 0 ≤ a ∧ a ≤ 1 ∧ t.x = trial P it (pass llt P N preg it).gains (gaps P it) a ∧ t.cost = trialCost P N t.x := by
  simp only [search, Option.map_eq_some_iff] at h
  obtain ⟨r, hr, rfl⟩ := h
  exact ⟨r.2.1, (searchLoop_last hc0 hc hm0 hm hr).1, (searchLoop_last hc0 hc hm0 hm hr).2, rfl, rfl⟩

/-- At every moment of a run the gaps are one common multiple, between 0 and 1, of those of the initial guess: they never grow, and a
feasible guess stays feasible. -/
theorem C59_gaps_along_run {P : Problem X U n m} {s : Space X n} (hP : P.OneSpace s) (hs : s.Laws) (llt : LLT) (par : Params) (p : LSParams)
    (hc0 : 0 ≤ p.o.contractionMin) (hc : p.o.contractionMin ≤ 1) (hm0 : 0 ≤ p.o.alphaMin) (hm : p.o.alphaMin ≤ 1) (fuel N : ℕ)
    (it : Iterate X U) (prim dual : Fl) :
    ∃ c : ℝ, 0 ≤ c ∧ c ≤ 1 ∧ ∀ i, gaps P (runProblem llt par p fuel P N it prim dual).st.x i = c • gaps P it i := by
  refine loop_iterates (e := problemEnv llt p par.thGrad fuel P N) par
    (I := fun x => ∃ c : ℝ, 0 ≤ c ∧ c ≤ 1 ∧ ∀ i, gaps P x i = c • gaps P it i) ?_ _ _ ⟨1, zero_le_one, le_rfl, fun i => (one_smul _ _).symm⟩
  rintro x preg phi0 t ⟨c, c0, c1, hx⟩ ht
  obtain ⟨a, a0, a1, e, -⟩ := search_trial hc0 hc hm0 hm ht
  refine ⟨(1 - a) * c, mul_nonneg (by linarith) c0, mul_le_one₀ (by linarith) c0 c1, fun i => ?_⟩
  rw [e, C59_gaps_contract hP hs _ _ a0 a1, hx, smul_smul]

/-- Vector spaces (core/vector-space.hpp:52-55, :67-70). -/
def vecSpace (n : ℕ) : Space (Fin n → ℝ) n := ⟨fun x v => x + v, fun x y => y - x⟩

theorem vecSpace_laws (n : ℕ) : (vecSpace n).Laws where
  back x p q a _ _ := by simp only [vecSpace]; module
  ray x y a _ _ := by simp only [vecSpace]; module
  zero x := by simp [vecSpace]
  reach x y := by simp [vecSpace]

/-! ### The gains -/

/-- The backward pass at gaps `f`. -/
def passAt (llt : LLT) (D : Deriv n m) (N : ℕ) (preg : ℝ) (f : ℕ → Fin n → ℝ) : Pass n m :=
  ⟨f, value llt D preg N f, qpar llt D preg N f⟩

theorem solved_of_posDef {llt : LLT} (hl : Spec.SolvesPosDef llt) {D : Deriv n m} {preg : ℝ} {N : ℕ} {f : ℕ → Fin n → ℝ} {i : ℕ}
    (h : (qpar llt D preg N f i).Quu.PosDef) : Solved (qpar llt D preg N f i) := by
  refine ⟨hl _ _ h _, ?_⟩
  ext a b
  exact congrFun (hl _ _ h fun c => -(qpar llt D preg N f i).Qxu b c) a

/-- The controls follow the affine feedback law of the gains, with the feedforward scaled by `a`. -/
def Policy (b : Pass n m) (N : ℕ) (a : ℝ) (dx : ℕ → Fin n → ℝ) (du : ∀ i, Fin (m i) → ℝ) : Prop :=
  ∀ i, i < N → du i = a • (b.q i).k + (b.q i).K *ᵥ dx i

theorem quad_nonneg {k : ℕ} {M : Matrix (Fin k) (Fin k) ℝ} (h : M.PosDef) (z : Fin k → ℝ) : 0 ≤ z ⬝ᵥ M *ᵥ z := by
  simpa using h.posSemidef.dotProduct_mulVec_nonneg z

theorem quad_zero {k : ℕ} {M : Matrix (Fin k) (Fin k) ℝ} (h : M.PosDef) {z : Fin k → ℝ} (hz : z ⬝ᵥ M *ᵥ z = 0) : z = 0 := by
  by_contra hne
  have := h.dotProduct_mulVec_pos hne
  simp only [star_trivial] at this
  linarith

/-- The feedback law of the backward pass is the only optimum of the quadratic model with the linearised dynamics, all gaps closed and
the squared length of the displacement weighted by the regularisation. -/
theorem C59_gains_optimal {llt : LLT} (hl : Spec.SolvesPosDef llt) {D : Deriv n m} {N : ℕ} (hs : D.quad.Symm N) {preg : ℝ}
    {f : ℕ → Fin n → ℝ} (hq : ∀ i, i < N → ((passAt llt D N preg f).q i).Quu.PosDef) {dx : ℕ → Fin n → ℝ} {du : ∀ i, Fin (m i) → ℝ}
    (hc : D.quad.Closes N f 1 dx du) (hp : Policy (passAt llt D N preg f) N 1 dx du) {ex : ℕ → Fin n → ℝ} {eu : ∀ i, Fin (m i) → ℝ}
    (hc' : D.quad.Closes N f 1 ex eu) :
    D.quad.change N dx du + preg * Spec.half N dx du ≤ D.quad.change N ex eu + preg * Spec.half N ex eu ∧
    (D.quad.change N dx du + preg * Spec.half N dx du = D.quad.change N ex eu + preg * Spec.half N ex eu →
      (∀ i, i ≤ N → ex i = dx i) ∧ ∀ i, i < N → eu i = du i) := by
  have hsol := fun i hi => solved_of_posDef hl (hq i hi)
  have e1 := change_eq hs hsol hc
  have e2 := change_eq hs hsol hc'
  have g : ∀ z : ℕ → Fin n → ℝ, ∑ i ∈ range (N + 1), (value llt D preg N f i).gapTerm (f i) 1 (z i) =
      ∑ i ∈ range (N + 1), (value llt D preg N f i).gapTerm (f i) 1 (dx i) := fun z =>
    sum_congr rfl fun i _ => by simp only [VP.gapTerm, sub_self, zero_mul]
  have c1 : ∀ i, i < N → (qpar llt D preg N f i).ctrlTerm (dx i) (du i) = -(1 / 2 * ((qpar llt D preg N f i).k ⬝ᵥ
      (qpar llt D preg N f i).Quu *ᵥ (qpar llt D preg N f i).k)) := by
    intro i hi
    have : du i = (qpar llt D preg N f i).k + (qpar llt D preg N f i).K *ᵥ dx i := by
      have := hp i hi
      rwa [one_smul] at this
    rw [QP.ctrlTerm, this]
    simp
  have c2 : ∀ i, i < N → (qpar llt D preg N f i).ctrlTerm (dx i) (du i) ≤ (qpar llt D preg N f i).ctrlTerm (ex i) (eu i) := by
    intro i hi
    rw [c1 i hi, QP.ctrlTerm]
    have := quad_nonneg (hq i hi) (eu i - (qpar llt D preg N f i).k - (qpar llt D preg N f i).K *ᵥ ex i)
    simp only [passAt] at this
    linarith
  rw [e1, e2, g ex]
  refine ⟨add_le_add_left (sum_le_sum fun i hi => c2 i (mem_range.mp hi)) _, fun h => ?_⟩
  have h := (sum_eq_sum_iff_of_le fun i hi => c2 i (mem_range.mp hi)).mp (add_right_cancel h)
  have pol : ∀ i, i < N → eu i = (qpar llt D preg N f i).k + (qpar llt D preg N f i).K *ᵥ ex i := by
    intro i hi
    have := h i (mem_range.mpr hi)
    rw [c1 i hi, QP.ctrlTerm] at this
    have := quad_zero (hq i hi) (z := eu i - (qpar llt D preg N f i).k - (qpar llt D preg N f i).K *ᵥ ex i)
      (by simp only [passAt]; linarith)
    rw [sub_sub, sub_eq_zero] at this
    exact this
  have xs : ∀ i, i ≤ N → ex i = dx i := by
    intro i
    induction i with
    | zero => intro _; rw [hc.1, hc'.1]
    | succ i ih =>
      intro hi
      have hpi := hp i hi
      rw [one_smul] at hpi
      rw [hc.2 i hi, hc'.2 i hi, pol i hi, hpi, ih (by omega)]
      rfl
  refine ⟨xs, fun i hi => ?_⟩
  have hpi := hp i hi
  rw [one_smul] at hpi
  rw [pol i hi, hpi, xs i hi.le]
  rfl

/-! ### The predicted cost -/

theorem foldl_add_eq (g : ℕ → ℝ) (k : ℕ) (c : ℝ) : (List.range k).foldl (fun s i => s + g i) c = c + ∑ i ∈ range k, g i := by
  induction k with
  | zero => simp
  | succ k ih => rw [List.range_succ, List.foldl_append, ih, sum_range_succ, List.foldl_cons, List.foldl_nil, add_assoc]

theorem foldl_sub_eq (g : ℕ → ℝ) (k : ℕ) (c : ℝ) : (List.range k).foldl (fun s i => s - g i) c = c - ∑ i ∈ range k, g i := by
  have := foldl_add_eq (fun i => -g i) k c
  simp only [← sub_eq_add_neg, sum_neg_distrib] at this
  exact this

theorem Pass.dg_eq (b : Pass n m) (N : ℕ) :
    b.dg N = ∑ i ∈ range N, (b.q i).Qu ⬝ᵥ (b.q i).k + ∑ i ∈ range (N + 1), (b.v i).Vx ⬝ᵥ b.f i := by
  rw [Pass.dg, foldl_add_eq (fun i => (b.v i).Vx ⬝ᵥ b.f i), foldl_add_eq (fun i => (b.q i).Qu ⬝ᵥ (b.q i).k), zero_add]

theorem Pass.dq_eq (b : Pass n m) (N : ℕ) :
    b.dq N = ∑ i ∈ range N, (b.q i).k ⬝ᵥ (b.q i).Quuk - ∑ i ∈ range (N + 1), (b.v i).ft ⬝ᵥ b.f i := by
  rw [Pass.dq, foldl_sub_eq (fun i => (b.v i).ft ⬝ᵥ b.f i), foldl_add_eq (fun i => (b.q i).k ⬝ᵥ (b.q i).Quuk), zero_add]

theorem Pass.dv_eq (b : Pass n m) (N : ℕ) (dx : ℕ → Fin n → ℝ) : b.dv N dx = -∑ i ∈ range (N + 1), dx i ⬝ᵥ (b.v i).ft := by
  rw [Pass.dv, foldl_sub_eq (fun i => dx i ⬝ᵥ (b.v i).ft), zero_sub]

/-- What the line search predicts for a step `a`, against the regularised quadratic model of the cost along the step: the difference
is a multiple of `(1 - a)²`. -/
theorem C59_prediction_error {llt : LLT} (hl : Spec.SolvesPosDef llt) {D : Deriv n m} {N : ℕ} (hs : D.quad.Symm N) {preg : ℝ}
    {f : ℕ → Fin n → ℝ} (hq : ∀ i, i < N → ((passAt llt D N preg f).q i).Quu.PosDef) {a : ℝ} {dx : ℕ → Fin n → ℝ}
    {du : ∀ i, Fin (m i) → ℝ} (hc : D.quad.Closes N f a dx du) (hp : Policy (passAt llt D N preg f) N a dx du) (phi0 : ℝ) :
    (passAt llt D N preg f).model N phi0 a dx = phi0 + (D.quad.change N dx du + preg * Spec.half N dx du) -
      (1 - a) ^ 2 * (passAt llt D N preg f).dv N dx := by
  have hsol := fun i hi => solved_of_posDef hl (hq i hi)
  rw [change_eq hs hsol hc, Pass.model, Pass.d1, Pass.d2, Pass.dg_eq, Pass.dq_eq, Pass.dv_eq]
  have e1 : ∀ i, i < N → (qpar llt D preg N f i).ctrlTerm (dx i) (du i) =
      a * ((qpar llt D preg N f i).Qu ⬝ᵥ (qpar llt D preg N f i).k) +
        1 / 2 * a ^ 2 * ((qpar llt D preg N f i).k ⬝ᵥ (qpar llt D preg N f i).Quuk) := by
    intro i hi
    have hd : du i - (qpar llt D preg N f i).k - (qpar llt D preg N f i).K *ᵥ dx i = (a - 1) • (qpar llt D preg N f i).k := by
      rw [hp i hi]
      simp only [passAt]
      module
    have hk : (qpar llt D preg N f i).Quuk = (qpar llt D preg N f i).Quu *ᵥ (qpar llt D preg N f i).k := rfl
    have hQ : (qpar llt D preg N f i).Qu ⬝ᵥ (qpar llt D preg N f i).k =
        -((qpar llt D preg N f i).k ⬝ᵥ (qpar llt D preg N f i).Quu *ᵥ (qpar llt D preg N f i).k) := by
      rw [(hsol i hi).1, dotProduct_neg, neg_neg, dotProduct_comm]
    rw [QP.ctrlTerm, hd, hk, hQ, mulVec_smul, smul_dotProduct, dotProduct_smul, smul_eq_mul, smul_eq_mul]
    ring
  rw [sum_congr rfl fun i hi => e1 i (mem_range.mp hi)]
  simp only [VP.gapTerm, passAt, sum_add_distrib, sum_sub_distrib, ← mul_sum]
  ring

/-- The prediction is right for the full step, and for every step when there are no gaps.  Missing for the full claim: other steps,
see `C59_prediction_wrong`. -/
theorem C59_prediction_exact_partial {llt : LLT} (hl : Spec.SolvesPosDef llt) {D : Deriv n m} {N : ℕ} (hs : D.quad.Symm N) {preg : ℝ}
    {f : ℕ → Fin n → ℝ} (hq : ∀ i, i < N → ((passAt llt D N preg f).q i).Quu.PosDef) {a : ℝ} {dx : ℕ → Fin n → ℝ}
    {du : ∀ i, Fin (m i) → ℝ} (hc : D.quad.Closes N f a dx du) (hp : Policy (passAt llt D N preg f) N a dx du) (phi0 : ℝ)
    (h : a = 1 ∨ ∀ i, i ≤ N → f i = 0) :
    (passAt llt D N preg f).model N phi0 a dx = phi0 + (D.quad.change N dx du + preg * Spec.half N dx du) := by
  rw [C59_prediction_error hl hs hq hc hp, sub_eq_self]
  rcases h with rfl | h
  · ring
  · rw [Pass.dv_eq, sum_eq_zero, neg_zero, mul_zero]
    intro i hi
    have hi := Nat.lt_succ_iff.mp (mem_range.mp hi)
    have := value_ft llt D preg f hi
    rw [h i hi, mulVec_zero] at this
    simp only [passAt, this, dotProduct_zero]

/-! ### The stopping criterion -/

/-- The slope of the cost along any displacement that follows the linearised dynamics, in terms of the control gradients of the
backward pass. -/
theorem C59_slope (llt : LLT) (D : Deriv n m) (N : ℕ) (preg : ℝ) (f : ℕ → Fin n → ℝ) {dx : ℕ → Fin n → ℝ} {du : ∀ i, Fin (m i) → ℝ}
    (hd : ∀ i, i < N → dx (i + 1) = D.fx i *ᵥ dx i + D.fu i *ᵥ du i) :
    D.quad.slope N dx du = ((passAt llt D N preg f).v 0).Vx ⬝ᵥ dx 0 +
      ∑ i ∈ range N, ((passAt llt D N preg f).q i).Qu ⬝ᵥ (du i - ((passAt llt D N preg f).q i).K *ᵥ dx i) -
      ∑ i ∈ range (N + 1), f i ⬝ᵥ ((passAt llt D N preg f).v i).Vxxᵀ *ᵥ dx i := by
  simp only [passAt]
  have hft : ∀ i, i ≤ N → f i ⬝ᵥ (value llt D preg N f i).Vxxᵀ *ᵥ dx i = (value llt D preg N f i).ft ⬝ᵥ dx i := by
    intro i hi
    rw [value_ft llt D preg f hi, dot_transpose]
  rw [sum_congr rfl fun i hi => hft i (Nat.lt_succ_iff.mp (mem_range.mp hi))]
  have key : ∀ k, k ≤ N → ∑ i ∈ range k, (D.lx i ⬝ᵥ dx i + D.lu i ⬝ᵥ du i) + (value llt D preg N f k).Vx ⬝ᵥ dx k =
      (value llt D preg N f 0).Vx ⬝ᵥ dx 0 + ∑ i ∈ range k, (qpar llt D preg N f i).Qu ⬝ᵥ (du i - (qpar llt D preg N f i).K *ᵥ dx i) -
        ∑ i ∈ range k, (value llt D preg N f i).ft ⬝ᵥ dx i := by
    intro k
    induction k with
    | zero => intro _; simp
    | succ k ih =>
      intro hk
      have hv : (value llt D preg N f k).Vx = (qpar llt D preg N f k).Qx + (qpar llt D preg N f k).Kᵀ *ᵥ (qpar llt D preg N f k).Qu +
          (value llt D preg N f k).ft := by
        rw [value_succ llt D preg f hk]; rfl
      have e1 : (qpar llt D preg N f k).Qx ⬝ᵥ dx k = D.lx k ⬝ᵥ dx k + (value llt D preg N f (k + 1)).Vx ⬝ᵥ D.fx k *ᵥ dx k := by
        simp only [qpar, qfun, add_dotProduct]
        rw [dotProduct_comm ((D.fx k)ᵀ *ᵥ _), dot_transpose, dotProduct_comm (D.fx k *ᵥ dx k)]
      have e2 : (qpar llt D preg N f k).Qu ⬝ᵥ du k = D.lu k ⬝ᵥ du k + (value llt D preg N f (k + 1)).Vx ⬝ᵥ D.fu k *ᵥ du k := by
        simp only [qpar, qfun, add_dotProduct]
        rw [dotProduct_comm ((D.fu k)ᵀ *ᵥ _), dot_transpose, dotProduct_comm (D.fu k *ᵥ du k)]
      have e3 : ((qpar llt D preg N f k).Kᵀ *ᵥ (qpar llt D preg N f k).Qu) ⬝ᵥ dx k =
          (qpar llt D preg N f k).Qu ⬝ᵥ (qpar llt D preg N f k).K *ᵥ dx k := by
        rw [dotProduct_comm, dot_transpose, dotProduct_comm]
      have := ih (by omega)
      rw [hv, add_dotProduct, add_dotProduct, e1, e3] at this
      rw [sum_range_succ, sum_range_succ, sum_range_succ, hd k hk, dotProduct_add, dotProduct_sub, e2]
      linarith
  have hN := key N le_rfl
  have hT : (value llt D preg N f N).Vx = D.lNx + (value llt D preg N f N).ft := by rw [value_last]; rfl
  rw [hT, add_dotProduct] at hN
  rw [sum_range_succ (fun i => (value llt D preg N f i).ft ⬝ᵥ dx i)]
  simp only [Spec.Quad.slope, Deriv.quad]
  linarith

theorem foldr_max_le {l : List ℝ} {t : ℝ} (h : l.foldr (fun a s => max |a| s) 0 ≤ t) : ∀ a ∈ l, |a| ≤ t := by
  induction l with
  | nil => intro a ha; cases ha
  | cons b l ih =>
    rw [List.foldr_cons, max_le_iff] at h
    intro a ha
    rcases List.mem_cons.mp ha with rfl | ha
    · exact h.1
    · exact ih h.2 a ha

theorem maxNorm_fin (l : List ℝ) : ∀ c, ∃ t, (l.map Fl.fin).foldl stdMax (.fin c) = .fin t ∧ c ≤ t ∧ ∀ a ∈ l, a ≤ t := by
  induction l with
  | nil => intro c; exact ⟨c, rfl, le_rfl, fun a ha => by cases ha⟩
  | cons b l ih =>
    intro c
    rw [List.map_cons, List.foldl_cons]
    by_cases h : c < b
    · rw [show stdMax (.fin c) (.fin b) = .fin b by simp [stdMax, h]]
      obtain ⟨t, e, h1, h2⟩ := ih b
      exact ⟨t, e, by linarith, fun a ha => (List.mem_cons.mp ha).elim (fun e => e ▸ h1) (h2 a)⟩
    · rw [show stdMax (.fin c) (.fin b) = .fin c by simp [stdMax, h]]
      obtain ⟨t, e, h1, h2⟩ := ih c
      exact ⟨t, e, h1, fun a ha => (List.mem_cons.mp ha).elim (fun e => by rw [e]; linarith) (h2 a)⟩

/-- A finite maximum of norms bounds every entry. -/
theorem maxNorm_bound {k : ℕ → ℕ} {v : ∀ i, Fin (k i) → ℝ} {M : ℕ} {t : ℝ} (h : maxNorm ((List.range M).map fun i => norm (v i)) = .fin t)
    {i : ℕ} (hi : i < M) (j : Fin (k i)) : |v i j| ≤ t := by
  have e : ((List.range M).map fun i => norm (v i)) = ((List.range M).map fun i => (List.ofFn (v i)).foldr (fun a s => max |a| s) 0).map Fl.fin := by
    rw [List.map_map]; rfl
  rw [maxNorm, e] at h
  obtain ⟨t', e', -, h2⟩ := maxNorm_fin ((List.range M).map fun i => (List.ofFn (v i)).foldr (fun a s => max |a| s) 0) 0
  rw [e', Fl.fin.injEq] at h
  subst h
  exact foldr_max_le (h2 _ (List.mem_map.mpr ⟨i, List.mem_range.mpr hi, rfl⟩)) _ (List.mem_ofFn.mpr ⟨j, rfl⟩)

/-- Sum of absolute values. -/
def l1 {k : ℕ} (v : Fin k → ℝ) : ℝ := ∑ j, |v j|

theorem abs_dot_le {k : ℕ} {v w : Fin k → ℝ} {t : ℝ} (h : ∀ j, |v j| ≤ t) : |v ⬝ᵥ w| ≤ t * l1 w := by
  rw [dotProduct, l1, mul_sum]
  refine (abs_sum_le_sum_abs _ _).trans (sum_le_sum fun j _ => ?_)
  rw [abs_mul]
  exact mul_le_mul_of_nonneg_right (h j) (abs_nonneg _)

/-- The first derivatives in the problem data are those of the costs, for vector spaces. -/
structure RightCosts (P : Problem (Fin n → ℝ) (fun i => Fin (m i) → ℝ) n m) (N : ℕ)
    (it : Iterate (Fin n → ℝ) fun i => Fin (m i) → ℝ) : Prop where
  l : ∀ i, i < N → ∀ dx du, Lag.Spec.HasDir (P.l i) (it.x i) (it.u i) dx du ((P.deriv it).lx i ⬝ᵥ dx + (P.deriv it).lu i ⬝ᵥ du)
  lN : ∀ dx, HasDerivAt (fun t : ℝ => P.lN (it.x N + t • dx) (List.replicate P.nuT 0)) ((P.deriv it).lNx ⬝ᵥ dx) 0

/-- The trajectory moved along a displacement. -/
def Iterate.move (it : Iterate (Fin n → ℝ) fun i => Fin (m i) → ℝ) (dx : ℕ → Fin n → ℝ) (du : ∀ i, Fin (m i) → ℝ) (t : ℝ) :
    Iterate (Fin n → ℝ) fun i => Fin (m i) → ℝ := ⟨fun i => it.x i + t • dx i, fun i => it.u i + t • du i⟩

theorem slope_deriv {P : Problem (Fin n → ℝ) (fun i => Fin (m i) → ℝ) n m} {N : ℕ} {it : Iterate (Fin n → ℝ) fun i => Fin (m i) → ℝ}
    (h : RightCosts P N it) (dx : ℕ → Fin n → ℝ) (du : ∀ i, Fin (m i) → ℝ) :
    HasDerivAt (fun t => evaluate P N (it.move dx du t)) ((P.deriv it).quad.slope N dx du) 0 := by
  have e : (fun t => evaluate P N (it.move dx du t)) = fun t => (∑ i ∈ range N, P.l i (it.x i + t • dx i) (it.u i + t • du i)) +
      P.lN (it.x N + t • dx N) (List.replicate P.nuT 0) := by
    funext t
    rw [evaluate, foldl_add_eq (fun i => P.l i ((it.move dx du t).x i) ((it.move dx du t).u i)), zero_add]
    rfl
  rw [e, Spec.Quad.slope]
  exact (HasDerivAt.fun_sum fun i hi => h.l i (mem_range.mp hi) (dx i) (du i)).add (h.lN (dx N))

/-- When FDDP returns `true` because its criterion holds, every gap is below the tolerance, and the slope of the cost along every
displacement that keeps the initial state and follows the linearised dynamics is below the tolerance times the size of the
displacement, measured relative to the feedback law.  The other way to return `true` is a small predicted slope `d1`.  Missing for
the full claim: the same in that case, see `C59_converged_not_stationary`. -/
theorem C59_converged_partial (llt : LLT) (par : Params) (p : LSParams) (fuel : ℕ)
    (P : Problem (Fin n → ℝ) (fun i => Fin (m i) → ℝ) n m) (N : ℕ) (it : Iterate (Fin n → ℝ) fun i => Fin (m i) → ℝ) (prim dual : Fl)
    {s : St (Iterate (Fin n → ℝ) fun i => Fin (m i) → ℝ)} (h : runProblem llt par p fuel P N it prim dual = .done s) (hc : s.conv = true)
    (hr : RightCosts P N s.x) :
    (∃ eps, eps < par.targetTol ∧ (∀ i, i ≤ N → ∀ j, |gaps P s.x i j| ≤ eps) ∧
      ∀ dx du, dx 0 = 0 → (∀ i, i < N → dx (i + 1) = (P.deriv s.x).fx i *ᵥ dx i + (P.deriv s.x).fu i *ᵥ du i) →
        ∃ d, HasDerivAt (fun t => evaluate P N (s.x.move dx du t)) d 0 ∧
          |d| ≤ eps * (∑ i ∈ range N, l1 (du i - ((pass llt P N s.preg s.x).q i).K *ᵥ dx i) +
            ∑ i ∈ range (N + 1), l1 (((pass llt P N s.preg s.x).v i).Vxxᵀ *ᵥ dx i))) ∨
    ∃ y phi0 a, s.x = trial P y (pass llt P N s.preg y).gains (gaps P y) a ∧
      |(pass llt P N s.preg y).d1 N (devs P N y (pass llt P N s.preg y).gains (gaps P y) a)| < par.thGrad ∧
      s.cost = .fin phi0 ∧ phi0 = trialCost P N s.x := by
  rcases C20_true_reasons_partial par _ it _ prim dual h hc with ⟨a, b, -, -, h1, h2, h3⟩ | ⟨y, phi0, t, h1, h2, h3, h4⟩
  · refine Or.inl ⟨max a b, h3, fun i hi j => (maxNorm_bound h1 (Nat.lt_succ_of_le hi) j).trans (le_max_left _ _), fun dx du h0 hd => ?_⟩
    refine ⟨_, slope_deriv hr dx du, ?_⟩
    rw [C59_slope llt (P.deriv s.x) N s.preg (gaps P s.x) hd, h0, dotProduct_zero, zero_add, mul_add, mul_sum, mul_sum]
    refine (abs_sub _ _).trans (add_le_add ?_ ?_)
    · refine (abs_sum_le_sum_abs _ _).trans (sum_le_sum fun i hi => abs_dot_le fun j => ?_)
      exact (maxNorm_bound (v := fun i => ((pass llt P N s.preg s.x).q i).Qu) h2 (mem_range.mp hi) j).trans (le_max_right _ _)
    · refine (abs_sum_le_sum_abs _ _).trans (sum_le_sum fun i hi => abs_dot_le fun j => ?_)
      exact (maxNorm_bound h1 (mem_range.mp hi) j).trans (le_max_left _ _)
  · refine Or.inr ?_
    simp only [problemEnv, search, Option.map_eq_some_iff] at h1
    obtain ⟨r, hr, rfl⟩ := h1
    exact ⟨y, _, r.2.1, h3, h2, h4, by rw [h3]⟩

end Aligator.FDDP
