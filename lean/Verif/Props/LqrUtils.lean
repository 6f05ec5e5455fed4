import Verif.Lemmas.LqrUtils
import Verif.Props.Riccati

/-!
# Properties of the LQ problem utilities (C15)
-/

set_option linter.unusedSectionVars false

namespace Aligator.Gar

open Matrix

variable {𝕜 : Type*} {nth : ℕ}

section ordered
variable [Field 𝕜] [LinearOrder 𝕜] [IsStrictOrderedRing 𝕜]

/-- **C15** The three numbers returned by `lqrComputeKktError` are the exact maximal violations: they are below
given tolerances iff every KKT equation holds within them (parameter terms included, `Gv θ = 0`). -/
theorem C15_kkt_error_is_violation {nc0 nx : ℕ} (P : Problem 𝕜 nth nc0 nx) (mueq : 𝕜)
    (θ : Option (Vec 𝕜 nth)) (hG : P.stages.GvZero (θ.getD 0)) (lam0 : Vec 𝕜 nc0) (t : Traj P.stages)
    (εd εc εg : 𝕜) (hd : 0 ≤ εd) (hc : 0 ≤ εc) (hg : 0 ≤ εg) :
    ((lqrComputeKktError P mueq θ lam0 t).dyn ≤ εd ∧ (lqrComputeKktError P mueq θ lam0 t).cst ≤ εc ∧
      (lqrComputeKktError P mueq θ lam0 t).dual ≤ εg) ↔ KKTWithin P εd εc εg mueq (θ.getD 0) lam0 t := by
  unfold lqrComputeKktError KKTWithin
  rw [kktErrLoop_le mueq θ P.stages hG _ t _ hd hc hg]
  simp only [max_le_iff, inftyNorm_le _ hd, add_comm P.g0]
  tauto

/-- **C15** `lqrComputeKktError` returns zeros exactly on KKT points. -/
theorem C15_kkt_error_zero_iff_KKT {nc0 nx : ℕ} (P : Problem 𝕜 nth nc0 nx) (mueq : 𝕜)
    (θ : Option (Vec 𝕜 nth)) (hG : P.stages.GvZero (θ.getD 0)) (lam0 : Vec 𝕜 nc0) (t : Traj P.stages) :
    lqrComputeKktError P mueq θ lam0 t = ⟨0, 0, 0⟩ ↔ KKT P mueq (θ.getD 0) lam0 t := by
  have h := C15_kkt_error_is_violation P mueq θ hG lam0 t 0 0 0 le_rfl le_rfl le_rfl
  have h0 := kktErrLoop_nonneg mueq θ P.stages (P.G0ᵀ *ᵥ lam0) t
    { dyn := max 0 (inftyNorm (P.g0 + P.G0 *ᵥ t.x0)), cst := 0, dual := 0 }
    ⟨le_max_left _ _, le_rfl, le_rfl⟩
  have e : KKTWithin P 0 0 0 mueq (θ.getD 0) lam0 t ↔ KKT P mueq (θ.getD 0) lam0 t := by
    unfold KKTWithin KKT
    rw [within_zero, tailKKTWithin_zero]
  rw [← e, ← h]
  constructor
  · intro hh; rw [hh]; exact ⟨le_rfl, le_rfl, le_rfl⟩
  · rintro ⟨h1, h2, h3⟩
    have e1 := le_antisymm h1 h0.1
    have e2 := le_antisymm h2 h0.2.1
    have e3 := le_antisymm h3 h0.2.2
    generalize lqrComputeKktError P mueq θ lam0 t = err at e1 e2 e3
    cases err
    simp only at e1 e2 e3
    rw [e1, e2, e3]

/-- **C15** Whenever the serial solver's backward pass succeeds, `lqrComputeKktError` of its solution is zero
(exact arithmetic). -/
theorem C15_solver_output_has_zero_error [DecidableEq 𝕜] {ldl : LDL 𝕜} (hl : ldl.Exact) {nc0 nx : ℕ}
    (P : Problem 𝕜 nth nc0 nx) (mueq : 𝕜) (hs : P.stages.Symm) (s : Solver P)
    (hb : backward ldl P mueq = .ok s) (θ : Option (Vec 𝕜 nth)) (hG : P.stages.GvZero (θ.getD 0)) :
    lqrComputeKktError P mueq θ (forward s (θ.getD 0)).1 (forward s (θ.getD 0)).2 = ⟨0, 0, 0⟩ :=
  (C15_kkt_error_zero_iff_KKT P mueq θ hG _ _).2 (C01_forward_solves_KKT hl P mueq hs s hb _ hG)

end ordered

section sparse
variable [Field 𝕜]

/-- **C15** (`_partial`: the system is not the one of the documentation, see below.) The assembled matrix and
right-hand side describe the KKT system of the problem with dynamics `A x + B u + f + x' = 0`: the sign of the
next state is flipped. All horizons and dimensions for which no write is out of bounds, all vectors `z`. -/
theorem C15_sparse_system_partial {nc0 nx : ℕ} (P : Problem 𝕜 nth nc0 nx) (mueq : 𝕜) (n : ℕ)
    (mat : ℕ → ℕ → 𝕜) (rhs : ℕ → 𝕜) (h : lqrCreateSparseMatrix P mueq = some (n, mat, rhs)) (z : ℕ → 𝕜) :
    (∀ i, i < n → ∑ j ∈ Finset.range n, mat i j * z j + rhs i = 0) ↔
      P.G0 *ᵥ (lqrDenseSolutionToTraj P z).2.x0 + P.g0 = 0 ∧
      TailKKTE 1 mueq P.stages (-(P.G0ᵀ *ᵥ (lqrDenseSolutionToTraj P z).1)) (lqrDenseSolutionToTraj P z).2 := by
  unfold lqrCreateSparseMatrix at h
  split at h
  · cases h
  rename_i hb
  rw [Nat.not_lt] at hb
  have hge := endIdx_ge P.stages nc0
  have hM : assignBlock nc0 0 P.G0ᵀ (assignBlock 0 nc0 P.G0 fun _ _ => 0) =
      fun i j => blkAt 0 nc0 P.G0 i j + blkAt nc0 0 P.G0ᵀ i j :=
    assignBlock_eq_add nc0 0 P.G0ᵀ _ (fun i j h1 h2 h3 h4 => blkAt_out P.G0 (by omega))
  have hz : ∀ i j, nc0 ≤ i → nc0 ≤ j →
      assignBlock nc0 0 P.G0ᵀ (assignBlock 0 nc0 P.G0 fun _ _ => 0) i j = 0 := by
    intro i j hi hj
    rw [hM]
    simp (disch := omega) only [blkAt_out, add_zero]
  obtain ⟨I1, I2, I3⟩ := sparseLoop_spec mueq z (lqrNumRows P) P.stages nc0
    (assignBlock nc0 0 P.G0ᵀ (assignBlock 0 nc0 P.G0 fun _ _ => 0)) (assignSeg 0 P.g0 fun _ => 0)
    (P.G0ᵀ *ᵥ seg z 0 nc0) hz
    (fun i hi => assignSeg_out _ _ (by omega))
    (fun a => by
      rw [hM, app_add, app_blk_out _ _ (by omega), zero_add, app_blk _ _ (by omega) a rfl])
    (fun i hi => by
      rw [hM, app_add, app_blk_out _ _ (by omega), zero_add, app_blk_out _ _ (by omega)]) hb
  injection h with h
  have e1 : lqrNumRows P = n := congrArg Prod.fst h
  have e2 : (sparseLoop mueq P.stages nc0 (assignBlock nc0 0 P.G0ᵀ (assignBlock 0 nc0 P.G0 fun _ _ => 0),
      assignSeg 0 P.g0 fun _ => 0)) = (mat, rhs) := congrArg Prod.snd h
  rw [e2, e1] at I3
  rw [e2] at I1 I2
  dsimp only at I1 I2 I3
  rw [e1] at hb
  simp only [lqrDenseSolutionToTraj]
  rw [← I3, splitTraj_x0, vec_eq_zero_iff]
  have hrow : ∀ a : Fin nc0, app n mat z a + rhs a = (P.G0 *ᵥ seg z nc0 nx + P.g0) a := by
    intro a
    rw [show app n mat z a = app n (assignBlock nc0 0 P.G0ᵀ (assignBlock 0 nc0 P.G0 fun _ _ => 0)) z a from
      app_congr fun j _ => I1 a j (by omega), hM, app_add, app_blk _ _ (by omega) a (by omega),
      app_blk_out _ _ (by omega), add_zero, I2 _ a.2, assignSeg_in _ _ a (by omega)]
    rfl
  constructor
  · intro H
    exact ⟨fun a => by rw [← hrow]; exact H a (by omega), fun i h1 h2 => H i h2⟩
  · rintro ⟨H1, H2⟩ i hi
    rcases Nat.lt_or_ge i nc0 with h1 | h1
    · have := H1 ⟨i, h1⟩
      rw [← hrow] at this
      exact this
    · exact H2 i h1 hi

/-- The system with `σ = -1` is the KKT system of the documentation. -/
theorem tailKKTE_neg_one (mu : 𝕜) {nx : ℕ} (ch : Chain 𝕜 nth nx) (p : Vec 𝕜 nx) (t : Traj ch) :
    TailKKTE (-1) mu ch p t ↔ TailKKT mu 0 ch p t := by
  induction ch with
  | last k => cases t with | last n => rfl
  | cons k tl ih =>
    cases t with
    | cons n lam t =>
      simp only [TailKKTE, TailKKT, ih, neg_smul, one_smul, neg_neg, add_neg_eq_zero]

/-- **C15** Without dynamics (horizon 0) the assembled system is the KKT system. -/
theorem C15_sparse_system_horizon_zero_partial {nc0 nx nu nc nx2 : ℕ} (G0 : Mat 𝕜 nc0 nx) (g0 : Vec 𝕜 nc0)
    (k : Knot 𝕜 nth nx nu nc nx2) (mueq : 𝕜) : ∃ mat rhs,
    lqrCreateSparseMatrix ⟨G0, g0, .last k⟩ mueq = some (nc0 + (nx + nu + nc), mat, rhs) ∧ ∀ z,
      (∀ i, i < nc0 + (nx + nu + nc) →
        ∑ j ∈ Finset.range (nc0 + (nx + nu + nc)), mat i j * z j + rhs i = 0) ↔
      KKT ⟨G0, g0, .last k⟩ mueq 0 (lqrDenseSolutionToTraj ⟨G0, g0, .last k⟩ z).1
        (lqrDenseSolutionToTraj ⟨G0, g0, .last k⟩ z).2 := by
  have hex : ∃ mat rhs, lqrCreateSparseMatrix ⟨G0, g0, .last k⟩ mueq =
      some (nc0 + (nx + nu + nc), mat, rhs) := by
    unfold lqrCreateSparseMatrix
    rw [if_neg (by simp only [lqrNumRows, numRowsAux, endIdx]; omega)]
    exact ⟨_, _, rfl⟩
  obtain ⟨mat, rhs, h⟩ := hex
  refine ⟨mat, rhs, h, fun z => ?_⟩
  rw [C15_sparse_system_partial _ mueq _ mat rhs h z]
  rfl

/-- **C15** The number of rows: exceeds (or falls short of) the size of the system by the difference between the
first and the last state dimension. -/
theorem C15_row_count {nc0 nx : ℕ} (P : Problem 𝕜 nth nc0 nx) :
    ∃ nxN, (∀ z : ℕ → 𝕜, ∃ nu nc, ∃ n : Node 𝕜 nxN nu nc,
        (List.ofFn n.x ++ (List.ofFn n.u ++ List.ofFn n.v)) <:+ (splitTraj z P.stages nc0).flatten) ∧
      lqrNumRows P + nxN = endIdx P.stages nc0 + nx := by
  obtain ⟨G0, g0, ch⟩ := P
  have key : ∀ {nx : ℕ} (ch : Chain 𝕜 nth nx) (idx : ℕ), ∃ nxN,
      (∀ z : ℕ → 𝕜, ∃ nu nc, ∃ n : Node 𝕜 nxN nu nc,
        (List.ofFn n.x ++ (List.ofFn n.u ++ List.ofFn n.v)) <:+ (splitTraj z ch idx).flatten) ∧
      idx + numRowsAux ch + nxN = endIdx ch idx + nx := by
    intro nx ch
    induction ch with
    | @last nx nu nc nx2 k =>
      intro idx
      refine ⟨nx, fun z => ⟨nu, nc, ⟨seg z idx nx, seg z (idx + nx) nu, seg z (idx + nx + nu) nc⟩,
        List.suffix_rfl⟩, ?_⟩
      simp only [numRowsAux, endIdx]; omega
    | @cons nx nu nc nx2 k tl ih =>
      intro idx
      obtain ⟨nxN, h1, h2⟩ := ih (idx + nx + nu + nc + nx2)
      refine ⟨nxN, fun z => ?_, ?_⟩
      · obtain ⟨nu, nc, n, hn⟩ := h1 z
        refine ⟨nu, nc, n, ?_⟩
        simp only [splitTraj, Traj.flatten]
        repeat (first | exact hn | refine List.suffix_append_of_suffix ?_)
      · simp only [numRowsAux, endIdx]; omega
  exact key ch nc0

theorem ofFn_seg_get (l : List 𝕜) (i n : ℕ) (a : Fin n) (h : i + a < l.length) :
    seg (fun j => l.getD j 0) i n a = l[i + a] := by
  simp [seg, List.getD_eq_getElem?_getD, h]

/-- splitting reads exactly the flattened components found from `idx` on -/
theorem splitTraj_flatten {nx : ℕ} {ch : Chain 𝕜 nth nx} (t : Traj ch) (pre : List 𝕜) (post : List 𝕜) :
    splitTraj (fun j => (pre ++ (t.flatten ++ post)).getD j 0) ch pre.length = t := by
  have get : ∀ (pre post : List 𝕜) {n : ℕ} (v : Vec 𝕜 n),
      seg (fun j => (pre ++ (List.ofFn v ++ post)).getD j 0) pre.length n = v := by
    intro pre post n v
    funext a
    simp only [seg]
    rw [List.getD_eq_getElem?_getD, List.getElem?_append_right (by omega), Nat.add_sub_cancel_left,
      List.getElem?_append_left (by simp)]
    simp
  have get' : ∀ (l pre post : List 𝕜) {n : ℕ} (v : Vec 𝕜 n) (i : ℕ), l = pre ++ (List.ofFn v ++ post) →
      i = pre.length → seg (fun j => l.getD j 0) i n = v := by
    rintro l pre post n v i rfl rfl; exact get pre post v
  induction t generalizing pre with
  | @last nx nu nc nx2 k n =>
    simp only [splitTraj, Traj.flatten]
    rw [get' _ pre (List.ofFn n.u ++ (List.ofFn n.v ++ post)) n.x _ (by simp [List.append_assoc]) rfl,
      get' _ (pre ++ List.ofFn n.x) (List.ofFn n.v ++ post) n.u _ (by simp [List.append_assoc]) (by simp),
      get' _ (pre ++ (List.ofFn n.x ++ List.ofFn n.u)) post n.v _ (by simp [List.append_assoc])
        (by simp [Nat.add_assoc])]
  | @cons nx nu nc nx2 k tl n lam t ih =>
    simp only [splitTraj, Traj.flatten]
    rw [get' _ pre (List.ofFn n.u ++ (List.ofFn n.v ++ (List.ofFn lam ++ (t.flatten ++ post)))) n.x _
        (by simp [List.append_assoc]) rfl,
      get' _ (pre ++ List.ofFn n.x) (List.ofFn n.v ++ (List.ofFn lam ++ (t.flatten ++ post))) n.u _
        (by simp [List.append_assoc]) (by simp),
      get' _ (pre ++ (List.ofFn n.x ++ List.ofFn n.u)) (List.ofFn lam ++ (t.flatten ++ post)) n.v _
        (by simp [List.append_assoc]) (by simp [Nat.add_assoc]),
      get' _ (pre ++ (List.ofFn n.x ++ (List.ofFn n.u ++ List.ofFn n.v))) (t.flatten ++ post) lam _
        (by simp [List.append_assoc]) (by simp [Nat.add_assoc])]
    have := ih (pre ++ (List.ofFn n.x ++ (List.ofFn n.u ++ (List.ofFn n.v ++ List.ofFn lam))))
    rw [show (pre ++ (List.ofFn n.x ++ (List.ofFn n.u ++ (List.ofFn n.v ++ List.ofFn lam)))).length =
      pre.length + nx + nu + nc + nx2 by simp [Nat.add_assoc]] at this
    simp only [List.append_assoc] at this ⊢
    rw [this]

/-- **C15** Splitting the concatenation of a primal-dual trajectory gives back the trajectory. -/
theorem C15_split_of_concat {nc0 nx : ℕ} (P : Problem 𝕜 nth nc0 nx) (lam0 : Vec 𝕜 nc0) (t : Traj P.stages) :
    lqrDenseSolutionToTraj P (fun j => (List.ofFn lam0 ++ t.flatten).getD j 0) = (lam0, t) := by
  unfold lqrDenseSolutionToTraj
  have h2 := splitTraj_flatten t (List.ofFn lam0) []
  simp only [List.append_nil, List.length_ofFn] at h2
  rw [h2]
  congr 1
  funext a
  simp only [seg, Nat.zero_add]
  rw [List.getD_eq_getElem?_getD, List.getElem?_append_left (by simp)]
  simp

/-- **C15** Concatenating a split vector gives back the vector: the components are read in order, without gaps
or overlaps. -/
theorem C15_concat_of_split {nc0 nx : ℕ} (P : Problem 𝕜 nth nc0 nx) (z : ℕ → 𝕜) :
    List.ofFn (lqrDenseSolutionToTraj P z).1 ++ (lqrDenseSolutionToTraj P z).2.flatten =
      List.ofFn (seg z 0 (endIdx P.stages nc0)) := by
  have cat : ∀ i a b, List.ofFn (seg z i a) ++ List.ofFn (seg z (i + a) b) = List.ofFn (seg z i (a + b)) := by
    intro i a b
    rw [List.ofFn_add]
    congr 1
    congr 1
    funext j
    simp [seg, Nat.add_assoc]
  have ge : ∀ {nx : ℕ} (ch : Chain 𝕜 nth nx) (idx : ℕ), idx ≤ endIdx ch idx := fun ch idx =>
    (Nat.le_add_right _ _).trans (endIdx_ge ch idx)
  have key : ∀ {nx : ℕ} (ch : Chain 𝕜 nth nx) (idx : ℕ),
      (splitTraj z ch idx).flatten = List.ofFn (seg z idx (endIdx ch idx - idx)) := by
    intro nx ch
    induction ch with
    | @last nx nu nc nx2 k =>
      intro idx
      simp only [splitTraj, Traj.flatten, endIdx]
      rw [cat, Nat.add_assoc idx nx nu, ← Nat.add_assoc, cat]
      rw [show idx + nx + nu + nc - idx = nx + (nu + nc) by omega]
    | @cons nx nu nc nx2 k tl ih =>
      intro idx
      simp only [splitTraj, Traj.flatten, endIdx]
      have := ge tl (idx + nx + nu + nc + nx2)
      rw [ih, cat, cat, cat, cat]
      congr 2 <;> omega
  simp only [lqrDenseSolutionToTraj]
  rw [key]
  have := cat 0 nc0 (endIdx P.stages nc0 - nc0)
  rw [Nat.zero_add] at this
  rw [this]
  have := ge P.stages nc0
  congr 2 <;> omega

/-- **C15** (`_partial`: the objective of a terminal control is missing.) `evaluate` is the objective of the
problem minus the terms of the terminal control. -/
theorem C15_evaluate_partial {nx : ℕ} (ch : Chain 𝕜 nth nx) (θ : Option (Vec 𝕜 nth)) (t : Traj ch) :
    evalLoop θ ch t + terminalControlTerms (θ.getD 0) ch t = objective (θ.getD 0) ch t := by
  have tr : ∀ {a : ℕ} (M : Mat 𝕜 a nth) (x : Vec 𝕜 a) (th : Vec 𝕜 nth), th ⬝ᵥ Mᵀ *ᵥ x = x ⬝ᵥ M *ᵥ th := by
    intro a M x th
    rw [mulVec_transpose, dotProduct_comm, dotProduct_mulVec]
  induction t with
  | @last nx nu nc nx2 k n =>
    cases θ with
    | none =>
      simp only [evalLoop, terminalControlTerms, objective, knotObjective, Option.getD_none, mulVec_zero,
        dotProduct_zero]
      rw [dotProduct_comm n.x k.q]
      ring
    | some th =>
      simp only [evalLoop, terminalControlTerms, objective, knotObjective, Option.getD_some, tr]
      rw [dotProduct_comm n.x k.q, dotProduct_comm th k.gamma]
      ring
  | @cons nx nu nc nx2 k tl n lam t ih =>
    cases θ with
    | none =>
      simp only [evalLoop, terminalControlTerms, objective, knotObjective, Option.getD_none, mulVec_zero,
        dotProduct_zero] at ih ⊢
      rw [← ih, dotProduct_comm n.x k.q, dotProduct_comm n.u k.r]
      ring
    | some th =>
      simp only [evalLoop, terminalControlTerms, objective, knotObjective, Option.getD_some, tr] at ih ⊢
      rw [← ih, dotProduct_comm n.x k.q, dotProduct_comm n.u k.r, dotProduct_comm th k.gamma]
      ring

end sparse

/-! ## Concrete cases and disagreements -/

/-- **C15, disagreement with the code.** For parametric problems with `Gv ≠ 0` the computed error ignores the
parameter in the constraints: it is zero at points that are not KKT points. -/
theorem C15_error_ignores_Gv : ∃ (lam0 : Vec ℚ 1) (t : Traj gvProblem.stages) (θ : Vec ℚ 1),
    lqrComputeKktError gvProblem 1 (some θ) lam0 t = ⟨0, 0, 0⟩ ∧ ¬ KKT gvProblem 1 θ lam0 t := by
  refine ⟨![0], .last ⟨![0], ![], ![0]⟩, ![1], ?_, ?_⟩
  · simp [lqrComputeKktError, gvProblem, kktErrLoop, errGx, errGu, errCst, inftyNorm, mulVec, dotProduct, Traj.x0,
      List.ofFn_succ, Matrix.vecHead]
  · rintro ⟨-, h⟩
    have := congrFun h.2.2 0
    simp [gradV, mulVec, dotProduct, Matrix.vecHead] at this

/-- Scalar, one step `x' = x`, cost `½ x'^2`, `x0 = 1`. -/
def flipProblem : Problem ℚ 0 1 1 where
  G0 := !![-1]
  g0 := ![1]
  stages := .cons (nu := 0) (nc := 0) (nx2 := 1)
    { Q := !![0], S := 0, R := 0, q := ![0], r := 0, A := !![1], B := 0, f := ![0]
      C := 0, D := 0, d := 0, Gth := 0, Gx := 0, Gu := 0, Gv := 0, gamma := 0 }
    (.last (nu := 0) (nc := 0) (nx2 := 0)
      { Q := !![1], S := 0, R := 0, q := ![0], r := 0, A := 0, B := 0, f := 0
        C := 0, D := 0, d := 0, Gth := 0, Gx := 0, Gu := 0, Gv := 0, gamma := 0 })

/-- **C15, disagreement with the code.** The assembled system has solutions that are not KKT points, and rejects
the KKT point of the problem: the identity blocks of the dynamics carry the wrong sign. -/
theorem C15_sparse_system_wrong_sign : ∃ n mat rhs, ∃ z z' : ℕ → ℚ,
    lqrCreateSparseMatrix flipProblem 0 = some (n, mat, rhs) ∧
    KKT flipProblem 0 0 (lqrDenseSolutionToTraj flipProblem z).1 (lqrDenseSolutionToTraj flipProblem z).2 ∧
    ¬ (∀ i, i < n → ∑ j ∈ Finset.range n, mat i j * z j + rhs i = 0) ∧
    ¬ KKT flipProblem 0 0 (lqrDenseSolutionToTraj flipProblem z').1
      (lqrDenseSolutionToTraj flipProblem z').2 ∧
    ∀ i, i < n → ∑ j ∈ Finset.range n, mat i j * z' j + rhs i = 0 := by
  have hex : ∃ n mat rhs, lqrCreateSparseMatrix flipProblem 0 = some (n, mat, rhs) := by
    unfold lqrCreateSparseMatrix
    rw [if_neg (by simp [lqrNumRows, numRowsAux, endIdx, flipProblem])]
    exact ⟨_, _, _, rfl⟩
  obtain ⟨n, mat, rhs, h⟩ := hex
  have vec0 : ∀ (v : Vec ℚ 0), v = 0 := fun v => Subsingleton.elim _ _
  refine ⟨n, mat, rhs, fun j => 1, fun j => if j = 3 then -1 else 1, h, ?_, ?_, ?_, ?_⟩
  · refine ⟨?_, ?_, vec0 _, vec0 _, ?_, ?_, vec0 _, vec0 _⟩ <;>
      (funext i; fin_cases i; simp [lqrDenseSolutionToTraj, splitTraj, flipProblem, seg, gradX, mulVec,
        dotProduct, Traj.x0])
  · rw [C15_sparse_system_partial _ _ _ _ _ h]
    rintro ⟨-, -, -, -, h4, -⟩
    have := congrFun h4 0
    simp [flipProblem, seg, mulVec, dotProduct, splitTraj_x0, splitTraj, Traj.x0] at this
    try norm_num at this
  · rintro ⟨-, -, -, -, h4, -⟩
    have := congrFun h4 0
    simp [flipProblem, seg, mulVec, dotProduct, splitTraj_x0, splitTraj, Traj.x0] at this
    try norm_num at this
  · rw [C15_sparse_system_partial _ _ _ _ _ h]
    refine ⟨?_, ?_, vec0 _, vec0 _, ?_, ?_, vec0 _, vec0 _⟩ <;>
      (funext i; fin_cases i; simp [lqrDenseSolutionToTraj, splitTraj, flipProblem, seg, gradX, mulVec,
        dotProduct, Traj.x0])

/-- **C15, disagreement with the code.** `evaluate` leaves out the cost of a terminal control. -/
theorem C15_evaluate_omits_terminal_control : ∃ (k : Knot ℚ 0 0 1 0 0) (t : Traj (.last k)),
    evalLoop none (.last k) t ≠ objective 0 (.last k) t := by
  refine ⟨{ Q := 0, S := 0, R := !![1], q := 0, r := ![0], A := 0, B := 0, f := 0
            C := 0, D := 0, d := 0, Gth := 0, Gx := 0, Gu := 0, Gv := 0, gamma := 0 },
    .last ⟨![], ![1], ![]⟩, ?_⟩
  simp [evalLoop, objective, knotObjective, dotProduct, mulVec]

/-- Non-vacuity: the serial solver's solution of `exProblem` has zero error for every parameter. -/
example : ∃ s : Solver exProblem, backward (invLDL ℚ) exProblem (1/10) = .ok s ∧
    ∀ θ, lqrComputeKktError exProblem (1/10) (some θ) (forward s θ).1 (forward s θ).2 = ⟨0, 0, 0⟩ := by
  obtain ⟨s, hs⟩ := exProblem_backward (invLDL_exact ℚ) (invLDL_complete ℚ)
  obtain ⟨h1, h2, h3, h4, h5⟩ := exProblem_ok
  exact ⟨s, hs, fun θ => C15_solver_output_has_zero_error (invLDL_exact ℚ) _ _ h1 s hs (some θ)
    (noGv_gvZero θ _ h3)⟩

end Aligator.Gar
