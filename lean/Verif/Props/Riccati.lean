import Verif.Lemmas.LqrCost
import Mathlib.Data.Rat.Defs
import Mathlib.Algebra.Order.Ring.Rat
import Mathlib.Data.Matrix.Reflection
import Mathlib.Tactic.NormNum

/-!
# Properties of the serial Riccati solver (C01–C05)

`ldl` is the symmetric indefinite solver; `Exact` and `Complete` are proved for the model of
`BunchKaufman` in `Verif/Props/BunchKaufman.lean`.
-/

set_option linter.unusedSectionVars false

namespace Aligator.Gar

open Matrix

section field
variable {𝕜 : Type*} [Field 𝕜] [DecidableEq 𝕜] {nth : ℕ}

/-- **C01** Whenever `backward` returns without an error, the output of `forward` (states, controls,
constraint multipliers, costates and initial multiplier) satisfies the proximal KKT system of the LQ
problem, for every horizon, all stage dimensions, every `mueq` and every parameter value `θ` whose
multiplier coupling `Gv θ` vanishes (in particular for every non-parametric problem). -/
theorem C01_forward_solves_KKT {ldl : LDL 𝕜} (hl : ldl.Exact) {nc0 nx : ℕ}
    (P : Problem 𝕜 nth nc0 nx) (mueq : 𝕜) (hs : P.stages.Symm) (s : Solver P)
    (hb : backward ldl P mueq = .ok s) (θ : Vec 𝕜 nth) (hG : P.stages.GvZero θ) :
    KKT P mueq θ (forward s θ).1 (forward s θ).2 := by
  unfold backward at hb
  split at hb
  · cases hb
  · rename_i F hF
    obtain ⟨hok, hV⟩ := backwardImpl_ok hl P.stages hs F hF
    split at hb
    · cases hb
    · rename_i X hX
      have hM := hl _ _ _ hX
      have hsym : (blk2 F.vm.Vxx P.G0ᵀ P.G0 (0 : Mat 𝕜 nc0 nc0)).IsSymm :=
        blk2_isSymm hV (by rw [Matrix.IsSymm, transpose_zero])
      rw [symLower_of_isSymm hsym] at hM
      injection hb with hb
      subst hb
      have a1 := solveVec_spec hM (-F.vm.vx) (-P.g0)
      have a2 := solveMat_spec hM (-F.vm.Vxt) (0 : Mat 𝕜 nc0 nth)
      have b1 := congrArg (fun M => M *ᵥ θ) a2.1
      have b2 := congrArg (fun M => M *ᵥ θ) a2.2
      obtain ⟨a11, a12⟩ := a1
      simp only [zero_mulVec, Matrix.zero_mul, add_zero, add_mulVec, neg_mulVec, ← mulVec_mulVec]
        at a11 a12 b1 b2
      constructor
      · simp only [forward, forwardImpl_x0, mulVec_add]
        linear_combination (norm := module) a12 + b2
      · have := forwardImpl_tailKKT θ P.stages hs hG F hok
          ((solveVec X (-F.vm.vx) (-P.g0)).1 +
            (solveMat X (-F.vm.Vxt) (0 : Mat 𝕜 nc0 nth)).1 *ᵥ θ)
        have e : F.vm.vx + F.vm.Vxx *ᵥ ((solveVec X (-F.vm.vx) (-P.g0)).1 +
            (solveMat X (-F.vm.Vxt) (0 : Mat 𝕜 nc0 nth)).1 *ᵥ θ) + F.vm.Vxt *ᵥ θ =
            -(P.G0ᵀ *ᵥ (forward (P := P)
              { datas := F, x0ff := (solveVec X (-F.vm.vx) (-P.g0)).1
                lam0ff := (solveVec X (-F.vm.vx) (-P.g0)).2
                x0fth := (solveMat X (-F.vm.Vxt) (0 : Mat 𝕜 nc0 nth)).1
                lam0fth := (solveMat X (-F.vm.Vxt) (0 : Mat 𝕜 nc0 nth)).2
                thGrad := F.vm.vt + F.vm.Vxtᵀ *ᵥ (solveVec X (-F.vm.vx) (-P.g0)).1
                thHess := F.vm.Vtt +
                  F.vm.Vxtᵀ * (solveMat X (-F.vm.Vxt) (0 : Mat 𝕜 nc0 nth)).1 } θ).1) := by
          simp only [forward, mulVec_add]
          linear_combination (norm := module) a11 + b1
        rw [e] at this
        exact this

/-- **C01, non-parametric form**: with `nth = 0` no hypothesis on the parametric blocks is left. -/
theorem C01_forward_solves_KKT_nonparametric {ldl : LDL 𝕜} (hl : ldl.Exact) {nc0 nx : ℕ}
    (P : Problem 𝕜 0 nc0 nx) (mueq : 𝕜) (hs : P.stages.Symm) (s : Solver P)
    (hb : backward ldl P mueq = .ok s) :
    KKT P mueq 0 (forward s 0).1 (forward s 0).2 := by
  refine C01_forward_solves_KKT hl P mueq hs s hb 0 ?_
  have : ∀ {nx : ℕ} (ch : Chain 𝕜 0 nx), ch.GvZero 0 := by
    intro nx ch
    induction ch with
    | last k => exact mulVec_zero _
    | cons k tl ih => exact ⟨mulVec_zero _, ih⟩
  exact this _

/-- **C02** When `backward` succeeds the KKT system has exactly one solution, the one returned by
`forward`: any two KKT points agree in every state, control, multiplier and costate. -/
theorem C02_KKT_solution_unique {ldl : LDL 𝕜} (hl : ldl.Exact) {nc0 nx : ℕ}
    (P : Problem 𝕜 nth nc0 nx) (mueq : 𝕜) (hs : P.stages.Symm) (s : Solver P)
    (hb : backward ldl P mueq = .ok s) (θ : Vec 𝕜 nth) (hG : P.stages.GvZero θ)
    (lam0 : Vec 𝕜 nc0) (t : Traj P.stages) (h : KKT P mueq θ lam0 t) :
    lam0 = (forward s θ).1 ∧ t = (forward s θ).2 := by
  have hk := C01_forward_solves_KKT hl P mueq hs s hb θ hG
  unfold backward at hb
  split at hb
  · cases hb
  · rename_i F hF
    obtain ⟨hok, hV⟩ := backwardImpl_ok hl P.stages hs F hF
    split at hb
    · cases hb
    · rename_i X hX
      have hM := hl _ _ _ hX
      have hsym : (blk2 F.vm.Vxx P.G0ᵀ P.G0 (0 : Mat 𝕜 nc0 nc0)).IsSymm :=
        blk2_isSymm hV (by rw [Matrix.IsSymm, transpose_zero])
      rw [symLower_of_isSymm hsym] at hM
      injection hb with hb
      have hd : s.datas = F := by rw [← hb]
      obtain ⟨p1, t1⟩ := tailKKT_unique θ P.stages hs hG F hok _ t h.2
      obtain ⟨p2, -⟩ := tailKKT_unique θ P.stages hs hG F hok _ _ hk.2
      have k1 := h.1
      have k2 := hk.1
      obtain ⟨e1, e2⟩ := blk2_inj hM (y := t.x0) (y' := (forward s θ).2.x0) (z := lam0)
        (z' := (forward s θ).1)
        (by linear_combination (norm := module) p2 - p1)
        (by
          rw [zero_mulVec, zero_mulVec]
          linear_combination (norm := module) k1 - k2)
      refine ⟨e2, ?_⟩
      rw [t1, e1]
      simp only [forward, forwardImpl_x0, hd]

/-- `F'` is the sequence of factors of a tail of the problem, i.e. `datas[i..]` for some `i`. -/
inductive IsTail : {nx nx' : ℕ} → {ch : Chain 𝕜 nth nx} → {ch' : Chain 𝕜 nth nx'} →
    Facs ch → Facs ch' → Prop
  | refl {nx : ℕ} {ch : Chain 𝕜 nth nx} (F : Facs ch) : IsTail F F
  | cons {nx nu nc nx2 nx' : ℕ} {k : Knot 𝕜 nth nx nu nc nx2} {tl : Chain 𝕜 nth nx2}
      {ch' : Chain 𝕜 nth nx'} (F : Factor 𝕜 nth nx nu nc nx2) {Ft : Facs tl} {F' : Facs ch'}
      (h : IsTail Ft F') : IsTail (Facs.cons (k := k) F Ft) F'

theorem IsTail.ok {mueq : 𝕜} {nx nx' : ℕ} {ch : Chain 𝕜 nth nx} {ch' : Chain 𝕜 nth nx'}
    {F : Facs ch} {F' : Facs ch'} (h : IsTail F F') (θ : Vec 𝕜 nth) (hs : ch.Symm)
    (hG : ch.GvZero θ) (hF : FacsOK mueq ch F) :
    ch'.Symm ∧ ch'.GvZero θ ∧ FacsOK mueq ch' F' := by
  induction h with
  | refl F => exact ⟨hs, hG, hF⟩
  | cons F h ih => exact ih hs.2 hG.2 hF.2.2

/-- **C04** For *every* knot `i` and *every* state `x` (not only the optimal one), rolling out the stored
feedforward and feedback gains from `x` at knot `i` gives the unique KKT point of the tail problem
started at `x`, with costate `vx + Vxx x + Vxt θ`. -/
theorem C04_gains_solve_every_tail {ldl : LDL 𝕜} (hl : ldl.Exact) {nc0 nx : ℕ}
    (P : Problem 𝕜 nth nc0 nx) (mueq : 𝕜) (hs : P.stages.Symm) (s : Solver P)
    (hb : backward ldl P mueq = .ok s) (θ : Vec 𝕜 nth) (hG : P.stages.GvZero θ)
    {nx' : ℕ} (ch' : Chain 𝕜 nth nx') (F' : Facs ch') (ht : IsTail s.datas F') (x : Vec 𝕜 nx') :
    (forwardImpl θ F' x).x0 = x ∧
    TailKKT mueq θ ch' (F'.vm.vx + F'.vm.Vxx *ᵥ x + F'.vm.Vxt *ᵥ θ) (forwardImpl θ F' x) ∧
    ∀ p t, TailKKT mueq θ ch' p t → t.x0 = x →
      p = F'.vm.vx + F'.vm.Vxx *ᵥ x + F'.vm.Vxt *ᵥ θ ∧ t = forwardImpl θ F' x := by
  unfold backward at hb
  split at hb
  · cases hb
  · rename_i F hF
    obtain ⟨hok, hV⟩ := backwardImpl_ok hl P.stages hs F hF
    split at hb
    · cases hb
    · injection hb with hb
      have hd : s.datas = F := by rw [← hb]
      rw [hd] at ht
      obtain ⟨hs', hG', hF'⟩ := ht.ok θ hs hG hok
      refine ⟨forwardImpl_x0 θ F' x, forwardImpl_tailKKT θ ch' hs' hG' F' hF' x, ?_⟩
      intro p t h hx
      obtain ⟨h1, h2⟩ := tailKKT_unique θ ch' hs' hG' F' hF' p t h
      rw [hx] at h1 h2
      exact ⟨h1, h2⟩

/-- The control applied at knot `i` of such a rollout is the affine feedback law of the stored gains. -/
theorem C04_control_is_affine_feedback {nx nu nc nx2 : ℕ} {k : Knot 𝕜 nth nx nu nc nx2}
    {tl : Chain 𝕜 nth nx2} (F : Factor 𝕜 nth nx nu nc nx2) (Ft : Facs tl) (θ : Vec 𝕜 nth)
    (x : Vec 𝕜 nx) : ∃ n lam t, forwardImpl θ (Facs.cons (k := k) F Ft) x = .cons n lam t ∧
      n.x = x ∧ n.u = F.kff + F.K *ᵥ x + F.Kth *ᵥ θ ∧ n.v = F.zff + F.Z *ᵥ x + F.Zth *ᵥ θ :=
  ⟨_, _, _, rfl, rfl, rfl, rfl⟩

theorem noGv_gvZero (θ : Vec 𝕜 nth) {nx : ℕ} (ch : Chain 𝕜 nth nx) (h : ch.NoGv) :
    ch.GvZero θ := by
  induction ch with
  | last k => exact (congrArg (· *ᵥ θ) h).trans (zero_mulVec θ)
  | cons k tl ih => exact ⟨(congrArg (· *ᵥ θ) h.1).trans (zero_mulVec θ), ih h.2⟩

/-- **C05** (gradient part; `_partial`: needs `Gv = 0`, see `C05_Gv_breaks_parametric_solution`)
`thGrad + thHess θ` is the derivative of the Lagrangian with respect to the parameter at the solution
for `θ`, for every `θ`. -/
theorem C05_parameter_gradient_partial {ldl : LDL 𝕜} (hl : ldl.Exact) {nc0 nx : ℕ}
    (P : Problem 𝕜 nth nc0 nx) (mueq : 𝕜) (hs : P.stages.Symm) (hG : P.stages.NoGv) (s : Solver P)
    (hb : backward ldl P mueq = .ok s) (θ : Vec 𝕜 nth) :
    s.thGrad + s.thHess *ᵥ θ = thetaGrad θ P.stages (forward s θ).2 := by
  unfold backward at hb
  split at hb
  · cases hb
  · rename_i F hF
    obtain ⟨hok, hV⟩ := backwardImpl_ok hl P.stages hs F hF
    split at hb
    · cases hb
    · injection hb with hb
      subst hb
      simp only [forward]
      rw [← forwardImpl_thetaGrad θ P.stages hG F hok]
      simp only [add_mulVec, mulVec_add, ← mulVec_mulVec]
      module

end field

section ordered
variable {𝕜 : Type*} [Field 𝕜] [LinearOrder 𝕜] [IsStrictOrderedRing 𝕜] {nth : ℕ}

/-- **C03** For a convex problem and `mueq > 0` the trajectory returned by the solver has the least
proximal cost among *all* trajectories satisfying the dynamics and the initial condition. -/
theorem C03_convex_global_minimum {ldl : LDL 𝕜} (hl : ldl.Exact) {nc0 nx : ℕ}
    (P : Problem 𝕜 nth nc0 nx) (mueq : 𝕜) (hmu : 0 < mueq) (hs : P.stages.Symm)
    (hc : P.stages.Convex) (s : Solver P) (hb : backward ldl P mueq = .ok s) (θ : Vec 𝕜 nth)
    (hG : P.stages.GvZero θ) :
    Feasible P (forward s θ).2 ∧
    ∀ t', Feasible P t' → cost mueq θ P.stages (forward s θ).2 ≤ cost mueq θ P.stages t' := by
  have hk := C01_forward_solves_KKT hl P mueq hs s hb θ hG
  have dyn : ∀ {nx : ℕ} (ch : Chain 𝕜 nth nx) p t, TailKKT mueq θ ch p t → Dyn ch t := by
    intro nx ch
    induction ch with
    | last k => intro p t _; cases t; trivial
    | cons k tl ih =>
      intro p t h
      cases t
      exact ⟨h.2.2.2.1, ih _ _ h.2.2.2.2⟩
  refine ⟨⟨hk.1, dyn _ _ _ hk.2⟩, ?_⟩
  intro t' h'
  have h := convex_chain hmu θ P.stages hs hc _ _ t' hk.2 h'.2
  have e : P.G0 *ᵥ (t'.x0 - (forward s θ).2.x0) = 0 := by
    rw [mulVec_sub]
    linear_combination (norm := module) h'.1 - hk.1
  rw [neg_dotProduct, dotProduct_comm, dot_tr, e, dotProduct_zero, neg_zero] at h
  linarith

/-- **C03, existence** For a convex problem with positive definite control Hessians, `mueq > 0` and an
initial condition of full row rank on whose kernel the first stage cost is positive definite (e.g. the
usual `G0 = -I`), the backward pass never fails. -/
theorem C03_backward_succeeds_on_convex {ldl : LDL 𝕜} (hl : ldl.Exact) (hcm : ldl.Complete)
    {nc0 nx : ℕ} (P : Problem 𝕜 nth nc0 nx) (mueq : 𝕜) (hmu : 0 < mueq) (hs : P.stages.Symm)
    (hc : P.stages.Convex) (hR : P.stages.RPos)
    (h0 : ∀ x, P.G0 *ᵥ x = 0 → x ≠ 0 → P.stages.HeadPos x)
    (h0' : ∀ z, P.G0ᵀ *ᵥ z = 0 → z = 0) :
    ∃ s, backward ldl P mueq = .ok s := by
  obtain ⟨F, hF⟩ := backwardImpl_success hl hcm hmu P.stages hs hc hR
  obtain ⟨hok, hV⟩ := backwardImpl_ok hl P.stages hs F hF
  have hu := blk2_init_isUnit (V := F.vm.Vxx) (G := P.G0)
    (fun x h1 h2 => FacsOK.pd_of_head hmu P.stages hc F hok x (h0 x h1 h2)) h0'
  have hsym : (blk2 F.vm.Vxx P.G0ᵀ P.G0 (0 : Mat 𝕜 nc0 nc0)).IsSymm :=
    blk2_isSymm hV (by rw [Matrix.IsSymm, transpose_zero])
  have hi := hcm _ (blk2 F.vm.Vxx P.G0ᵀ P.G0 (0 : Mat 𝕜 nc0 nc0))
    (by rw [symLower_of_isSymm hsym]; exact hu)
  obtain ⟨X, hX⟩ := Option.isSome_iff_exists.1 hi
  unfold backward
  rw [hF]
  dsimp only
  rw [hX]
  exact ⟨_, rfl⟩

/-- **C04, optimality** For convex problems the stored gains are an optimal policy: from every state of
every knot the rollout minimises the cost-to-go among all continuations. -/
theorem C04_gains_are_optimal_policy {ldl : LDL 𝕜} (hl : ldl.Exact) {nc0 nx : ℕ}
    (P : Problem 𝕜 nth nc0 nx) (mueq : 𝕜) (hmu : 0 < mueq) (hs : P.stages.Symm) (s : Solver P)
    (hb : backward ldl P mueq = .ok s) (θ : Vec 𝕜 nth) (hG : P.stages.GvZero θ)
    {nx' : ℕ} (ch' : Chain 𝕜 nth nx') (hc : ch'.Convex) (hs' : ch'.Symm) (F' : Facs ch')
    (ht : IsTail s.datas F') (x : Vec 𝕜 nx') (t' : Traj ch') (hd : Dyn ch' t') (hx : t'.x0 = x) :
    cost mueq θ ch' (forwardImpl θ F' x) ≤ cost mueq θ ch' t' := by
  obtain ⟨-, hk, -⟩ := C04_gains_solve_every_tail hl P mueq hs s hb θ hG ch' F' ht x
  have h := convex_chain hmu θ ch' hs' hc _ _ t' hk hd
  rw [forwardImpl_x0, hx, sub_self, dotProduct_zero] at h
  linarith

/-- **C04, value function** The stored `Vxx`, `vx` are the exact quadratic cost-to-go: the cost of the
rollout from `x` exceeds the cost of the rollout from `0` by `½ xᵀ Vxx x + vxᵀ x` (parameter `0`). -/
theorem C04_cost_to_go {ldl : LDL 𝕜} (hl : ldl.Exact) {nc0 nx : ℕ}
    (P : Problem 𝕜 nth nc0 nx) (mueq : 𝕜) (hmu : mueq ≠ 0) (hs : P.stages.Symm) (s : Solver P)
    (hb : backward ldl P mueq = .ok s) (hG : P.stages.GvZero 0)
    {nx' : ℕ} (ch' : Chain 𝕜 nth nx') (hs' : ch'.Symm) (hT : ch'.GthSymm) (F' : Facs ch')
    (ht : IsTail s.datas F') (x : Vec 𝕜 nx') :
    cost mueq 0 ch' (forwardImpl 0 F' x) = cost mueq 0 ch' (forwardImpl 0 F' 0) +
      F'.vm.vx ⬝ᵥ x + (1/2) * (x ⬝ᵥ F'.vm.Vxx *ᵥ x) := by
  obtain ⟨-, hk, -⟩ := C04_gains_solve_every_tail hl P mueq hs s hb 0 hG ch' F' ht x
  obtain ⟨-, hk0, -⟩ := C04_gains_solve_every_tail hl P mueq hs s hb 0 hG ch' F' ht 0
  have h := trapezoid_chain hmu 0 0 ch' hs' hT _ _ _ _ hk0 hk
  simp only [forwardImpl_x0, sub_zero, mulVec_zero, add_zero, dotProduct_zero, add_dotProduct] at h
  rw [dotProduct_comm (F'.vm.Vxx *ᵥ x)] at h
  linarith

/-- **C05** (value part; `_partial`: needs `Gv = 0`) The optimal cost as a function of the parameter is
the quadratic with gradient `thGrad` at `0` and Hessian `thHess`. -/
theorem C05_parametric_value_partial {ldl : LDL 𝕜} (hl : ldl.Exact) {nc0 nx : ℕ}
    (P : Problem 𝕜 nth nc0 nx) (mueq : 𝕜) (hmu : mueq ≠ 0) (hs : P.stages.Symm)
    (hT : P.stages.GthSymm) (hG : P.stages.NoGv) (s : Solver P)
    (hb : backward ldl P mueq = .ok s) (θ : Vec 𝕜 nth) :
    KKT P mueq θ (forward s θ).1 (forward s θ).2 ∧
    cost mueq θ P.stages (forward s θ).2 =
      cost mueq 0 P.stages (forward s 0).2 + s.thGrad ⬝ᵥ θ + (1/2) * (θ ⬝ᵥ s.thHess *ᵥ θ) := by
  have hk := C01_forward_solves_KKT hl P mueq hs s hb θ (noGv_gvZero θ _ hG)
  have hk0 := C01_forward_solves_KKT hl P mueq hs s hb 0 (noGv_gvZero 0 _ hG)
  refine ⟨hk, ?_⟩
  have h := trapezoid_chain hmu 0 θ P.stages hs hT _ _ _ _ hk0.2 hk.2
  rw [← C05_parameter_gradient_partial hl P mueq hs hG s hb θ,
    ← C05_parameter_gradient_partial hl P mueq hs hG s hb 0] at h
  have e : P.G0 *ᵥ ((forward s θ).2.x0 - (forward s 0).2.x0) = 0 := by
    rw [mulVec_sub]
    linear_combination (norm := module) hk.1 - hk0.1
  rw [add_dotProduct, neg_dotProduct, neg_dotProduct, dotProduct_comm (P.G0ᵀ *ᵥ _), dot_tr, e,
    dotProduct_comm (P.G0ᵀ *ᵥ _), dot_tr, e] at h
  simp only [dotProduct_zero, mulVec_zero, sub_zero, add_zero, add_dotProduct, neg_zero, zero_add]
    at h
  rw [dotProduct_comm (s.thHess *ᵥ θ)] at h
  linarith

end ordered

/-- An exact and complete symmetric solver, used for the concrete instances below. -/
noncomputable def invLDL (𝕜 : Type*) [Field 𝕜] [DecidableEq 𝕜] : LDL 𝕜 where
  inv? _ M := if (symLower M).det = 0 then none else some (symLower M)⁻¹

theorem invLDL_exact (𝕜 : Type*) [Field 𝕜] [DecidableEq 𝕜] : (invLDL 𝕜).Exact := by
  intro n M X h
  simp only [invLDL] at h
  split at h
  · cases h
  · rename_i hd
    injection h with h
    subst h
    exact mul_nonsing_inv _ (isUnit_iff_ne_zero.2 hd)

theorem invLDL_complete (𝕜 : Type*) [Field 𝕜] [DecidableEq 𝕜] : (invLDL 𝕜).Complete := by
  intro n M h
  simp only [invLDL]
  rw [if_neg (isUnit_iff_ne_zero.1 h)]
  rfl

/-- A scalar stage with a constraint and parametric terms. -/
def exKnot (a : ℚ) : Knot ℚ 1 1 1 1 1 where
  Q := !![a]
  S := !![1]
  R := !![2]
  q := ![1]
  r := ![-1]
  A := !![2]
  B := !![1]
  f := ![1]
  C := !![1]
  D := !![1]
  d := ![3]
  Gth := !![1]
  Gx := !![1]
  Gu := !![2]
  Gv := !![0]
  gamma := ![1]

/-- A two-step problem with initial condition `x0 = 5`. -/
def exProblem : Problem ℚ 1 1 1 where
  G0 := !![-1]
  g0 := ![5]
  stages := .cons (exKnot 1) (.cons (exKnot 2) (.last (exKnot 3)))

theorem exProblem_ok : exProblem.stages.Symm ∧ exProblem.stages.GthSymm ∧ exProblem.stages.NoGv ∧
    exProblem.stages.Convex ∧ exProblem.stages.RPos := by
  have conv : ∀ (a : ℚ), 1 ≤ a → ∀ x u : Vec ℚ 1,
      0 ≤ x ⬝ᵥ (exKnot a).Q *ᵥ x + 2 * (x ⬝ᵥ (exKnot a).S *ᵥ u) + u ⬝ᵥ (exKnot a).R *ᵥ u := by
    intro a ha x u
    simp [exKnot, dotProduct, mulVec, Matrix.of_apply]
    nlinarith [mul_self_nonneg (x 0 + u 0), mul_self_nonneg (u 0), mul_self_nonneg (x 0)]
  have rpos : ∀ (a : ℚ), ∀ u : Vec ℚ 1, u ≠ 0 → 0 < u ⬝ᵥ (exKnot a).R *ᵥ u := by
    intro a u hu
    have : u 0 ≠ 0 := by
      intro h; apply hu; funext i; fin_cases i; exact h
    simp [exKnot, dotProduct, mulVec, Matrix.of_apply]
    have := mul_self_pos.2 this
    nlinarith
  have symm : ∀ M : Mat ℚ 1 1, M.IsSymm := by
    intro M; ext i j; fin_cases i; fin_cases j; rfl
  have z : ∀ a, (exKnot a).Gv = 0 := by
    intro a; ext i j; fin_cases i; fin_cases j; rfl
  exact ⟨⟨⟨symm _, symm _⟩, ⟨symm _, symm _⟩, symm _, symm _⟩, ⟨symm _, symm _, symm _⟩,
    ⟨z _, z _, z _⟩, ⟨conv 1 (by norm_num), conv 2 (by norm_num), conv 3 (by norm_num)⟩,
    ⟨rpos _, rpos _, rpos _⟩⟩

/-- Non-vacuity of C01–C05: the backward pass succeeds on `exProblem`, so all hypotheses hold. -/
theorem exProblem_backward {ldl : LDL ℚ} (hl : ldl.Exact) (hc : ldl.Complete) :
    ∃ s, backward ldl exProblem (1/10) = .ok s := by
  obtain ⟨h1, h2, h3, h4, h5⟩ := exProblem_ok
  refine C03_backward_succeeds_on_convex hl hc exProblem (1/10) (by norm_num) h1 h4 h5 ?_ ?_
  · intro x hx hx0
    exfalso
    apply hx0
    have := congrFun hx 0
    simp [exProblem, mulVec, dotProduct] at this
    funext i; fin_cases i; exact this
  · intro z hz
    have := congrFun hz 0
    simp [exProblem, mulVec, dotProduct] at this
    funext i; fin_cases i; exact this

example : ∃ s : Solver exProblem, backward (invLDL ℚ) exProblem (1/10) = .ok s ∧
    ∀ θ, KKT exProblem (1/10) θ (forward s θ).1 (forward s θ).2 := by
  obtain ⟨s, hs⟩ := exProblem_backward (invLDL_exact ℚ) (invLDL_complete ℚ)
  obtain ⟨h1, h2, h3, h4, h5⟩ := exProblem_ok
  exact ⟨s, hs, fun θ => C01_forward_solves_KKT (invLDL_exact ℚ) _ _ h1 s hs θ
    (noGv_gvZero θ _ h3)⟩

/-- A one-knot problem without controls whose constraint depends on the parameter: minimise
`½ x²` subject to (proximal) `x + θ = 0` and `x = 0`. -/
def gvProblem : Problem ℚ 1 1 1 where
  G0 := !![-1]
  g0 := ![0]
  stages := .last (nu := 0) (nc := 1) (nx2 := 0)
    { Q := !![1], S := 0, R := 0, q := ![0], r := 0, A := 0, B := 0, f := 0
      C := !![1], D := 0, d := ![0], Gth := !![0], Gx := !![0], Gu := 0, Gv := !![1]
      gamma := ![0] }

/-- **C05, negative finding** With a multiplier-parameter block `Gv ≠ 0` the solver's output for a
parameter `θ ≠ 0` is *not* a KKT point: the terminal multiplier gain `Zth` ignores `Gv`. The backward
pass nevertheless reports success. -/
theorem C05_Gv_breaks_parametric_solution {ldl : LDL ℚ} (hl : ldl.Exact) (hc : ldl.Complete) :
    ∃ s : Solver gvProblem, backward ldl gvProblem 1 = .ok s ∧
      ∀ θ : Vec ℚ 1, θ ≠ 0 → ¬ KKT gvProblem 1 θ (forward s θ).1 (forward s θ).2 := by
  have symm : ∀ M : Mat ℚ 1 1, M.IsSymm := by
    intro M; ext i j; fin_cases i; fin_cases j; rfl
  have hex : ∃ s, backward ldl gvProblem 1 = .ok s := by
    refine C03_backward_succeeds_on_convex hl hc gvProblem 1 (by norm_num)
      ⟨symm _, by ext i; exact i.elim0⟩ ?_ ?_ ?_ ?_
    · intro x u
      simp [dotProduct, mulVec]
      exact mul_self_nonneg _
    · intro u hu
      exact absurd (Subsingleton.elim u 0) hu
    · intro x hx hx0
      exfalso
      apply hx0
      have := congrFun hx 0
      simp [gvProblem, mulVec, dotProduct] at this
      funext i; fin_cases i; exact this
    · intro z hz
      have := congrFun hz 0
      simp [gvProblem, mulVec, dotProduct] at this
      funext i; fin_cases i; exact this
  obtain ⟨s, hs⟩ := hex
  refine ⟨s, hs, ?_⟩
  intro θ hθ hk
  have hs' := hs
  unfold backward at hs'
  split at hs'
  · cases hs'
  · rename_i F hF
    split at hs'
    · cases hs'
    · injection hs' with hs'
      have hd : s.datas = F := by rw [← hs']
      have hF' := backwardImpl_ok hl gvProblem.stages ⟨symm _, by ext i; exact i.elim0⟩ F hF
      have h2 := hk.2
      simp only [forward, hd] at h2
      generalize s.x0ff + s.x0fth *ᵥ θ = x at h2
      cases F with
      | last F =>
        have E := hF'.1
        have hv := TermEqs.v_eq E θ x
        have h3 := h2.2.2
        rw [hv] at h3
        apply hθ
        have := congrFun h3 0
        simp [mulVec, dotProduct] at this
        funext i; fin_cases i; exact this

end Aligator.Gar
