import Verif.Model.LqrUtils
import Verif.Spec.LqrUtils
import Verif.Lemmas.Riccati
import Mathlib.Tactic.LinearCombination
import Mathlib.Tactic.Module

set_option linter.unusedSectionVars false

namespace Aligator.Gar

open Matrix

variable {𝕜 : Type*} {nth : ℕ}

section kktError
variable [Field 𝕜] [LinearOrder 𝕜] [IsStrictOrderedRing 𝕜]

theorem foldr_max_le {l : List 𝕜} {a ε : 𝕜} (ha : a ≤ ε) : l.foldr max a ≤ ε ↔ ∀ x ∈ l, x ≤ ε := by
  induction l with
  | nil => simp [ha]
  | cons b l ih => simp only [List.foldr_cons, max_le_iff, ih, List.forall_mem_cons]

theorem inftyNorm_le {n : ℕ} (v : Vec 𝕜 n) {ε : 𝕜} (hε : 0 ≤ ε) : inftyNorm v ≤ ε ↔ Within ε v := by
  unfold inftyNorm Within
  rw [foldr_max_le hε]
  simp [List.mem_ofFn]

theorem vec_empty_nu {n : ℕ} (h : ¬ 0 < n) (u : Vec 𝕜 n) : u = 0 := by
  have : n = 0 := by omega
  subst this
  exact Subsingleton.elim _ _

theorem errGx_eq {nx nu nc nx2 : ℕ} (k : Knot 𝕜 nth nx nu nc nx2) (θ : Option (Vec 𝕜 nth))
    (n : Node 𝕜 nx nu nc) : errGx k θ n = gradX k (θ.getD 0) n := by
  unfold errGx gradX
  by_cases h : 0 < nu
  · cases θ with
    | none => simp only [if_pos h, Option.getD_none, mulVec_zero]; module
    | some th => simp only [if_pos h, Option.getD_some]; module
  · rw [vec_empty_nu h n.u]
    cases θ with
    | none => simp only [if_neg h, Option.getD_none, mulVec_zero]; module
    | some th => simp only [if_neg h, Option.getD_some, mulVec_zero]; module

theorem errGu_eq {nx nu nc nx2 : ℕ} (k : Knot 𝕜 nth nx nu nc nx2) (θ : Option (Vec 𝕜 nth))
    (n : Node 𝕜 nx nu nc) : errGu k θ n = gradU k (θ.getD 0) n := by
  unfold errGu gradU
  by_cases h : 0 < nu
  · cases θ with
    | none => simp only [if_pos h, Option.getD_none, mulVec_zero]; module
    | some th => simp only [if_pos h, Option.getD_some]; module
  · rw [vec_empty_nu h n.u]
    cases θ with
    | none => simp only [if_neg h, Option.getD_none, mulVec_zero]; module
    | some th => simp only [if_neg h, Option.getD_some, mulVec_zero]; module

theorem errCst_eq {nx nu nc nx2 : ℕ} (k : Knot 𝕜 nth nx nu nc nx2) (mueq : 𝕜) (θ : Vec 𝕜 nth)
    (n : Node 𝕜 nx nu nc) : errCst k mueq n + k.Gv *ᵥ θ = gradV k mueq θ n := by
  unfold errCst gradV
  by_cases h : 0 < nu
  · rw [if_pos h]; module
  · rw [if_neg h, vec_empty_nu h n.u, mulVec_zero]; module

theorem kktErrLoop_le (mueq : 𝕜) (θ : Option (Vec 𝕜 nth)) {nx : ℕ} (ch : Chain 𝕜 nth nx)
    (hG : ch.GvZero (θ.getD 0)) (c : Vec 𝕜 nx) (t : Traj ch) (e : KktErr 𝕜) {εd εc εg : 𝕜} (hd : 0 ≤ εd)
    (hc : 0 ≤ εc) (hg : 0 ≤ εg) :
    ((kktErrLoop mueq θ ch c t e).dyn ≤ εd ∧ (kktErrLoop mueq θ ch c t e).cst ≤ εc ∧
      (kktErrLoop mueq θ ch c t e).dual ≤ εg) ↔
    (e.dyn ≤ εd ∧ e.cst ≤ εc ∧ e.dual ≤ εg) ∧ TailKKTWithin εd εc εg mueq (θ.getD 0) ch (-c) t := by
  induction ch generalizing e with
  | last k =>
    cases t with
    | last n =>
      have hG' : k.Gv *ᵥ (θ.getD 0) = 0 := hG
      have h1 := errCst_eq k mueq (θ.getD 0) n
      rw [hG', add_zero] at h1
      simp only [kktErrLoop, TailKKTWithin, max_le_iff, inftyNorm_le _ hc, inftyNorm_le _ hg, errGx_eq,
        errGu_eq, h1, sub_neg_eq_add]
      tauto
  | cons k tl ih =>
    cases t with
    | cons n lam t =>
      obtain ⟨hG', hG2⟩ := hG
      have h1 := errCst_eq k mueq (θ.getD 0) n
      rw [hG', add_zero] at h1
      simp only [kktErrLoop]
      rw [ih hG2]
      simp only [TailKKTWithin, max_le_iff, inftyNorm_le _ hc, inftyNorm_le _ hg, inftyNorm_le _ hd,
        errGx_eq, errGu_eq, h1, sub_neg_eq_add, neg_neg]
      rw [show gradX k (θ.getD 0) n + c + k.Aᵀ *ᵥ lam = gradX k (θ.getD 0) n + k.Aᵀ *ᵥ lam + c by abel]
      tauto

theorem within_zero {n : ℕ} (v : Vec 𝕜 n) : Within 0 v ↔ v = 0 := by
  unfold Within
  simp only [abs_nonpos_iff]
  exact ⟨fun h => funext h, fun h i => congrFun h i⟩

theorem tailKKTWithin_zero (mu : 𝕜) (θ : Vec 𝕜 nth) {nx : ℕ} (ch : Chain 𝕜 nth nx) (p : Vec 𝕜 nx)
    (t : Traj ch) : TailKKTWithin 0 0 0 mu θ ch p t ↔ TailKKT mu θ ch p t := by
  induction ch with
  | last k => cases t with | last n => simp only [TailKKTWithin, TailKKT, within_zero, sub_eq_zero]
  | cons k tl ih =>
    cases t with
    | cons n lam t => simp only [TailKKTWithin, TailKKT, within_zero, sub_eq_zero, ih]

theorem kktErrLoop_nonneg (mueq : 𝕜) (θ : Option (Vec 𝕜 nth)) {nx : ℕ} (ch : Chain 𝕜 nth nx)
    (c : Vec 𝕜 nx) (t : Traj ch) (e : KktErr 𝕜) (h : 0 ≤ e.dyn ∧ 0 ≤ e.cst ∧ 0 ≤ e.dual) :
    0 ≤ (kktErrLoop mueq θ ch c t e).dyn ∧ 0 ≤ (kktErrLoop mueq θ ch c t e).cst ∧
      0 ≤ (kktErrLoop mueq θ ch c t e).dual := by
  induction ch generalizing e with
  | last k =>
    cases t with
    | last n => exact ⟨h.1, le_max_of_le_left h.2.1, le_max_of_le_left (le_max_of_le_left h.2.2)⟩
  | cons k tl ih =>
    cases t with
    | cons n lam t =>
      exact ih _ _ _ ⟨le_max_of_le_left h.1, le_max_of_le_left h.2.1,
        le_max_of_le_left (le_max_of_le_left h.2.2)⟩

end kktError

/-! ### Sparse assembly -/

section sparse
variable [Field 𝕜]

/-- A block in an otherwise zero matrix. -/
def blkAt {m n : ℕ} (i0 j0 : ℕ) (M : Mat 𝕜 m n) : ℕ → ℕ → 𝕜 := assignBlock i0 j0 M fun _ _ => 0

/-- A diagonal segment in an otherwise zero matrix. -/
def diagAt (i0 i1 : ℕ) (a : 𝕜) : ℕ → ℕ → 𝕜 := assignDiag i0 i1 a fun _ _ => 0

theorem blkAt_out {m n : ℕ} {i0 j0 : ℕ} (M : Mat 𝕜 m n) {i j : ℕ}
    (h : ¬ ((i0 ≤ i ∧ i < i0 + m) ∧ (j0 ≤ j ∧ j < j0 + n))) : blkAt i0 j0 M i j = 0 := by
  unfold blkAt assignBlock; rw [dif_neg h]

theorem diagAt_out {i0 i1 : ℕ} (a : 𝕜) {i j : ℕ} (h : ¬ (i = j ∧ i0 ≤ i ∧ i < i1)) :
    diagAt i0 i1 a i j = 0 := by
  unfold diagAt assignDiag; rw [if_neg h]

theorem assignBlock_eq_add {m n : ℕ} (i0 j0 : ℕ) (M : Mat 𝕜 m n) (mat : ℕ → ℕ → 𝕜)
    (h : ∀ i j, i0 ≤ i → i < i0 + m → j0 ≤ j → j < j0 + n → mat i j = 0) :
    assignBlock i0 j0 M mat = fun i j => mat i j + blkAt i0 j0 M i j := by
  funext i j
  unfold blkAt assignBlock
  split
  · rename_i hh; rw [h i j hh.1.1 hh.1.2 hh.2.1 hh.2.2, zero_add]
  · rw [add_zero]

theorem assignDiag_eq_add (i0 i1 : ℕ) (a : 𝕜) (mat : ℕ → ℕ → 𝕜)
    (h : ∀ i j, i0 ≤ i → i < i1 → i = j → mat i j = 0) :
    assignDiag i0 i1 a mat = fun i j => mat i j + diagAt i0 i1 a i j := by
  funext i j
  unfold diagAt assignDiag
  split
  · rename_i hh; rw [h i j hh.2.1 hh.2.2 hh.1, zero_add]
  · rw [add_zero]

theorem knotMat_eq {nx nu nc nx2 : ℕ} (k : Knot 𝕜 nth nx nu nc nx2) (mueq : 𝕜) (idx : ℕ)
    (mat : ℕ → ℕ → 𝕜) (hz : ∀ i j, idx ≤ i → idx ≤ j → mat i j = 0) :
    knotMat k mueq idx mat = fun i j => mat i j + blkAt idx idx k.Q i j + blkAt (idx + nx) idx k.Sᵀ i j
      + blkAt idx (idx + nx) k.S i j + blkAt (idx + nx) (idx + nx) k.R i j
      + blkAt (idx + nx + nu) idx k.C i j + blkAt idx (idx + nx + nu) k.Cᵀ i j
      + blkAt (idx + nx + nu) (idx + nx) k.D i j + blkAt (idx + nx) (idx + nx + nu) k.Dᵀ i j
      + diagAt (idx + nx + nu) (idx + nx + nu + nc) (-mueq) i j := by
  unfold knotMat
  dsimp only
  rw [assignBlock_eq_add idx idx k.Q mat (fun i j h1 h2 h3 h4 => hz i j h1 h3)]
  rw [assignBlock_eq_add _ _ k.Sᵀ _ (fun i j h1 h2 h3 h4 => by
    simp (disch := omega) only [blkAt_out, hz, add_zero])]
  rw [assignBlock_eq_add _ _ k.S _ (fun i j h1 h2 h3 h4 => by
    simp (disch := omega) only [blkAt_out, hz, add_zero])]
  rw [assignBlock_eq_add _ _ k.R _ (fun i j h1 h2 h3 h4 => by
    simp (disch := omega) only [blkAt_out, hz, add_zero])]
  rw [assignBlock_eq_add _ _ k.C _ (fun i j h1 h2 h3 h4 => by
    simp (disch := omega) only [blkAt_out, hz, add_zero])]
  rw [assignBlock_eq_add _ _ k.Cᵀ _ (fun i j h1 h2 h3 h4 => by
    simp (disch := omega) only [blkAt_out, hz, add_zero])]
  rw [assignBlock_eq_add _ _ k.D _ (fun i j h1 h2 h3 h4 => by
    simp (disch := omega) only [blkAt_out, hz, add_zero])]
  rw [assignBlock_eq_add _ _ k.Dᵀ _ (fun i j h1 h2 h3 h4 => by
    simp (disch := omega) only [blkAt_out, hz, add_zero])]
  rw [assignDiag_eq_add _ _ _ _ (fun i j h1 h2 h3 => by
    simp (disch := omega) only [blkAt_out, hz, add_zero])]

theorem dynMat_eq {nx nu nc nx2 : ℕ} (k : Knot 𝕜 nth nx nu nc nx2) (idx : ℕ) (mat : ℕ → ℕ → 𝕜)
    (hz : ∀ i j, idx ≤ i → idx ≤ j → (idx + nx + nu + nc ≤ i ∨ idx + nx + nu + nc ≤ j) → mat i j = 0) :
    dynMat k idx mat = fun i j => mat i j + blkAt (idx + nx + nu + nc) idx k.A i j
      + blkAt idx (idx + nx + nu + nc) k.Aᵀ i j + blkAt (idx + nx + nu + nc) (idx + nx) k.B i j
      + blkAt (idx + nx) (idx + nx + nu + nc) k.Bᵀ i j
      + blkAt (idx + nx + nu + nc) (idx + nx + nu + nc + nx2) (1 : Mat 𝕜 nx2 nx2) i j
      + blkAt (idx + nx + nu + nc + nx2) (idx + nx + nu + nc) (1 : Mat 𝕜 nx2 nx2) i j := by
  unfold dynMat
  dsimp only
  rw [assignBlock_eq_add _ _ k.A mat (fun i j h1 h2 h3 h4 => hz i j (by omega) (by omega) (by omega))]
  rw [assignBlock_eq_add _ _ k.Aᵀ _ (fun i j h1 h2 h3 h4 => by
    simp (disch := omega) only [blkAt_out, hz, add_zero])]
  rw [assignBlock_eq_add _ _ k.B _ (fun i j h1 h2 h3 h4 => by
    simp (disch := omega) only [blkAt_out, hz, add_zero])]
  rw [assignBlock_eq_add _ _ k.Bᵀ _ (fun i j h1 h2 h3 h4 => by
    simp (disch := omega) only [blkAt_out, hz, add_zero])]
  rw [assignBlock_eq_add _ (idx + nx + nu + nc + nx2) (1 : Mat 𝕜 nx2 nx2) _ (fun i j h1 h2 h3 h4 => by
    simp (disch := omega) only [blkAt_out, hz, add_zero])]
  rw [assignBlock_eq_add (idx + nx + nu + nc + nx2) (idx + nx + nu + nc) (1 : Mat 𝕜 nx2 nx2) _ (fun i j h1 h2 h3 h4 => by
    simp (disch := omega) only [blkAt_out, hz, add_zero])]

/-- Row `i` of the product of the first `n` columns with `z`. -/
def app (n : ℕ) (mat : ℕ → ℕ → 𝕜) (z : ℕ → 𝕜) (i : ℕ) : 𝕜 := ∑ j ∈ Finset.range n, mat i j * z j

theorem app_add (n : ℕ) (a b : ℕ → ℕ → 𝕜) (z : ℕ → 𝕜) (i : ℕ) :
    app n (fun i j => a i j + b i j) z i = app n a z i + app n b z i := by
  unfold app
  rw [← Finset.sum_add_distrib]
  exact Finset.sum_congr rfl fun j _ => add_mul _ _ _

theorem app_zero {n : ℕ} {a : ℕ → ℕ → 𝕜} {z : ℕ → 𝕜} {i : ℕ} (h : ∀ j, j < n → a i j = 0) :
    app n a z i = 0 :=
  Finset.sum_eq_zero fun j hj => by rw [h j (Finset.mem_range.1 hj), zero_mul]

theorem app_blk_out {m c n i0 j0 : ℕ} (M : Mat 𝕜 m c) (z : ℕ → 𝕜) {i : ℕ}
    (h : ¬ (i0 ≤ i ∧ i < i0 + m)) : app n (blkAt i0 j0 M) z i = 0 :=
  app_zero fun j _ => blkAt_out M (by omega)

theorem app_diag_out {n i0 i1 : ℕ} (a : 𝕜) (z : ℕ → 𝕜) {i : ℕ} (h : ¬ (i0 ≤ i ∧ i < i1)) :
    app n (diagAt i0 i1 a) z i = 0 :=
  app_zero fun j _ => diagAt_out a (by omega)

/-- a block left or right of the columns considered -/
theorem app_blk_col {m c n i0 j0 : ℕ} (M : Mat 𝕜 m c) (z : ℕ → 𝕜) {i : ℕ} (h : n ≤ j0) :
    app n (blkAt i0 j0 M) z i = 0 :=
  app_zero fun j _ => blkAt_out M (by omega)

theorem app_blk {m c n i0 j0 : ℕ} (M : Mat 𝕜 m c) (z : ℕ → 𝕜) (hn : j0 + c ≤ n) {i : ℕ} (a : Fin m)
    (hi : i = i0 + a) : app n (blkAt i0 j0 M) z i = (M *ᵥ seg z j0 c) a := by
  subst hi
  unfold app
  have h1 : ∑ j ∈ Finset.range n, blkAt i0 j0 M (i0 + a) j * z j =
      ∑ j ∈ Finset.Ico j0 (j0 + c), blkAt i0 j0 M (i0 + a) j * z j := by
    symm
    apply Finset.sum_subset
    · intro j hj
      rw [Finset.mem_Ico] at hj
      rw [Finset.mem_range]; omega
    · intro j _ hj
      rw [Finset.mem_Ico] at hj
      rw [blkAt_out M (by omega), zero_mul]
  rw [h1, Finset.sum_Ico_eq_sum_range, Nat.add_sub_cancel_left, ← Fin.sum_univ_eq_sum_range
    (fun k => blkAt i0 j0 M (i0 + a) (j0 + k) * z (j0 + k)) c]
  unfold mulVec dotProduct seg
  refine Finset.sum_congr rfl fun b _ => ?_
  congr 1
  unfold blkAt assignBlock
  rw [dif_pos (by omega)]
  congr 1
  · apply Fin.ext; simp
  · apply Fin.ext; simp

theorem app_diag {n i0 i1 : ℕ} (a : 𝕜) (z : ℕ → 𝕜) {i : ℕ} (h : i0 ≤ i) (h1 : i < i1) (hn : i < n) :
    app n (diagAt i0 i1 a) z i = a * z i := by
  unfold app
  rw [Finset.sum_eq_single_of_mem i (Finset.mem_range.2 hn)]
  · unfold diagAt assignDiag; rw [if_pos ⟨rfl, h, h1⟩]
  · intro b _ hb
    rw [diagAt_out a (by omega), zero_mul]

theorem assignSeg_in {n : ℕ} {i0 : ℕ} (v : Vec 𝕜 n) (rhs : ℕ → 𝕜) {i : ℕ} (a : Fin n) (h : i = i0 + a) :
    assignSeg i0 v rhs i = v a := by
  subst h
  unfold assignSeg
  rw [dif_pos (by omega)]
  congr 1
  apply Fin.ext; simp

theorem assignSeg_out {n : ℕ} {i0 : ℕ} (v : Vec 𝕜 n) (rhs : ℕ → 𝕜) {i : ℕ}
    (h : ¬ (i0 ≤ i ∧ i < i0 + n)) : assignSeg i0 v rhs i = rhs i := by
  unfold assignSeg; rw [dif_neg h]

theorem splitTraj_x0 (z : ℕ → 𝕜) {nx : ℕ} (ch : Chain 𝕜 nth nx) (idx : ℕ) :
    (splitTraj z ch idx).x0 = seg z idx nx := by
  cases ch <;> rfl

theorem endIdx_ge {nx : ℕ} (ch : Chain 𝕜 nth nx) (idx : ℕ) : idx + nx ≤ endIdx ch idx := by
  induction ch generalizing idx with
  | last k => simp only [endIdx]; omega
  | @cons nx nu nc nx2 k tl ih => simp only [endIdx]; have := ih (idx + nx + nu + nc + nx2); omega

/-- rows of the entries before column `idx` -/
theorem app_split {n idx : ℕ} (h : idx ≤ n) (mat : ℕ → ℕ → 𝕜) (z : ℕ → 𝕜) (i : ℕ)
    (hz : ∀ j, idx ≤ j → mat i j = 0) : app n mat z i = app idx mat z i := by
  unfold app
  symm
  apply Finset.sum_subset
  · intro j hj; rw [Finset.mem_range] at hj ⊢; omega
  · intro j _ hj
    rw [Finset.mem_range] at hj
    rw [hz j (by omega), zero_mul]

theorem app_congr {n : ℕ} {a b : ℕ → ℕ → 𝕜} {z : ℕ → 𝕜} {i : ℕ} (h : ∀ j, j < n → a i j = b i j) :
    app n a z i = app n b z i :=
  Finset.sum_congr rfl fun j hj => by rw [h j (Finset.mem_range.1 hj)]

section rows
variable {nx nu nc nx2 : ℕ} (k : Knot 𝕜 nth nx nu nc nx2) (mueq : 𝕜) (idx : ℕ) (mat : ℕ → ℕ → 𝕜)
  (z : ℕ → 𝕜)

theorem knot_row_x (hz : ∀ i j, idx ≤ i → idx ≤ j → mat i j = 0) {n : ℕ} (hn : idx + nx + nu + nc ≤ n)
    {i : ℕ} (a : Fin nx) (hi : i = idx + a) : app n (knotMat k mueq idx mat) z i =
      app idx mat z i + (k.Q *ᵥ seg z idx nx + k.S *ᵥ seg z (idx + nx) nu +
        k.Cᵀ *ᵥ seg z (idx + nx + nu) nc) a := by
  rw [knotMat_eq k mueq idx mat hz]
  simp only [app_add]
  rw [app_split (by omega) mat z i (fun j hj => hz i j (by omega) hj),
    app_blk k.Q z (by omega) a hi, app_blk k.S z (by omega) a hi, app_blk k.Cᵀ z (by omega) a hi]
  simp (disch := omega) only [app_blk_out, app_diag_out, add_zero, Pi.add_apply]
  ring

theorem knot_row_u (hz : ∀ i j, idx ≤ i → idx ≤ j → mat i j = 0) {n : ℕ} (hn : idx + nx + nu + nc ≤ n)
    {i : ℕ} (a : Fin nu) (hi : i = idx + nx + a) : app n (knotMat k mueq idx mat) z i =
      app idx mat z i + (k.Sᵀ *ᵥ seg z idx nx + k.R *ᵥ seg z (idx + nx) nu +
        k.Dᵀ *ᵥ seg z (idx + nx + nu) nc) a := by
  rw [knotMat_eq k mueq idx mat hz]
  simp only [app_add]
  rw [app_split (by omega) mat z i (fun j hj => hz i j (by omega) hj),
    app_blk k.Sᵀ z (by omega) a hi, app_blk k.R z (by omega) a hi, app_blk k.Dᵀ z (by omega) a hi]
  simp (disch := omega) only [app_blk_out, app_diag_out, add_zero, Pi.add_apply]
  ring

theorem knot_row_v (hz : ∀ i j, idx ≤ i → idx ≤ j → mat i j = 0) {n : ℕ} (hn : idx + nx + nu + nc ≤ n)
    {i : ℕ} (a : Fin nc) (hi : i = idx + nx + nu + a) : app n (knotMat k mueq idx mat) z i =
      app idx mat z i + (k.C *ᵥ seg z idx nx + k.D *ᵥ seg z (idx + nx) nu -
        mueq • seg z (idx + nx + nu) nc) a := by
  rw [knotMat_eq k mueq idx mat hz]
  simp only [app_add]
  rw [app_split (by omega) mat z i (fun j hj => hz i j (by omega) hj),
    app_blk k.C z (by omega) a hi, app_blk k.D z (by omega) a hi, app_diag _ z (by omega) (by omega) (by omega)]
  simp (disch := omega) only [app_blk_out, app_diag_out, add_zero, Pi.add_apply, Pi.sub_apply, Pi.smul_apply,
    smul_eq_mul, seg]
  rw [hi]
  ring

theorem knot_row_out (hz : ∀ i j, idx ≤ i → idx ≤ j → mat i j = 0) {n : ℕ} (hn : idx ≤ n)
    {i : ℕ} (hi : idx + nx + nu + nc ≤ i) : app n (knotMat k mueq idx mat) z i = app idx mat z i := by
  rw [knotMat_eq k mueq idx mat hz]
  simp only [app_add]
  rw [app_split (by omega) mat z i (fun j hj => hz i j (by omega) hj)]
  simp (disch := omega) only [app_blk_out, app_diag_out, add_zero]

/-- zero pattern of the matrix after the writes for a knot -/
theorem knotMat_zero (hz : ∀ i j, idx ≤ i → idx ≤ j → mat i j = 0) (i j : ℕ) (hi : idx ≤ i) (hj : idx ≤ j)
    (h : idx + nx + nu + nc ≤ i ∨ idx + nx + nu + nc ≤ j) : knotMat k mueq idx mat i j = 0 := by
  rw [knotMat_eq k mueq idx mat hz]
  simp (disch := omega) only [blkAt_out, diagAt_out, hz, add_zero]

theorem knotMat_before (hz : ∀ i j, idx ≤ i → idx ≤ j → mat i j = 0) (i j : ℕ) (h : i < idx ∨ j < idx) :
    knotMat k mueq idx mat i j = mat i j := by
  rw [knotMat_eq k mueq idx mat hz]
  simp (disch := omega) only [blkAt_out, diagAt_out, add_zero]

theorem dyn_row_x (hz : ∀ i j, idx ≤ i → idx ≤ j → (idx + nx + nu + nc ≤ i ∨ idx + nx + nu + nc ≤ j) →
    mat i j = 0) {n : ℕ} (hn : idx + nx + nu + nc + nx2 ≤ n) {i : ℕ} (a : Fin nx) (hi : i = idx + a) :
    app n (dynMat k idx mat) z i =
      app n mat z i + (k.Aᵀ *ᵥ seg z (idx + nx + nu + nc) nx2) a := by
  rw [dynMat_eq k idx mat hz]
  simp only [app_add]
  rw [app_blk k.Aᵀ z (by omega) a hi]
  simp (disch := omega) only [app_blk_out, add_zero]

theorem dyn_row_u (hz : ∀ i j, idx ≤ i → idx ≤ j → (idx + nx + nu + nc ≤ i ∨ idx + nx + nu + nc ≤ j) →
    mat i j = 0) {n : ℕ} (hn : idx + nx + nu + nc + nx2 ≤ n) {i : ℕ} (a : Fin nu) (hi : i = idx + nx + a) :
    app n (dynMat k idx mat) z i =
      app n mat z i + (k.Bᵀ *ᵥ seg z (idx + nx + nu + nc) nx2) a := by
  rw [dynMat_eq k idx mat hz]
  simp only [app_add]
  rw [app_blk k.Bᵀ z (by omega) a hi]
  simp (disch := omega) only [app_blk_out, add_zero]

theorem dyn_row_v (hz : ∀ i j, idx ≤ i → idx ≤ j → (idx + nx + nu + nc ≤ i ∨ idx + nx + nu + nc ≤ j) →
    mat i j = 0) {n : ℕ} {i : ℕ} (a : Fin nc)
    (hi : i = idx + nx + nu + a) : app n (dynMat k idx mat) z i = app n mat z i := by
  rw [dynMat_eq k idx mat hz]
  simp only [app_add]
  simp (disch := omega) only [app_blk_out, add_zero]

theorem dyn_row_d (hz : ∀ i j, idx ≤ i → idx ≤ j → (idx + nx + nu + nc ≤ i ∨ idx + nx + nu + nc ≤ j) →
    mat i j = 0) {n : ℕ} (hn : idx + nx + nu + nc + nx2 + nx2 ≤ n) {i : ℕ} (a : Fin nx2)
    (hi : i = idx + nx + nu + nc + a) :
    app n (dynMat k idx mat) z i =
      app n mat z i + (k.A *ᵥ seg z idx nx + k.B *ᵥ seg z (idx + nx) nu +
        seg z (idx + nx + nu + nc + nx2) nx2) a := by
  rw [dynMat_eq k idx mat hz]
  simp only [app_add]
  rw [app_blk k.A z (by omega) a hi, app_blk k.B z (by omega) a hi,
    app_blk (j0 := idx + nx + nu + nc + nx2) 1 z (by omega) a hi, one_mulVec]
  simp (disch := omega) only [app_blk_out, add_zero, Pi.add_apply]
  ring

theorem dyn_row_next (hz : ∀ i j, idx ≤ i → idx ≤ j → (idx + nx + nu + nc ≤ i ∨ idx + nx + nu + nc ≤ j) →
    mat i j = 0) {n : ℕ} (hn : idx + nx + nu + nc + nx2 ≤ n) {i : ℕ} (a : Fin nx2)
    (hi : i = idx + nx + nu + nc + nx2 + a) :
    app n (dynMat k idx mat) z i = app n mat z i + seg z (idx + nx + nu + nc) nx2 a := by
  rw [dynMat_eq k idx mat hz]
  simp only [app_add]
  rw [app_blk (i0 := idx + nx + nu + nc + nx2) 1 z (by omega) a hi, one_mulVec]
  simp (disch := omega) only [app_blk_out, add_zero]

theorem dyn_row_out (hz : ∀ i j, idx ≤ i → idx ≤ j → (idx + nx + nu + nc ≤ i ∨ idx + nx + nu + nc ≤ j) →
    mat i j = 0) {n : ℕ} {i : ℕ} (hi : idx + nx + nu + nc + nx2 + nx2 ≤ i) :
    app n (dynMat k idx mat) z i = app n mat z i := by
  rw [dynMat_eq k idx mat hz]
  simp only [app_add]
  simp (disch := omega) only [app_blk_out, add_zero]

theorem dynMat_zero (hz : ∀ i j, idx ≤ i → idx ≤ j → (idx + nx + nu + nc ≤ i ∨ idx + nx + nu + nc ≤ j) →
    mat i j = 0) (i j : ℕ) (hi : idx + nx + nu + nc + nx2 ≤ i) (hj : idx + nx + nu + nc + nx2 ≤ j) :
    dynMat k idx mat i j = 0 := by
  rw [dynMat_eq k idx mat hz]
  simp (disch := omega) only [blkAt_out, hz, add_zero]

theorem dynMat_before (hz : ∀ i j, idx ≤ i → idx ≤ j → (idx + nx + nu + nc ≤ i ∨ idx + nx + nu + nc ≤ j) →
    mat i j = 0) (i j : ℕ) (h : i < idx ∨ j < idx) : dynMat k idx mat i j = mat i j := by
  rw [dynMat_eq k idx mat hz]
  simp (disch := omega) only [blkAt_out, add_zero]

end rows

theorem rows_iff {p : ℕ → Prop} {a b c n : ℕ} (h : a + b + c ≤ n) (hout : ∀ i, a + b + c ≤ i → i < n → p i) :
    (∀ i, i < n → p i) ↔ (∀ x : Fin a, p x) ∧ (∀ x : Fin b, p (a + x)) ∧ (∀ x : Fin c, p (a + b + x)) := by
  constructor
  · intro H
    exact ⟨fun x => H _ (by omega), fun x => H _ (by omega), fun x => H _ (by omega)⟩
  · rintro ⟨H1, H2, H3⟩ i hi
    rcases Nat.lt_or_ge i a with h1 | h1
    · exact H1 ⟨i, h1⟩
    rcases Nat.lt_or_ge i (a + b) with h2 | h2
    · have := H2 ⟨i - a, by omega⟩
      simpa only [show a + (i - a) = i by omega] using this
    rcases Nat.lt_or_ge i (a + b + c) with h3 | h3
    · have := H3 ⟨i - (a + b), by omega⟩
      simpa only [show a + b + (i - (a + b)) = i by omega] using this
    · exact hout i h3 hi

theorem vec_eq_zero_iff {n : ℕ} (v : Vec 𝕜 n) : v = 0 ↔ ∀ a, v a = 0 :=
  ⟨fun h a => congrFun h a, fun h => funext h⟩

theorem sparseLoop_spec (mueq : 𝕜) (z : ℕ → 𝕜) (n : ℕ) {nx : ℕ} (ch : Chain 𝕜 nth nx) (idx : ℕ)
    (mat : ℕ → ℕ → 𝕜) (rhs : ℕ → 𝕜) (c : Vec 𝕜 nx) (hz : ∀ i j, idx ≤ i → idx ≤ j → mat i j = 0)
    (hr : ∀ i, idx ≤ i → rhs i = 0) (hc : ∀ a : Fin nx, app idx mat z (idx + a) = c a)
    (hc0 : ∀ i, idx + nx ≤ i → app idx mat z i = 0) (hn : endIdx ch idx ≤ n) :
    (∀ i j, (i < idx ∨ j < idx) → (sparseLoop mueq ch idx (mat, rhs)).1 i j = mat i j) ∧
    (∀ i, i < idx → (sparseLoop mueq ch idx (mat, rhs)).2 i = rhs i) ∧
    ((∀ i, idx ≤ i → i < n → app n (sparseLoop mueq ch idx (mat, rhs)).1 z i +
        (sparseLoop mueq ch idx (mat, rhs)).2 i = 0) ↔
      TailKKTE 1 mueq ch (-c) (splitTraj z ch idx)) := by
  induction ch generalizing idx mat rhs with
  | @last nx nu nc nx2 k =>
    simp only [endIdx] at hn
    simp only [sparseLoop, splitTraj, TailKKTE]
    refine ⟨fun i j h => knotMat_before k mueq idx mat hz i j h, fun i h => ?_, ?_⟩
    · unfold knotRhs
      rw [assignSeg_out _ _ (by omega), assignSeg_out _ _ (by omega), assignSeg_out _ _ (by omega)]
    · have shift : (∀ i, idx ≤ i → i < n → app n (knotMat k mueq idx mat) z i + knotRhs k idx rhs i = 0) ↔
          ∀ i, i < n - idx → app n (knotMat k mueq idx mat) z (idx + i) + knotRhs k idx rhs (idx + i) = 0 :=
        ⟨fun H i hi => H _ (by omega) (by omega), fun H i h1 h2 => by
          have := H (i - idx) (by omega)
          simpa only [show idx + (i - idx) = i by omega] using this⟩
      rw [shift, rows_iff (a := nx) (b := nu) (c := nc) (by omega)]
      · rw [eq_neg_iff_add_eq_zero, vec_eq_zero_iff, vec_eq_zero_iff, vec_eq_zero_iff]
        refine and_congr (forall_congr' fun a => ?_) (and_congr (forall_congr' fun a => ?_)
          (forall_congr' fun a => ?_))
        · rw [knot_row_x k mueq idx mat z hz hn a rfl, hc]
          unfold knotRhs gradX
          rw [assignSeg_out _ _ (by omega), assignSeg_out _ _ (by omega), assignSeg_in _ _ a rfl, mulVec_zero]
          simp only [Pi.add_apply, Pi.zero_apply]
          rw [iff_iff_eq]; congr 1; ring
        · rw [knot_row_u k mueq idx mat z hz hn a (by omega), hc0 _ (by omega)]
          unfold knotRhs gradU
          rw [assignSeg_out _ _ (by omega), assignSeg_in _ _ a (by omega), mulVec_zero]
          simp only [Pi.add_apply, Pi.zero_apply]
          rw [iff_iff_eq]; congr 1; ring
        · rw [knot_row_v k mueq idx mat z hz hn a (by omega), hc0 _ (by omega)]
          unfold knotRhs gradV
          rw [assignSeg_in _ _ a (by omega), mulVec_zero]
          simp only [Pi.add_apply, Pi.sub_apply, Pi.zero_apply]
          rw [iff_iff_eq]; congr 1; ring
      · intro i h1 h2
        rw [knot_row_out k mueq idx mat z hz (by omega) (by omega), hc0 _ (by omega)]
        unfold knotRhs
        rw [assignSeg_out _ _ (by omega), assignSeg_out _ _ (by omega), assignSeg_out _ _ (by omega),
          hr _ (by omega), add_zero]
  | @cons nx nu nc nx2 k tl ih =>
    simp only [endIdx] at hn
    have hge := endIdx_ge tl (idx + nx + nu + nc + nx2)
    have hz1 := knotMat_zero k mueq idx mat hz
    have hz2 := dynMat_zero k idx _ hz1
    have hrhs : ∀ i, idx + nx + nu + nc + nx2 ≤ i →
        assignSeg (idx + nx + nu + nc) k.f (knotRhs k idx rhs) i = 0 := by
      intro i hi
      unfold knotRhs
      rw [assignSeg_out _ _ (by omega), assignSeg_out _ _ (by omega), assignSeg_out _ _ (by omega),
        assignSeg_out _ _ (by omega), hr _ (by omega)]
    obtain ⟨I1, I2, I3⟩ := ih (idx + nx + nu + nc + nx2) (dynMat k idx (knotMat k mueq idx mat))
      (assignSeg (idx + nx + nu + nc) k.f (knotRhs k idx rhs)) (seg z (idx + nx + nu + nc) nx2) hz2 hrhs
      (by
        intro a
        rw [dyn_row_next k idx _ z hz1 le_rfl a rfl, knot_row_out k mueq idx mat z hz (by omega) (by omega),
          hc0 _ (by omega), zero_add])
      (by
        intro i hi
        rw [dyn_row_out k idx _ z hz1 (by omega), knot_row_out k mueq idx mat z hz (by omega) (by omega),
          hc0 _ (by omega)])
      hn
    simp only [sparseLoop, splitTraj, TailKKTE]
    refine ⟨fun i j h => ?_, fun i h => ?_, ?_⟩
    · rw [I1 i j (by omega), dynMat_before k idx _ hz1 i j h, knotMat_before k mueq idx mat hz i j h]
    · rw [I2 i (by omega)]
      unfold knotRhs
      rw [assignSeg_out _ _ (by omega), assignSeg_out _ _ (by omega), assignSeg_out _ _ (by omega),
        assignSeg_out _ _ (by omega)]
    · rw [one_smul, one_smul, ← I3]
      generalize hM : sparseLoop mueq tl (idx + nx + nu + nc + nx2)
        (dynMat k idx (knotMat k mueq idx mat), assignSeg (idx + nx + nu + nc) k.f (knotRhs k idx rhs)) = L
      rw [hM] at I1 I2
      have shift : (∀ i, idx ≤ i → i < n → app n L.1 z i + L.2 i = 0) ↔
          (∀ i, i < nx + nu + (nc + nx2) → app n L.1 z (idx + i) + L.2 (idx + i) = 0) ∧
          (∀ i, idx + nx + nu + nc + nx2 ≤ i → i < n → app n L.1 z i + L.2 i = 0) :=
        ⟨fun H => ⟨fun i hi => H _ (by omega) (by omega), fun i h1 h2 => H i (by omega) h2⟩,
          fun H i h1 h2 => by
          rcases Nat.lt_or_ge i (idx + nx + nu + nc + nx2) with h3 | h3
          · have := H.1 (i - idx) (by omega)
            simpa only [show idx + (i - idx) = i by omega] using this
          · exact H.2 i h3 h2⟩
      have split2 : (∀ x : Fin (nc + nx2), app n L.1 z (idx + (nx + nu + x)) + L.2 (idx + (nx + nu + x)) = 0)
          ↔ (∀ x : Fin nc, app n L.1 z (idx + nx + nu + x) + L.2 (idx + nx + nu + x) = 0) ∧
            ∀ x : Fin nx2, app n L.1 z (idx + nx + nu + nc + x) + L.2 (idx + nx + nu + nc + x) = 0 := by
        constructor
        · intro H
          refine ⟨fun x => ?_, fun x => ?_⟩
          · have := H ⟨x, by omega⟩
            simpa only [← Nat.add_assoc] using this
          · have := H ⟨nc + x, by omega⟩
            simpa only [← Nat.add_assoc] using this
        · rintro ⟨H1, H2⟩ x
          rcases Nat.lt_or_ge x nc with h3 | h3
          · have := H1 ⟨x, h3⟩
            simpa only [← Nat.add_assoc] using this
          · have := H2 ⟨x - nc, by omega⟩
            simpa only [← Nat.add_assoc, show idx + nx + nu + nc + (x - nc) = idx + nx + nu + x by omega]
              using this
      have hrow : ∀ i, i < idx + nx + nu + nc + nx2 →
          app n L.1 z i = app n (dynMat k idx (knotMat k mueq idx mat)) z i :=
        fun i hi => app_congr fun j _ => I1 i j (by omega)
      rw [shift, rows_iff (a := nx) (b := nu) (c := nc + nx2) le_rfl (fun i h1 h2 => by omega), split2]
      rw [eq_neg_iff_add_eq_zero, vec_eq_zero_iff, vec_eq_zero_iff, vec_eq_zero_iff, vec_eq_zero_iff]
      have e1 : ∀ a : Fin nx, (app n L.1 z (idx + a) + L.2 (idx + a) = 0) ↔
          (gradX k 0 ⟨seg z idx nx, seg z (idx + nx) nu, seg z (idx + nx + nu) nc⟩ +
            k.Aᵀ *ᵥ seg z (idx + nx + nu + nc) nx2 + c) a = 0 := by
        intro a
        rw [hrow _ (by omega), I2 _ (by omega), dyn_row_x k idx _ z hz1 (by omega) a rfl,
          knot_row_x k mueq idx mat z hz (by omega) a rfl, hc]
        unfold knotRhs gradX
        rw [assignSeg_out _ _ (by omega), assignSeg_out _ _ (by omega), assignSeg_out _ _ (by omega),
          assignSeg_in _ _ a rfl, mulVec_zero]
        simp only [Pi.add_apply, Pi.zero_apply]
        rw [iff_iff_eq]; congr 1; ring
      have e2 : ∀ a : Fin nu, (app n L.1 z (idx + (nx + a)) + L.2 (idx + (nx + a)) = 0) ↔
          (gradU k 0 ⟨seg z idx nx, seg z (idx + nx) nu, seg z (idx + nx + nu) nc⟩ +
            k.Bᵀ *ᵥ seg z (idx + nx + nu + nc) nx2) a = 0 := by
        intro a
        rw [hrow _ (by omega), I2 _ (by omega), dyn_row_u k idx _ z hz1 (by omega) a (by omega),
          knot_row_u k mueq idx mat z hz (by omega) a (by omega), hc0 _ (by omega)]
        unfold knotRhs gradU
        rw [assignSeg_out _ _ (by omega), assignSeg_out _ _ (by omega), assignSeg_in _ _ a (by omega),
          mulVec_zero]
        simp only [Pi.add_apply, Pi.zero_apply]
        rw [iff_iff_eq]; congr 1; ring
      have e3 : ∀ a : Fin nc, (app n L.1 z (idx + nx + nu + a) + L.2 (idx + nx + nu + a) = 0) ↔
          (gradV k mueq 0 ⟨seg z idx nx, seg z (idx + nx) nu, seg z (idx + nx + nu) nc⟩) a = 0 := by
        intro a
        rw [hrow _ (by omega), I2 _ (by omega), dyn_row_v k idx _ z hz1 a rfl,
          knot_row_v k mueq idx mat z hz (by omega) a rfl, hc0 _ (by omega)]
        unfold knotRhs gradV
        rw [assignSeg_out _ _ (by omega), assignSeg_in _ _ a (by omega), mulVec_zero]
        simp only [Pi.add_apply, Pi.sub_apply, Pi.zero_apply]
        rw [iff_iff_eq]; congr 1; ring
      have e4 : ∀ a : Fin nx2, (app n L.1 z (idx + nx + nu + nc + a) + L.2 (idx + nx + nu + nc + a) = 0) ↔
          (k.A *ᵥ seg z idx nx + k.B *ᵥ seg z (idx + nx) nu + k.f +
            (1 : 𝕜) • (splitTraj z tl (idx + nx + nu + nc + nx2)).x0) a = 0 := by
        intro a
        rw [hrow _ (by omega), I2 _ (by omega), dyn_row_d k idx _ z hz1 (by omega) a rfl,
          knot_row_out k mueq idx mat z hz (by omega) (by omega), hc0 _ (by omega), splitTraj_x0, one_smul]
        rw [assignSeg_in _ _ a rfl]
        simp only [Pi.add_apply]
        rw [iff_iff_eq]; congr 1; ring
      simp only [e1, e2, e3, e4, one_smul]
      tauto

end sparse

end Aligator.Gar
