import Verif.Lemmas.LQSubproblem
import Verif.Props.Lagrangian
import Verif.Props.ActiveSets
import Verif.Props.Riccati
import Mathlib.LinearAlgebra.Matrix.DotProduct
import Mathlib.Analysis.Calculus.Deriv.Comp

/-!
# The linear-quadratic subproblem of ProxDDP is a Newton step (C54)
-/

namespace Aligator.LQ

open Matrix CSets Lag Lag.Spec

variable {nx nu : ℕ → ℕ} {N : ℕ}

/-! ### One stage -/

theorem dim_cdata {n m : ℕ} (cs : List (CFun n m)) : dim (cs.map cdata) = (cs.map (·.dim)).sum := by
  simp [dim, cdata, Function.comp_def]

theorem stackDir_eq {n m : ℕ} (cs : List (CFun n m)) (dx : Fin n → ℝ) (du : Fin m → ℝ) (k : ℕ) :
    (∑ b, jx (cs.map cdata) k b * dx b) + ∑ b, ju (cs.map cdata) k b * du b = (stackDir cs dx du).getD k 0 := by
  induction cs generalizing k with
  | nil => simp [jx, ju, rows, stackDir]
  | cons c cs ih =>
    have h1 : stackDir (c :: cs) dx du = List.ofFn (c.Jx *ᵥ dx + c.Ju *ᵥ du) ++ stackDir cs dx du := rfl
    rw [h1, List.map_cons]
    by_cases hk : k < c.dim
    · rw [List.getD_append _ _ _ _ (by simpa using hk)]
      have e1 : ∀ b, jx (cdata c :: cs.map cdata) k b = c.Jx ⟨k, hk⟩ b := fun b =>
        jx_head (cdata c) (cs.map cdata) (⟨k, hk⟩ : Fin c.dim) b
      have e2 : ∀ b, ju (cdata c :: cs.map cdata) k b = c.Ju ⟨k, hk⟩ b := fun b =>
        ju_head (cdata c) (cs.map cdata) (⟨k, hk⟩ : Fin c.dim) b
      simp only [e1, e2]
      simp [hk, mulVec, dotProduct]
    · obtain ⟨j, rfl⟩ : ∃ j, k = c.dim + j := ⟨k - c.dim, by omega⟩
      rw [List.getD_append_right _ _ _ _ (by simp)]
      have e1 : ∀ b, jx (cdata c :: cs.map cdata) (c.dim + j) b = jx (cs.map cdata) j b := fun b =>
        jx_tail (cdata c) (cs.map cdata) j b
      have e2 : ∀ b, ju (cdata c :: cs.map cdata) (c.dim + j) b = ju (cs.map cdata) j b := fun b =>
        ju_tail (cdata c) (cs.map cdata) j b
      simp only [e1, e2, ih, List.length_ofFn, Nat.add_sub_cancel_left]

/-- The flag of row `k`. -/
noncomputable def flagAt (ks : List Kind) (sh : CSets.Vec) (k : ℕ) : Bool :=
  (List.zipWith (fun k a => k.flag a) ks sh).getD k false

theorem coneJac_getD {S : CSet} {ks : List Kind} (hS : HasKinds S ks) (sh : CSets.Vec) (J : List CSets.Vec)
    (hsh : sh.length = ks.length) (hJ : J.length = ks.length) (k b : ℕ) :
    ((S.applyNormalConeProjectionJacobian sh J).getD k []).getD b 0 =
      if flagAt ks sh k then (J.getD k []).getD b 0 else 0 := by
  rw [hS.coneJac sh J hsh hJ]
  unfold flagAt
  have hl : (List.zipWith (fun (k : Kind) a => k.flag a) ks sh).length = J.length := by simp; omega
  generalize List.zipWith (fun (k : Kind) a => k.flag a) ks sh = fl at hl
  by_cases hk : k < J.length
  · rw [getD_get _ k [] (by simp; omega), getD_get fl k false (by omega), getD_get J k [] hk, List.getElem_zipWith]
    cases fl[k]
    · simp only [Bool.false_eq_true, if_false, zeroRow]
      by_cases hb : b < J[k].length
      · simp [hb]
      · simp [hb]
    · simp
  · have e1 : (List.zipWith (fun b row => if b = true then row else zeroRow row) fl J).getD k [] = [] :=
      List.getD_eq_default _ _ (by simp; omega)
    have e2 : J.getD k [] = [] := List.getD_eq_default _ _ (by omega)
    rw [e1, e2]
    simp

theorem project_C {n m : ℕ} {S : CSet} {ks : List Kind} (hS : HasKinds S ks) (mi : ℝ) (sh Lv : CSets.Vec)
    (cs : List (CstrData n m)) (hk : ks.length = dim cs) (hsh : sh.length = dim cs) (k : Fin (dim cs)) (b : Fin n) :
    (project S mi sh Lv cs).C k b = if flagAt ks sh k then jx cs k b else 0 :=
  coneJac_getD hS sh (rows cs) (by omega) (by rw [rows_length, hk]) k b

theorem project_D {n m : ℕ} {S : CSet} {ks : List Kind} (hS : HasKinds S ks) (mi : ℝ) (sh Lv : CSets.Vec)
    (cs : List (CstrData n m)) (hk : ks.length = dim cs) (hsh : sh.length = dim cs) (k : Fin (dim cs)) (b : Fin m) :
    (project S mi sh Lv cs).D k b = if flagAt ks sh k then ju cs k b else 0 :=
  coneJac_getD hS sh (rows cs) (by omega) (by rw [rows_length, hk]) k (n + b)

/-- The row `k` of the constraint equation of the subproblem. -/
def RowEq {n m : ℕ} (cs : List (CstrData n m)) (fl : ℕ → Bool) (mu : ℝ) (Lv dv : List ℝ) (dx : Fin n → ℝ) (du : Fin m → ℝ)
    (k : ℕ) : Prop :=
  (if fl k then (∑ b, jx cs k b * dx b) + ∑ b, ju cs k b * du b else 0) + Lv.getD k 0 - mu * dv.getD k 0 = 0

theorem project_rows {n m : ℕ} {S : CSet} {ks : List Kind} (hS : HasKinds S ks) (mi mu : ℝ) (sh Lv dv : CSets.Vec)
    (cs : List (CstrData n m)) (hk : ks.length = dim cs) (hsh : sh.length = dim cs) (dx : Fin n → ℝ) (du : Fin m → ℝ) :
    (project S mi sh Lv cs).C *ᵥ dx + (project S mi sh Lv cs).D *ᵥ du + vec (dim cs) Lv - mu • vec (dim cs) dv = 0 ↔
      ∀ k, k < dim cs → RowEq cs (flagAt ks sh) mu Lv dv dx du k := by
  have key : ∀ k : Fin (dim cs), ((project S mi sh Lv cs).C *ᵥ dx + (project S mi sh Lv cs).D *ᵥ du + vec (dim cs) Lv -
      mu • vec (dim cs) dv) k = 0 ↔ RowEq cs (flagAt ks sh) mu Lv dv dx du k := by
    intro k
    simp only [Pi.sub_apply, Pi.add_apply, mulVec, dotProduct, project_C hS mi sh Lv cs hk hsh,
      project_D hS mi sh Lv cs hk hsh, vec, Pi.smul_apply, smul_eq_mul, RowEq]
    cases flagAt ks sh k <;> simp
  constructor
  · intro h k hk'
    exact (key ⟨k, hk'⟩).1 (congrFun h _)
  · intro h
    funext k
    exact (key k).2 (h k k.2)

theorem project_grad {n m : ℕ} {S : CSet} {ks : List Kind} (hS : HasKinds S ks) (mu : ℝ) (hmu : mu ≠ 0) (sh Lv dv : CSets.Vec)
    (cs : List (CstrData n m)) (hk : ks.length = dim cs) (hsh : sh.length = dim cs) (dx : Fin n → ℝ) (du : Fin m → ℝ)
    (h : ∀ k, k < dim cs → RowEq cs (flagAt ks sh) mu Lv dv dx du k) :
    (project S (1 / mu) sh Lv cs).lx + (project S (1 / mu) sh Lv cs).Cᵀ *ᵥ vec (dim cs) dv = cstrX dv cs 0 ∧
    (project S (1 / mu) sh Lv cs).lu + (project S (1 / mu) sh Lv cs).Dᵀ *ᵥ vec (dim cs) dv = cstrU dv cs 0 := by
  have hinv : ∀ k : Fin (dim cs), flagAt ks sh k = false → Lv.getD k 0 * (1 / mu) = dv.getD k 0 := by
    intro k hf
    have := h k k.2
    unfold RowEq at this
    rw [hf] at this
    simp only [Bool.false_eq_true, if_false] at this
    field_simp
    linarith
  constructor
  · funext b
    rw [cstrX_eq, Finset.sum_range]
    have e : (project S (1 / mu) sh Lv cs).lx b = (∑ k : Fin (dim cs), jx cs k b * (Lv.getD k 0 * (1 / mu))) -
        ∑ k : Fin (dim cs), (project S (1 / mu) sh Lv cs).C k b * (Lv.getD k 0 * (1 / mu)) := rfl
    rw [Pi.add_apply, e, ← Finset.sum_sub_distrib]
    simp only [mulVec, dotProduct, Matrix.transpose_apply]
    rw [← Finset.sum_add_distrib]
    refine Finset.sum_congr rfl fun k _ => ?_
    rw [project_C hS _ sh Lv cs hk hsh, Nat.zero_add]
    simp only [vec]
    cases hf : flagAt ks sh k
    · rw [hinv k hf]; simp
    · simp
  · funext b
    rw [cstrU_eq, Finset.sum_range]
    have e : (project S (1 / mu) sh Lv cs).lu b = (∑ k : Fin (dim cs), ju cs k b * (Lv.getD k 0 * (1 / mu))) -
        ∑ k : Fin (dim cs), (project S (1 / mu) sh Lv cs).D k b * (Lv.getD k 0 * (1 / mu)) := rfl
    rw [Pi.add_apply, e, ← Finset.sum_sub_distrib]
    simp only [mulVec, dotProduct, Matrix.transpose_apply]
    rw [← Finset.sum_add_distrib]
    refine Finset.sum_congr rfl fun k _ => ?_
    rw [project_D hS _ sh Lv cs hk hsh, Nat.zero_add]
    simp only [vec]
    cases hf : flagAt ks sh k
    · rw [hinv k hf]; simp
    · simp

theorem cstrX_ladd {n m : ℕ} (v w : List ℝ) (h : v.length = w.length) (cs : List (CstrData n m)) :
    cstrX (Spec.ladd v w) cs 0 = cstrX v cs 0 + cstrX w cs 0 := by
  funext b
  rw [Pi.add_apply, cstrX_eq, cstrX_eq, cstrX_eq, ← Finset.sum_add_distrib]
  refine Finset.sum_congr rfl fun k _ => ?_
  rw [Spec.ladd, getD_zipWith_add _ _ h]; ring

theorem cstrU_ladd {n m : ℕ} (v w : List ℝ) (h : v.length = w.length) (cs : List (CstrData n m)) :
    cstrU (Spec.ladd v w) cs 0 = cstrU v cs 0 + cstrU w cs 0 := by
  funext b
  rw [Pi.add_apply, cstrU_eq, cstrU_eq, cstrU_eq, ← Finset.sum_add_distrib]
  refine Finset.sum_congr rfl fun k _ => ?_
  rw [Spec.ladd, getD_zipWith_add _ _ h]; ring

/-! ### The whole problem -/

/-- The curvature of the subproblem: Hessians of the costs, the proximal regularisation on every state and control, the
vector-Hessian product of the initial condition, and with the option EXACT those of the dynamics. -/
def curv (hess : Hess nx nu N) (preg : ℝ) (exact : Bool) : Spec.Curv nx nu N where
  Q i := hess.Lxx i + preg • 1 + (if exact then hess.Hxx i else 0) + initHess hess.initHxx i
  S i := hess.Lxu i + (if exact then hess.Hxu i else 0)
  R i := hess.Luu i + preg • 1 + (if exact then hess.Huu i else 0)
  QN := hess.termLxx + preg • 1 + initHess hess.initHxx N

/-- Sizes: the product sets come from the library and have the dimensions of the constraints, as have the multipliers, the buffers
and the multiplier step. -/
structure Shapes (P : Lag.Spec.Problem nx nu N) (op : ℕ → CSet) (ks : ℕ → List Kind) (vPrev vs out dv : ℕ → List ℝ)
    (outA : ℕ → List Bool) : Prop where
  lib : ∀ i, i ≤ N → Library (op i) (ks i)
  kinds : ∀ i, i ≤ N → (ks i).length = ncOf P i
  prev : ∀ i, i ≤ N → (vPrev i).length = ncOf P i
  cur : ∀ i, i ≤ N → (vs i).length = ncOf P i
  out : ∀ i, i ≤ N → (out i).length = ncOf P i
  dv : ∀ i, i ≤ N → (dv i).length = ncOf P i
  outA : ∀ i, i ≤ N → (outA i).length = ncOf P i

/-- The multipliers after the step. -/
def lamsNext {nc0 : ℕ} (l : Lams nx nc0) (s : Spec.Step nx nu nc0) : Lams nx nc0 :=
  ⟨l.init + s.dlam0, fun i => l.dyn i + s.dlam i⟩

theorem base_add (pd : ProbData nx nu N) (l : Lams nx pd.nc0) (s : Spec.Step nx nu pd.nc0) (i : ℕ) :
    base pd (some (lamsNext l s)) i = base pd (some l) i - costate (-(pd.initJxᵀ *ᵥ s.dlam0)) s i := by
  cases i with
  | zero => simp [base, costate, lamsNext, mulVec_add]
  | succ i => simp only [base, costate, lamsNext]; abel

/-- The shifted constraint values. -/
def shiftedAt (P : Lag.Spec.Problem nx nu N) (mu : ℝ) (vPrev : ℕ → List ℝ) (x : ∀ i, Fin (nx i) → ℝ) (u : ∀ i, Fin (nu i) → ℝ)
    (i : ℕ) : List ℝ := List.zipWith (· + ·) (Spec.cstr P x u i) ((vPrev i).map (mu * ·))

/-- Directional derivative of the row `k` of the constraints of stage `i`. -/
def dirAt (P : Lag.Spec.Problem nx nu N) {nc0 : ℕ} (s : Spec.Step nx nu nc0) (i k : ℕ) : ℝ :=
  if i < N then (stackDir (P.c i) (s.dx i) (s.du i)).getD k 0 else (stackDir P.cN (s.dx N) 0).getD k 0

section

variable (P : Lag.Spec.Problem nx nu N) (hess : Hess nx nu N) (op : ℕ → CSet) (ks : ℕ → List Kind) (mu preg : ℝ)
  (exact force : Bool) (l : Lams nx P.nc0) (vPrev vs out : ℕ → List ℝ) (outA : ℕ → List Bool)
  (x : ∀ i, Fin (nx i) → ℝ) (u : ∀ i, Fin (nu i) → ℝ) (s : Spec.Step nx nu P.nc0)

/-- What the solver holds at an iterate. -/
noncomputable abbrev inp : Input nx nu N :=
  inputAt (pdata P) hess (valuesAt P x u) op mu preg exact force l vPrev vs out

/-- The gradient at the multipliers of the iterate. -/
def gradNow : Grad nx nu := compute (pdata P) (some l) vs

/-- The gradient at the multipliers after the step. -/
def gradNext : Grad nx nu := compute (pdata P) (some (lamsNext l s)) (fun i => Spec.ladd (vs i) (s.dv i))

/-- Residual of the stationarity equations. -/
def rX (i : ℕ) : Fin (nx i) → ℝ :=
  (gradNext P l vs s).Lxs i + ((curv hess preg exact).Q i *ᵥ s.dx i + (curv hess preg exact).S i *ᵥ s.du i)

/-- Residual of the stationarity equations. -/
def rU (i : ℕ) : Fin (nu i) → ℝ :=
  (gradNext P l vs s).Lus i + (((curv hess preg exact).S i)ᵀ *ᵥ s.dx i + (curv hess preg exact).R i *ᵥ s.du i)

/-- Residual of the stationarity equations. -/
def rXN : Fin (nx N) → ℝ := (gradNext P l vs s).Lxs N + (curv hess preg exact).QN *ᵥ s.dx N

/-- What the option `force_initial_condition_` subtracts from the gradient. -/
noncomputable def dropped (i : ℕ) : Fin (nx i) → ℝ :=
  (inp P hess op mu preg exact force l vPrev vs out x u).grad.Lxs i - (gradNow P l vs).Lxs i

/-- The row `k` of the constraint equations of stage `i`. -/
def Row (i k : ℕ) : Prop :=
  (if flagAt (ks i) (shiftedAt P mu vPrev x u i) k then dirAt P s i k else 0) +
    (((op i).normalConeProjection (shiftedAt P mu vPrev x u i) (out i)).getD k 0 - mu * (vs i).getD k 0) - mu * (s.dv i).getD k 0 = 0

variable {P op ks vPrev vs out outA s}

theorem cstr_length (P : Lag.Spec.Problem nx nu N) (x : ∀ i, Fin (nx i) → ℝ) (u : ∀ i, Fin (nu i) → ℝ) (i : ℕ) :
    (Spec.cstr P x u i).length = ncOf P i := by
  unfold Spec.cstr ncOf
  split <;> rw [stack_length]

theorem Shapes.shifted (h : Shapes P op ks vPrev vs out s.dv outA) (i : ℕ) (hi : i ≤ N) :
    (shiftedAt P mu vPrev x u i).length = ncOf P i := by
  simp [shiftedAt, cstr_length, h.prev i hi]

theorem Shapes.cone (h : Shapes P op ks vPrev vs out s.dv outA) (i : ℕ) (hi : i ≤ N) :
    ((op i).normalConeProjection (shiftedAt P mu vPrev x u i) (out i)).length = ncOf P i := by
  rw [(h.lib i hi).hasKinds.cone _ _ (by rw [h.shifted mu x u i hi, h.kinds i hi]) (by rw [h.out i hi, h.kinds i hi])]
  simp [h.shifted mu x u i hi, h.kinds i hi]

theorem Lv_getD (h : Shapes P op ks vPrev vs out s.dv outA) (i : ℕ) (hi : i ≤ N) (k : ℕ) :
    ((inp P hess op mu preg exact force l vPrev vs out x u).Lvs i).getD k 0 =
      ((op i).normalConeProjection (shiftedAt P mu vPrev x u i) (out i)).getD k 0 - mu * (vs i).getD k 0 := by
  have := sub_getD (a := (op i).normalConeProjection (shiftedAt P mu vPrev x u i) (out i)) (b := (vs i).map (mu * ·))
    (by rw [h.cone mu x u i hi, List.length_map, h.cur i hi]) k
  rw [getD_map_mul] at this
  exact this

theorem rowEq_stage (h : Shapes P op ks vPrev vs out s.dv outA) (i : ℕ) (hi : i < N) (k : ℕ) :
    RowEq ((P.c i).map cdata) (flagAt (ks i) (shiftedAt P mu vPrev x u i)) mu
      ((inp P hess op mu preg exact force l vPrev vs out x u).Lvs i) (s.dv i) (s.dx i) (s.du i) k ↔
      Row P op ks mu vPrev vs out x u s i k := by
  unfold RowEq Row
  rw [stackDir_eq, Lv_getD hess mu preg exact force l x u h i hi.le k, dirAt, if_pos hi]

theorem rowEq_term (h : Shapes P op ks vPrev vs out s.dv outA) (k : ℕ) :
    RowEq (P.cN.map cdata) (flagAt (ks N) (shiftedAt P mu vPrev x u N)) mu
      ((inp P hess op mu preg exact force l vPrev vs out x u).Lvs N) (s.dv N) (s.dx N) Fin.elim0 k ↔
      Row P op ks mu vPrev vs out x u s N k := by
  unfold RowEq Row
  rw [stackDir_eq, Lv_getD hess mu preg exact force l x u h N le_rfl k, dirAt, if_neg (lt_irrefl N)]
  rw [show (Fin.elim0 : Fin 0 → ℝ) = 0 from funext fun k => k.elim0]

theorem stage_iff (hmu : mu ≠ 0) (h : Shapes P op ks vPrev vs out s.dv outA) (i : ℕ) (hi : i < N) :
    StageEq (inp P hess op mu preg exact force l vPrev vs out x u) mu (-(P.hxᵀ *ᵥ s.dlam0)) s i ↔
      (∀ k, k < ncOf P i → Row P op ks mu vPrev vs out x u s i k) ∧
      (P.fx i *ᵥ s.dx i + P.fu i *ᵥ s.du i + (P.f i (x i) (u i) - x (i + 1)) = s.dx (i + 1)) ∧
      rX P hess preg exact l vs s i + dropped P hess op mu preg exact force l vPrev vs out x u i = 0 ∧
      rU P hess preg exact l vs s i = 0 := by
  have hd : dim ((P.c i).map cdata) = ncOf P i := by rw [dim_cdata, ncOf, if_pos hi]
  have hS := (h.lib i hi.le).hasKinds
  have hk : (ks i).length = dim ((P.c i).map cdata) := by rw [hd, h.kinds i hi.le]
  have hsh : (shiftedAt P mu vPrev x u i).length = dim ((P.c i).map cdata) := by rw [hd, h.shifted mu x u i hi.le]
  have hV : Gar.gradV (knot (inp P hess op mu preg exact force l vPrev vs out x u) i) mu 0 ⟨s.dx i, s.du i, vec _ (s.dv i)⟩ = 0 ↔
      ∀ k, k < ncOf P i → Row P op ks mu vPrev vs out x u s i k := by
    have := project_rows hS (1 / mu) mu (shiftedAt P mu vPrev x u i)
      ((inp P hess op mu preg exact force l vPrev vs out x u).Lvs i) (s.dv i) ((P.c i).map cdata) hk hsh (s.dx i) (s.du i)
    simp only [rowEq_stage hess mu preg exact force l x u h i hi] at this
    rw [← hd, ← this]
    unfold Gar.gradV
    rw [mulVec_zero, add_zero]
    exact Iff.rfl
  obtain ⟨g1, -, g3⟩ := compute_eq (pdata P) (some (lamsNext l s)) (fun i => Spec.ladd (vs i) (s.dv i))
  obtain ⟨f1, -, f3⟩ := compute_eq (pdata P) (some l) vs
  have hl : (vs i).length = (s.dv i).length := by rw [h.cur i hi.le, h.dv i hi.le]
  have hgrad := fun hr => project_grad hS mu hmu (shiftedAt P mu vPrev x u i)
      ((inp P hess op mu preg exact force l vPrev vs out x u).Lvs i) (s.dv i) ((P.c i).map cdata) hk hsh (s.dx i) (s.du i) hr
  have hrow : (∀ k, k < ncOf P i → Row P op ks mu vPrev vs out x u s i k) →
      (Gar.gradX (knot (inp P hess op mu preg exact force l vPrev vs out x u) i) 0 ⟨s.dx i, s.du i, vec _ (s.dv i)⟩ +
        (P.fx i)ᵀ *ᵥ s.dlam i - costate (-(P.hxᵀ *ᵥ s.dlam0)) s i =
        rX P hess preg exact l vs s i + dropped P hess op mu preg exact force l vPrev vs out x u i) ∧
      (Gar.gradU (knot (inp P hess op mu preg exact force l vPrev vs out x u) i) 0 ⟨s.dx i, s.du i, vec _ (s.dv i)⟩ +
        (P.fu i)ᵀ *ᵥ s.dlam i = rU P hess preg exact l vs s i) := by
    intro hr
    obtain ⟨ex, eu⟩ := hgrad (fun k hk' => (rowEq_stage hess mu preg exact force l x u h i hi k).2 (hr k (hd ▸ hk')))
    have kx : Gar.gradX (knot (inp P hess op mu preg exact force l vPrev vs out x u) i) 0 ⟨s.dx i, s.du i, vec _ (s.dv i)⟩ =
        ((curv hess preg exact).Q i *ᵥ s.dx i + (curv hess preg exact).S i *ᵥ s.du i) +
        (inp P hess op mu preg exact force l vPrev vs out x u).grad.Lxs i + cstrX (s.dv i) ((P.c i).map cdata) 0 := by
      rw [← ex]
      unfold Gar.gradX
      rw [mulVec_zero, add_zero]
      show _ + (_ + _) + _ = _
      rw [← add_assoc, add_assoc _ _ (_ *ᵥ _)]
      rfl
    have ku : Gar.gradU (knot (inp P hess op mu preg exact force l vPrev vs out x u) i) 0 ⟨s.dx i, s.du i, vec _ (s.dv i)⟩ =
        (((curv hess preg exact).S i)ᵀ *ᵥ s.dx i + (curv hess preg exact).R i *ᵥ s.du i) +
        (inp P hess op mu preg exact force l vPrev vs out x u).grad.Lus i + cstrU (s.dv i) ((P.c i).map cdata) 0 := by
      rw [← eu]
      unfold Gar.gradU
      rw [mulVec_zero, add_zero]
      show _ + (_ + _) + _ = _
      rw [← add_assoc, add_assoc _ _ (_ *ᵥ _)]
      rfl
    have gl : (inp P hess op mu preg exact force l vPrev vs out x u).grad.Lus i = (gradNow P l vs).Lus i := by
      show (if force then (gradNow P l vs).setX 0 0 else gradNow P l vs).Lus i = _
      cases force <;> rfl
    have n1 : (gradNext P l vs s).Lxs i = (gradNow P l vs).Lxs i - costate (-(P.hxᵀ *ᵥ s.dlam0)) s i +
        (P.fx i)ᵀ *ᵥ s.dlam i + cstrX (s.dv i) ((P.c i).map cdata) 0 := by
      show (compute _ _ _).Lxs i = (compute _ _ _).Lxs i - _ + _ + _
      have hb : base (pdata P) (some (lamsNext l s)) i = base (pdata P) (some l) i - costate (-(P.hxᵀ *ᵥ s.dlam0)) s i :=
        base_add (pdata P) l s i
      rw [g1 i hi, f1 i hi, hb, cstrX_ladd _ _ hl]
      have : dynX (pdata P) (some (lamsNext l s)) i = dynX (pdata P) (some l) i + (P.fx i)ᵀ *ᵥ s.dlam i := by
        simp only [dynX, lamsNext, mulVec_add]; rfl
      rw [this]
      simp only [pdata]
      abel
    have n2 : (gradNext P l vs s).Lus i = (gradNow P l vs).Lus i + (P.fu i)ᵀ *ᵥ s.dlam i +
        cstrU (s.dv i) ((P.c i).map cdata) 0 := by
      show (compute _ _ _).Lus i = (compute _ _ _).Lus i + _ + _
      rw [g3 i hi, f3 i hi, cstrU_ladd _ _ hl]
      have : dynU (pdata P) (some (lamsNext l s)) i = dynU (pdata P) (some l) i + (P.fu i)ᵀ *ᵥ s.dlam i := by
        simp only [dynU, lamsNext, mulVec_add]; rfl
      rw [this]
      simp only [pdata]
      abel
    constructor
    · rw [kx, rX, n1, dropped]; abel
    · rw [ku, rU, n2, gl]; abel
  constructor
  · rintro ⟨h1, h2, h3, h4⟩
    have hr := hV.1 h3
    obtain ⟨e1, e2⟩ := hrow hr
    exact ⟨hr, h4, by rw [← e1]; exact sub_eq_zero.2 h1, by rw [← e2]; exact h2⟩
  · rintro ⟨hr, h4, h1, h2⟩
    obtain ⟨e1, e2⟩ := hrow hr
    exact ⟨sub_eq_zero.1 (e1.trans h1), e2.trans h2, hV.2 hr, h4⟩

theorem term_iff (hmu : mu ≠ 0) (h : Shapes P op ks vPrev vs out s.dv outA) :
    (Gar.gradX (termKnot (inp P hess op mu preg exact force l vPrev vs out x u)) 0 ⟨s.dx N, Fin.elim0, vec _ (s.dv N)⟩ =
        costate (-(P.hxᵀ *ᵥ s.dlam0)) s N ∧
      Gar.gradV (termKnot (inp P hess op mu preg exact force l vPrev vs out x u)) mu 0 ⟨s.dx N, Fin.elim0, vec _ (s.dv N)⟩ = 0) ↔
      (∀ k, k < ncOf P N → Row P op ks mu vPrev vs out x u s N k) ∧
      rXN P hess preg exact l vs s + dropped P hess op mu preg exact force l vPrev vs out x u N = 0 := by
  have hd : dim (P.cN.map cdata) = ncOf P N := by rw [dim_cdata, ncOf, if_neg (lt_irrefl N)]
  have hS := (h.lib N le_rfl).hasKinds
  have hk : (ks N).length = dim (P.cN.map cdata) := by rw [hd, h.kinds N le_rfl]
  have hsh : (shiftedAt P mu vPrev x u N).length = dim (P.cN.map cdata) := by rw [hd, h.shifted mu x u N le_rfl]
  have hV : Gar.gradV (termKnot (inp P hess op mu preg exact force l vPrev vs out x u)) mu 0
      ⟨s.dx N, Fin.elim0, vec _ (s.dv N)⟩ = 0 ↔ ∀ k, k < ncOf P N → Row P op ks mu vPrev vs out x u s N k := by
    have := project_rows hS (1 / mu) mu (shiftedAt P mu vPrev x u N)
      ((inp P hess op mu preg exact force l vPrev vs out x u).Lvs N) (s.dv N) (P.cN.map cdata) hk hsh (s.dx N) Fin.elim0
    simp only [rowEq_term hess mu preg exact force l x u h] at this
    rw [← hd, ← this]
    unfold Gar.gradV
    rw [mulVec_zero, add_zero]
    have e0 : ∀ {a : ℕ} (M M' : Matrix (Fin a) (Fin 0) ℝ) (w : Fin 0 → ℝ), M *ᵥ w = M' *ᵥ w := by
      intro a M M' w; funext j; simp [mulVec, dotProduct]
    rw [e0 (termKnot (inp P hess op mu preg exact force l vPrev vs out x u)).D (project (op N) (1 / mu) (shiftedAt P mu vPrev x u N)
      ((inp P hess op mu preg exact force l vPrev vs out x u).Lvs N) (P.cN.map cdata)).D]
    exact Iff.rfl
  obtain ⟨-, g2, -⟩ := compute_eq (pdata P) (some (lamsNext l s)) (fun i => Spec.ladd (vs i) (s.dv i))
  obtain ⟨-, f2, -⟩ := compute_eq (pdata P) (some l) vs
  have hl : (vs N).length = (s.dv N).length := by rw [h.cur N le_rfl, h.dv N le_rfl]
  have hrow : (∀ k, k < ncOf P N → Row P op ks mu vPrev vs out x u s N k) →
      Gar.gradX (termKnot (inp P hess op mu preg exact force l vPrev vs out x u)) 0 ⟨s.dx N, Fin.elim0, vec _ (s.dv N)⟩ -
        costate (-(P.hxᵀ *ᵥ s.dlam0)) s N =
        rXN P hess preg exact l vs s + dropped P hess op mu preg exact force l vPrev vs out x u N := by
    intro hr
    obtain ⟨ex, -⟩ := project_grad hS mu hmu (shiftedAt P mu vPrev x u N)
      ((inp P hess op mu preg exact force l vPrev vs out x u).Lvs N) (s.dv N) (P.cN.map cdata) hk hsh (s.dx N) Fin.elim0
      (fun k hk' => (rowEq_term hess mu preg exact force l x u h k).2 (hr k (hd ▸ hk')))
    have kx : Gar.gradX (termKnot (inp P hess op mu preg exact force l vPrev vs out x u)) 0 ⟨s.dx N, Fin.elim0, vec _ (s.dv N)⟩ =
        (curv hess preg exact).QN *ᵥ s.dx N +
        (inp P hess op mu preg exact force l vPrev vs out x u).grad.Lxs N + cstrX (s.dv N) (P.cN.map cdata) 0 := by
      rw [← ex]
      unfold Gar.gradX
      rw [mulVec_zero, add_zero, show (termKnot (inp P hess op mu preg exact force l vPrev vs out x u)).S *ᵥ Fin.elim0 = 0 from
        zero_mulVec _, add_zero]
      show _ + (_ + _) + _ = _
      rw [← add_assoc, add_assoc _ _ (_ *ᵥ _)]
      rfl
    have n1 : (gradNext P l vs s).Lxs N = (gradNow P l vs).Lxs N - costate (-(P.hxᵀ *ᵥ s.dlam0)) s N +
        cstrX (s.dv N) (P.cN.map cdata) 0 := by
      show (compute _ _ _).Lxs N = (compute _ _ _).Lxs N - _ + _
      have hb : base (pdata P) (some (lamsNext l s)) N = base (pdata P) (some l) N - costate (-(P.hxᵀ *ᵥ s.dlam0)) s N :=
        base_add (pdata P) l s N
      rw [g2, f2, hb, cstrX_ladd _ _ hl]
      simp only [pdata]
      abel
    rw [kx, rXN, n1, dropped]; abel
  constructor
  · rintro ⟨h1, h3⟩
    have hr := hV.1 h3
    exact ⟨hr, by rw [← hrow hr]; exact sub_eq_zero.2 h1⟩
  · rintro ⟨hr, h1⟩
    exact ⟨sub_eq_zero.1 ((hrow hr).trans h1), hV.2 hr⟩

/-- The optimality conditions of the subproblem, row by row. -/
theorem kkt_rows (hmu : mu ≠ 0) (h : Shapes P op ks vPrev vs out s.dv outA) :
    Gar.KKT (subproblem (inp P hess op mu preg exact force l vPrev vs out x u)) mu 0 s.dlam0
      (traj (inp P hess op mu preg exact force l vPrev vs out x u) s) ↔
      (P.hx *ᵥ s.dx 0 + P.h (x 0) = 0) ∧
      (∀ i, i < N → P.fx i *ᵥ s.dx i + P.fu i *ᵥ s.du i + (P.f i (x i) (u i) - x (i + 1)) = s.dx (i + 1)) ∧
      (∀ i, i ≤ N → ∀ k, k < ncOf P i → Row P op ks mu vPrev vs out x u s i k) ∧
      (∀ i, i < N → rX P hess preg exact l vs s i + dropped P hess op mu preg exact force l vPrev vs out x u i = 0 ∧
        rU P hess preg exact l vs s i = 0) ∧
      rXN P hess preg exact l vs s + dropped P hess op mu preg exact force l vPrev vs out x u N = 0 := by
  refine (kkt_iff (inp P hess op mu preg exact force l vPrev vs out x u) mu s).trans ?_
  have t := term_iff hess mu preg exact force l x u hmu h
  have st := fun i hi => stage_iff hess mu preg exact force l x u hmu h i hi
  constructor
  · rintro ⟨h0, h1, h2⟩
    obtain ⟨r, e⟩ := t.1 h2
    refine ⟨h0, fun i hi => ((st i hi).1 (h1 i hi)).2.1, fun i hi => ?_, fun i hi => ((st i hi).1 (h1 i hi)).2.2, e⟩
    rcases Nat.lt_or_eq_of_le hi with hi | rfl
    · exact ((st i hi).1 (h1 i hi)).1
    · exact r
  · rintro ⟨h0, h1, h2, h3, h4⟩
    exact ⟨h0, fun i hi => (st i hi).2 ⟨h2 i hi.le, h1 i hi, h3 i hi⟩, t.2 ⟨h2 N le_rfl, h4⟩⟩

/-! ### The equations of Newton's method -/

theorem pair_form (ex : ∀ i, Fin (nx i) → ℝ) (eu : ∀ i, Fin (nu i) → ℝ) :
    pair (gradNext P l vs s) N ex eu + (curv hess preg exact).form ex eu s.dx s.du =
      (∑ i ∈ Finset.range N, (ex i ⬝ᵥ rX P hess preg exact l vs s i + eu i ⬝ᵥ rU P hess preg exact l vs s i)) +
        ex N ⬝ᵥ rXN P hess preg exact l vs s := by
  unfold pair Spec.Curv.form rX rU rXN
  rw [Finset.sum_range_succ]
  simp only [dotProduct_add, Finset.sum_add_distrib]
  simp only [dotProduct_comm (Grad.Lxs _ _), dotProduct_comm (Grad.Lus _ _)]
  ring

theorem Shapes.next (h : Shapes P op ks vPrev vs out s.dv outA) : VShape P (fun i => Spec.ladd (vs i) (s.dv i)) := by
  have hl : ∀ i, i ≤ N → (Spec.ladd (vs i) (s.dv i)).length = ncOf P i := by
    intro i hi
    simp [Spec.ladd, h.cur i hi, h.dv i hi]
  exact ⟨fun i hi => by rw [hl i hi.le, ncOf, if_pos hi], by rw [hl N le_rfl, ncOf, if_neg (lt_irrefl N)]⟩

theorem newton_dir (hP : P.Right x u) (h : Shapes P op ks vPrev vs out s.dv outA) (ex : ∀ i, Fin (nx i) → ℝ)
    (eu : ∀ i, Fin (nu i) → ℝ) :
    HasDerivAt (fun t : ℝ => lagrangian P (l.init + s.dlam0) (fun i => l.dyn i + s.dlam i) (fun i => Spec.ladd (vs i) (s.dv i))
      (fun i => x i + t • ex i) (fun i => u i + t • eu i)) (-(curv hess preg exact).form ex eu s.dx s.du) 0 ↔
    (∑ i ∈ Finset.range N, (ex i ⬝ᵥ rX P hess preg exact l vs s i + eu i ⬝ᵥ rU P hess preg exact l vs s i)) +
        ex N ⬝ᵥ rXN P hess preg exact l vs s = 0 := by
  have hd : HasDerivAt (fun t : ℝ => lagrangian P (l.init + s.dlam0) (fun i => l.dyn i + s.dlam i)
      (fun i => Spec.ladd (vs i) (s.dv i)) (fun i => x i + t • ex i) (fun i => u i + t • eu i))
      (pair (gradNext P l vs s) N ex eu) 0 := C27_lagrangian_gradient P x u hP (lamsNext l s) _ h.next ex eu
  rw [← pair_form hess preg exact l ex eu]
  constructor
  · intro h1
    have e := h1.unique hd
    linarith
  · intro h1
    refine HasDerivAt.congr_deriv hd ?_
    linarith

theorem stat_iff (hP : P.Right x u) (h : Shapes P op ks vPrev vs out s.dv outA) :
    Spec.NewtonStationarity P (curv hess preg exact) x u l.init l.dyn vs s ↔
      (∀ i, i < N → rX P hess preg exact l vs s i = 0 ∧ rU P hess preg exact l vs s i = 0) ∧
      rXN P hess preg exact l vs s = 0 := by
  unfold Spec.NewtonStationarity
  simp only [newton_dir hess preg exact l x u hP h]
  constructor
  · intro hall
    have nn : ∀ {n : ℕ} (w : Fin n → ℝ), 0 ≤ w ⬝ᵥ w := fun w => Finset.sum_nonneg fun k _ => mul_self_nonneg _
    have h1 := hall (Function.update (fun i => rX P hess preg exact l vs s i) N (rXN P hess preg exact l vs s))
      (fun i => rU P hess preg exact l vs s i)
    rw [Function.update_self] at h1
    have h2 : ∀ i ∈ Finset.range N, Function.update (fun i => rX P hess preg exact l vs s i) N (rXN P hess preg exact l vs s) i ⬝ᵥ
        rX P hess preg exact l vs s i + rU P hess preg exact l vs s i ⬝ᵥ rU P hess preg exact l vs s i =
        rX P hess preg exact l vs s i ⬝ᵥ rX P hess preg exact l vs s i +
        rU P hess preg exact l vs s i ⬝ᵥ rU P hess preg exact l vs s i := by
      intro i hi
      rw [Function.update_of_ne (by have := Finset.mem_range.1 hi; omega)]
    rw [Finset.sum_congr rfl h2] at h1
    have h3 : ∀ i ∈ Finset.range N, 0 ≤ rX P hess preg exact l vs s i ⬝ᵥ rX P hess preg exact l vs s i +
        rU P hess preg exact l vs s i ⬝ᵥ rU P hess preg exact l vs s i := fun i _ => add_nonneg (nn _) (nn _)
    have h4 := Finset.sum_nonneg h3
    have h5 := nn (rXN P hess preg exact l vs s)
    have h6 : ∑ i ∈ Finset.range N, (rX P hess preg exact l vs s i ⬝ᵥ rX P hess preg exact l vs s i +
        rU P hess preg exact l vs s i ⬝ᵥ rU P hess preg exact l vs s i) = 0 := by linarith
    refine ⟨fun i hi => ?_, dotProduct_self_eq_zero.1 (by linarith)⟩
    have h7 := (Finset.sum_eq_zero_iff_of_nonneg h3).1 h6 i (Finset.mem_range.2 hi)
    have h8 := nn (rX P hess preg exact l vs s i)
    have h9 := nn (rU P hess preg exact l vs s i)
    exact ⟨dotProduct_self_eq_zero.1 (by linarith), dotProduct_self_eq_zero.1 (by linarith)⟩
  · rintro ⟨h1, h2⟩ ex eu
    rw [h2, dotProduct_zero, add_zero]
    refine Finset.sum_eq_zero fun i hi => ?_
    obtain ⟨a, b⟩ := h1 i (Finset.mem_range.1 hi)
    rw [a, b, dotProduct_zero, dotProduct_zero, add_zero]

theorem init_iff (hP : P.Right x u) : Spec.NewtonInit P x s ↔ P.hx *ᵥ s.dx 0 + P.h (x 0) = 0 := by
  have hd := hP.h (s.dx 0)
  constructor
  · intro h
    rw [hd.unique h]; simp
  · intro h
    exact HasDerivAt.congr_deriv hd (eq_neg_of_add_eq_zero_left h)

theorem dyn_iff (hP : P.Right x u) : Spec.NewtonDynamics P x u s ↔
    ∀ i, i < N → P.fx i *ᵥ s.dx i + P.fu i *ᵥ s.du i + (P.f i (x i) (u i) - x (i + 1)) = s.dx (i + 1) := by
  refine forall_congr' fun i => forall_congr' fun hi => ?_
  have hd := (hP.f i hi (s.dx i) (s.du i)).sub (hasDerivAt_line (x (i + 1)) (s.dx (i + 1)))
  constructor
  · intro h
    have e := hd.unique h
    rw [sub_eq_iff_eq_add] at e
    rw [e]; abel
  · intro h
    refine HasDerivAt.congr_deriv hd ?_
    rw [← h]; abel

theorem hasDerivAt_cstr (hP : P.Right x u) (i k : ℕ) :
    HasDerivAt (fun t : ℝ => (Spec.cstr P (fun i => x i + t • s.dx i) (fun i => u i + t • s.du i) i).getD k 0)
      (dirAt P s i k) 0 := by
  unfold Spec.cstr dirAt
  by_cases hiN : i < N
  · simp only [if_pos hiN]
    exact hasDerivAt_stack_coord _ _ _ _ _ (hP.c i hiN) k
  · simp only [if_neg hiN]
    have := hasDerivAt_stack_coord P.cN (x N) (s.dx N) 0 0 hP.cN k
    simpa using this

theorem flag_eq (h : Shapes P op ks vPrev vs out s.dv outA) (i : ℕ) (hi : i ≤ N) (k : ℕ) :
    flagAt (ks i) (shiftedAt P mu vPrev x u i) k =
      ((op i).computeActiveSet (shiftedAt P mu vPrev x u i) (outA i)).getD k false := by
  rw [(h.lib i hi).hasKinds.active _ _ (by rw [h.shifted mu x u i hi, h.kinds i hi]) (by rw [h.outA i hi, h.kinds i hi])]
  rfl

theorem semismooth_iff (hP : P.Right x u) (h : Shapes P op ks vPrev vs out s.dv outA) :
    Spec.SemismoothConstraints P (ncOf P) (fun i z => (op i).normalConeProjection z (out i))
      (fun i k => ((op i).computeActiveSet (shiftedAt P mu vPrev x u i) (outA i)).getD k false) mu vPrev vs x u s ↔
    ∀ i, i ≤ N → ∀ k, k < ncOf P i → Row P op ks mu vPrev vs out x u s i k := by
  refine forall_congr' fun i => forall_congr' fun hi => forall_congr' fun k => forall_congr' fun _ => ?_
  unfold Row
  rw [flag_eq mu x u h i hi k]
  constructor
  · intro hD
    have := hD _ (hasDerivAt_cstr x u hP i k)
    simp only [shiftedAt] at this ⊢
    linarith
  · intro hr D hD
    rw [hD.unique (hasDerivAt_cstr x u hP i k)]
    simp only [shiftedAt] at hr ⊢
    linarith

/-- No shifted constraint value is at a kink of the projection. -/
def OffKinks (P : Lag.Spec.Problem nx nu N) (ks : ℕ → List Kind) (mu : ℝ) (vPrev : ℕ → List ℝ) (x : ∀ i, Fin (nx i) → ℝ)
    (u : ∀ i, Fin (nu i) → ℝ) : Prop :=
  ∀ i, i ≤ N → ∀ k (hk : k < (ks i).length), ((ks i)[k]).Regular ∧ ¬ ((ks i)[k]).kink ((shiftedAt P mu vPrev x u i).getD k 0)

theorem smooth_iff (hP : P.Right x u) (h : Shapes P op ks vPrev vs out s.dv outA) (hk : OffKinks P ks mu vPrev x u) :
    Spec.NewtonConstraints P (ncOf P) (fun i z => (op i).normalConeProjection z (out i)) mu vPrev vs x u s ↔
    ∀ i, i ≤ N → ∀ k, k < ncOf P i → Row P op ks mu vPrev vs out x u s i k := by
  refine forall_congr' fun i => forall_congr' fun hi => forall_congr' fun k => forall_congr' fun hkn => ?_
  have hkk : k < (ks i).length := by rw [h.kinds i hi]; exact hkn
  have ls : ∀ (x : ∀ i, Fin (nx i) → ℝ) (u : ∀ i, Fin (nu i) → ℝ), (shiftedAt P mu vPrev x u i).length = (ks i).length :=
    fun x u => by rw [h.shifted mu x u i hi, h.kinds i hi]
  have lo : (out i).length = (ks i).length := by rw [h.out i hi, h.kinds i hi]
  have hcone : ∀ (x : ∀ i, Fin (nx i) → ℝ) (u : ∀ i, Fin (nu i) → ℝ),
      ((op i).normalConeProjection (shiftedAt P mu vPrev x u i) (out i)).getD k 0 =
      ((ks i)[k]).cone ((Spec.cstr P x u i).getD k 0 + mu * (vPrev i).getD k 0) := by
    intro x u
    rw [(h.lib i hi).hasKinds.cone _ _ (ls x u) lo,
      getD_zipWith_kind (fun k a => k.cone a) (ks i) _ k 0 (ls x u) (by rw [ls x u]; exact hkk)]
    congr 1
    rw [← getD_get _ k 0, shiftedAt, getD_zipWith_add _ _ (by rw [cstr_length, List.length_map, h.prev i hi]), getD_map_mul]
  have hsh : (shiftedAt P mu vPrev x u i).getD k 0 = (Spec.cstr P x u i).getD k 0 + mu * (vPrev i).getD k 0 := by
    rw [shiftedAt, getD_zipWith_add _ _ (by rw [cstr_length, List.length_map, h.prev i hi]), getD_map_mul]
  obtain ⟨hreg, hnk⟩ := hk i hi k hkk
  have hflag : flagAt (ks i) (shiftedAt P mu vPrev x u i) k =
      ((ks i)[k]).flag ((shiftedAt P mu vPrev x u i).getD k 0) := by
    unfold flagAt
    rw [getD_zipWith_kind (fun k a => k.flag a) (ks i) _ k false (ls x u) (by rw [ls x u]; exact hkk), getD_get]
  have hc := hasDerivAt_cstr (s := s) x u hP i k
  have hc' : HasDerivAt (fun t : ℝ => (Spec.cstr P (fun i => x i + t • s.dx i) (fun i => u i + t • s.du i) i).getD k 0 +
      mu * (vPrev i).getD k 0) (dirAt P s i k) 0 := hc.add_const _
  have h0 : (Spec.cstr P (fun i => x i + (0 : ℝ) • s.dx i) (fun i => u i + (0 : ℝ) • s.du i) i).getD k 0 +
      mu * (vPrev i).getD k 0 = (shiftedAt P mu vPrev x u i).getD k 0 := by
    rw [hsh]; simp
  have hK := ((ks i)[k]).differentiable hreg _ hnk
  rw [← hflag, ← h0] at hK
  have hcomp := HasDerivAt.comp (0 : ℝ) hK hc'
  have hlin : HasDerivAt (fun t : ℝ => mu * ((vs i).getD k 0 + t * (s.dv i).getD k 0)) (mu * (s.dv i).getD k 0) 0 := by
    simpa using ((((hasDerivAt_id (0 : ℝ)).mul_const ((s.dv i).getD k 0)).const_add ((vs i).getD k 0)).const_mul mu)
  have hall := hcomp.sub hlin
  have e : (fun t : ℝ => ((op i).normalConeProjection (List.zipWith (· + ·)
        (Spec.cstr P (fun i => x i + t • s.dx i) (fun i => u i + t • s.du i) i) ((vPrev i).map (mu * ·))) (out i)).getD k 0 -
      mu * ((vs i).getD k 0 + t * (s.dv i).getD k 0)) =
      (((ks i)[k]).cone ∘ fun t : ℝ => (Spec.cstr P (fun i => x i + t • s.dx i) (fun i => u i + t • s.du i) i).getD k 0 +
        mu * (vPrev i).getD k 0) - fun t : ℝ => mu * ((vs i).getD k 0 + t * (s.dv i).getD k 0) := by
    funext t
    exact congrArg (· - _) (hcone _ _)
  rw [e]
  unfold Row
  have hif : (if flagAt (ks i) (shiftedAt P mu vPrev x u i) k = true then (1 : ℝ) else 0) * dirAt P s i k =
      if flagAt (ks i) (shiftedAt P mu vPrev x u i) k = true then dirAt P s i k else 0 := by
    split <;> simp
  rw [hif] at hall
  constructor
  · intro h1
    have := hall.unique h1
    simp only [shiftedAt] at this ⊢
    linarith
  · intro h1
    refine HasDerivAt.congr_deriv hall ?_
    simp only [shiftedAt] at h1 ⊢
    linarith

theorem dropped_off (i : ℕ) : dropped P hess op mu preg exact false l vPrev vs out x u i = 0 :=
  sub_self _

theorem dropped_pos (i : ℕ) (hi : i ≠ 0) : dropped P hess op mu preg exact force l vPrev vs out x u i = 0 := by
  unfold dropped
  show (if force then (gradNow P l vs).setX 0 0 else gradNow P l vs).Lxs i - _ = 0
  cases force
  · exact sub_self _
  · simp [Grad.setX, hi]

/-- **C54** The subproblem is the (semismooth) Newton step: for every horizon, dimensions, problem data with right first
derivatives, iterate, multipliers, library sets, non-zero penalty, regularisation and Hessian option, a step satisfies the
optimality conditions of the subproblem handed to the linear solver if and only if it satisfies the Newton equations of the
proximal optimality conditions: stationarity of the Lagrangian at the new multipliers with the curvature `curv`, dynamics,
initial condition, and the constraints with the slopes of the projection given by the active set. -/
theorem C54_subproblem_is_semismooth_newton (hP : P.Right x u) (hmu : mu ≠ 0)
    (h : Shapes P op ks vPrev vs out s.dv outA) :
    Gar.KKT (subproblem (inp P hess op mu preg exact false l vPrev vs out x u)) mu 0 s.dlam0
      (traj (inp P hess op mu preg exact false l vPrev vs out x u) s) ↔
      Spec.NewtonStationarity P (curv hess preg exact) x u l.init l.dyn vs s ∧ Spec.NewtonDynamics P x u s ∧
      Spec.NewtonInit P x s ∧
      Spec.SemismoothConstraints P (ncOf P) (fun i z => (op i).normalConeProjection z (out i))
        (fun i k => ((op i).computeActiveSet (shiftedAt P mu vPrev x u i) (outA i)).getD k false) mu vPrev vs x u s := by
  rw [kkt_rows hess mu preg exact false l x u hmu h, stat_iff hess preg exact l x u hP h, dyn_iff x u hP, init_iff x u hP,
    semismooth_iff mu x u hP h]
  simp only [dropped_off, add_zero]
  tauto

/-- **C54** Off the kinks of the projections it is the exact Newton step on the constraint residual
`Π(c(x, u) + mu v_prev) - mu v` too. -/
theorem C54_subproblem_is_newton (hP : P.Right x u) (hmu : mu ≠ 0) (h : Shapes P op ks vPrev vs out s.dv outA)
    (hk : OffKinks P ks mu vPrev x u) :
    Gar.KKT (subproblem (inp P hess op mu preg exact false l vPrev vs out x u)) mu 0 s.dlam0
      (traj (inp P hess op mu preg exact false l vPrev vs out x u) s) ↔
      Spec.NewtonStationarity P (curv hess preg exact) x u l.init l.dyn vs s ∧ Spec.NewtonDynamics P x u s ∧
      Spec.NewtonInit P x s ∧
      Spec.NewtonConstraints P (ncOf P) (fun i z => (op i).normalConeProjection z (out i)) mu vPrev vs x u s := by
  rw [kkt_rows hess mu preg exact false l x u hmu h, stat_iff hess preg exact l x u hP h, dyn_iff x u hP, init_iff x u hP,
    smooth_iff mu x u hP h hk]
  simp only [dropped_off, add_zero]
  tauto

/-- **C54** With a forced initial condition the subproblem drops the gradient with respect to the first state: the other
equations are unchanged, and if the transposed Jacobian of the initial condition is onto, the step is a full Newton step for
another multiplier step of the initial condition. -/
theorem C54_forced_initial_condition (hP : P.Right x u) (hmu : mu ≠ 0) (h : Shapes P op ks vPrev vs out s.dv outA)
    (honto : ∀ w, ∃ y, P.hxᵀ *ᵥ y = w)
    (hK : Gar.KKT (subproblem (inp P hess op mu preg exact true l vPrev vs out x u)) mu 0 s.dlam0
      (traj (inp P hess op mu preg exact true l vPrev vs out x u) s)) :
    ∃ dlam0, let s' : Spec.Step nx nu P.nc0 := { s with dlam0 := dlam0 }
      Spec.NewtonStationarity P (curv hess preg exact) x u l.init l.dyn vs s' ∧ Spec.NewtonDynamics P x u s' ∧
      Spec.NewtonInit P x s' ∧
      Spec.SemismoothConstraints P (ncOf P) (fun i z => (op i).normalConeProjection z (out i))
        (fun i k => ((op i).computeActiveSet (shiftedAt P mu vPrev x u i) (outA i)).getD k false) mu vPrev vs x u s' := by
  rw [kkt_rows hess mu preg exact true l x u hmu h] at hK
  obtain ⟨h0, h1, h2, h3, h4⟩ := hK
  obtain ⟨y, hy⟩ := honto (dropped P hess op mu preg exact true l vPrev vs out x u 0)
  refine ⟨s.dlam0 + y, ?_⟩
  intro s'
  have h' : Shapes P op ks vPrev vs out s'.dv outA := h
  refine ⟨(stat_iff hess preg exact l x u hP h').2 ?_, (dyn_iff x u hP).2 h1, (init_iff x u hP).2 h0,
    (semismooth_iff mu x u hP h').2 h2⟩
  obtain ⟨g1, g2, g3⟩ := compute_eq (pdata P) (some (lamsNext l s)) (fun i => Spec.ladd (vs i) (s.dv i))
  obtain ⟨k1, k2, k3⟩ := compute_eq (pdata P) (some (lamsNext l s')) (fun i => Spec.ladd (vs i) (s.dv i))
  have hb : ∀ i, base (pdata P) (some (lamsNext l s')) i = base (pdata P) (some (lamsNext l s)) i +
      dropped P hess op mu preg exact true l vPrev vs out x u i := by
    intro i
    cases i with
    | zero =>
      rw [← hy]
      show P.hxᵀ *ᵥ (l.init + (s.dlam0 + y)) = P.hxᵀ *ᵥ (l.init + s.dlam0) + P.hxᵀ *ᵥ y
      rw [← mulVec_add, add_assoc]
    | succ i => rw [dropped_pos hess mu preg exact true l x u _ (Nat.succ_ne_zero i), add_zero]; rfl
  refine ⟨fun i hi => ⟨?_, ?_⟩, ?_⟩
  · rw [← (h3 i hi).1]
    unfold rX gradNext
    show (compute _ _ _).Lxs i + _ = _
    rw [g1 i hi, k1 i hi, hb]
    show _ + _ + (_ + dynX (pdata P) (some (lamsNext l s)) i + _) + _ = _
    abel
  · rw [← (h3 i hi).2]
    unfold rU gradNext
    show (compute _ _ _).Lus i + _ = _
    rw [g3 i hi, k3 i hi]
    rfl
  · rw [← h4]
    unfold rXN gradNext
    show (compute _ _ _).Lxs N + _ = _
    rw [g2, k2, hb]
    abel

/-! ### Zero steps -/

/-- The step that changes nothing. -/
def zeroStep (nc0 : ℕ) (vs : ℕ → List ℝ) : Spec.Step nx nu nc0 where
  dx _ := 0
  du _ := 0
  dlam0 := 0
  dlam _ := 0
  dv i := (vs i).map fun _ => 0

theorem sub_sub_self {a b : List ℝ} (h : a.length = b.length) : CSets.Spec.sub a (CSets.Spec.sub a b) = b := by
  refine ind2 (P := fun a b => CSets.Spec.sub a (CSets.Spec.sub a b) = b) rfl ?_ h
  intro x y l m _ ih
  simp [ih]

theorem list_ext_getD {a b : List ℝ} {n : ℕ} (ha : a.length = n) (hb : b.length = n)
    (h : ∀ k, k < n → a.getD k 0 = b.getD k 0) : a = b := by
  refine List.ext_getElem (by omega) fun k h1 h2 => ?_
  have := h k (by omega)
  rwa [getD_get _ _ _ h1, getD_get _ _ _ h2] at this

/-- The normal-cone projection of `z` is `mu v` if and only if `v` is in the normal cone at `z - mu v`. -/
theorem cone_fixed {S : CSet} {C : List ℝ → Prop} {n : ℕ} (h : ProjectsOnto S C n) (mu : ℝ) (hmu : 0 < mu) (z v out : List ℝ)
    (hz : z.length = n) (hv : v.length = n) (ho : out.length = n) :
    (∀ k, k < n → (S.normalConeProjection z out).getD k 0 = mu * v.getD k 0) ↔
      CSets.Spec.InNormalCone C n (CSets.Spec.sub z (v.map (mu * ·))) v := by
  have lp := h.length z out hz ho
  have eN : S.normalConeProjection z out = CSets.Spec.sub z (S.projection z out) := h.cone z out out hz ho ho
  have lN : (CSets.Spec.sub z (S.projection z out)).length = n := by rw [sub_length (by omega)]; omega
  have lv : (v.map (mu * ·)).length = n := by rw [List.length_map, hv]
  have lq : (CSets.Spec.sub z (v.map (mu * ·))).length = n := by rw [sub_length (by omega)]; omega
  constructor
  · intro hk
    have e : CSets.Spec.sub z (S.projection z out) = v.map (mu * ·) := by
      refine list_ext_getD lN lv fun k hkn => ?_
      rw [getD_map_mul, ← hk k hkn, eN]
    have e2 : CSets.Spec.sub z (v.map (mu * ·)) = S.projection z out := by rw [← e, sub_sub_self (by omega)]
    rw [e2]
    refine ⟨h.mem z out hz ho, fun w hw hCw => ?_⟩
    have h1 := h.normal z out w hz ho hw hCw
    rw [e, dot_map_left _ (by rw [sub_length (by omega)]; omega)] at h1
    by_contra h2
    rw [not_le] at h2
    linarith [mul_pos hmu h2]
  · rintro ⟨hC, hcone⟩ k hkn
    have e : CSets.Spec.sub z (v.map (mu * ·)) = S.projection z out := by
      refine h.unique hz ho lq hC ?_
      have e1 := dist2_expand (z := z) (p := CSets.Spec.sub z (v.map (mu * ·))) (w := S.projection z out) (by omega) (by omega)
      have h1 := hcone _ lp (h.mem z out hz ho)
      have h2 : CSets.Spec.dot (CSets.Spec.sub z (CSets.Spec.sub z (v.map (mu * ·))))
          (CSets.Spec.sub (S.projection z out) (CSets.Spec.sub z (v.map (mu * ·)))) ≤ 0 := by
        rw [sub_sub_self (by omega), dot_map_left _ (by rw [sub_length (by omega)]; omega)]
        exact mul_nonpos_of_nonneg_of_nonpos hmu.le h1
      have h3 : 0 ≤ CSets.Spec.dist2 (S.projection z out) (CSets.Spec.sub z (v.map (mu * ·))) := dot_self_nonneg _
      linarith
    rw [eN, ← e, sub_sub_self (by omega), getD_map_mul]

theorem LibrarySet.library {S : CSet} {C : List ℝ → Prop} {n : ℕ} (h : LibrarySet S C n) : ∃ ks, Library S ks ∧ ks.length = n := by
  induction h with
  | equality n => exact ⟨_, .equality n, by simp⟩
  | negativeOrthant n => exact ⟨_, .negativeOrthant n, by simp⟩
  | box lo up h => exact ⟨_, .box lo up h.length_eq, by simp [h.length_eq]⟩
  | product cs S hcs hS ih =>
    have : ∃ cs' : List (CSet × List Kind), cs'.map (·.1) = cs.map (·.1) ∧ cs'.map (·.2.length) = cs.map (·.2.2) ∧
        ∀ c ∈ cs', Library c.1 c.2 := by
      clear hS hcs
      induction cs with
      | nil => exact ⟨[], rfl, rfl, by simp⟩
      | cons c cs ihc =>
        obtain ⟨ks, h1, h2⟩ := ih c (by simp)
        obtain ⟨cs', e1, e2, e3⟩ := ihc (fun c hc => ih c (by simp [hc]))
        exact ⟨(c.1, ks) :: cs', by simp [e1], by simp [e2, h2], by
          intro d hd
          rcases List.mem_cons.1 hd with rfl | hd
          · exact h1
          · exact e3 d hd⟩
    obtain ⟨cs', e1, e2, e3⟩ := this
    refine ⟨_, .product cs' S e3 (by rw [e1, e2]; exact hS), ?_⟩
    rw [List.length_flatten, List.map_map, ← e2]
    rfl

/-- **C54** The zero step solves the subproblem if and only if the iterate satisfies the first-order optimality conditions of the
proximal problem: stationarity of the Lagrangian, the initial condition, the dynamics, and the multipliers in the normal cones at
the shifted constraint values. -/
theorem C54_zero_step_iff_stationary (hP : P.Right x u) (hmu : 0 < mu) (C : ℕ → List ℝ → Prop)
    (hC : ∀ i, i ≤ N → ProjectsOnto (op i) (C i) (ncOf P i))
    (h : Shapes P op ks vPrev vs out (zeroStep (nx := nx) (nu := nu) P.nc0 vs).dv outA) :
    Gar.KKT (subproblem (inp P hess op mu preg exact false l vPrev vs out x u)) mu 0 0
      (traj (inp P hess op mu preg exact false l vPrev vs out x u) (zeroStep P.nc0 vs)) ↔
      Spec.ProximalKKT P C (ncOf P) mu vPrev l.init l.dyn vs x u := by
  refine (C54_subproblem_is_semismooth_newton hess mu preg exact l x u hP hmu.ne' h).trans ?_
  have z1 : ∀ v : List ℝ, Spec.ladd v (v.map fun _ => 0) = v := by
    intro v
    unfold Spec.ladd
    induction v with
    | nil => rfl
    | cons a v ih => simpa using ih
  have zg : ∀ (v : List ℝ) (k : ℕ), (v.map fun _ => (0 : ℝ)).getD k 0 = 0 := by
    intro v k
    by_cases hk : k < v.length <;> simp [hk]
  have e1 : Spec.NewtonStationarity P (curv hess preg exact) x u l.init l.dyn vs (zeroStep P.nc0 vs) ↔
      Spec.Stationary P l.init l.dyn vs x u := by
    unfold Spec.NewtonStationarity Spec.Stationary Spec.Curv.form
    simp only [zeroStep, z1, add_zero, mulVec_zero, dotProduct_zero, Finset.sum_const_zero, neg_zero]
  have e2 : Spec.NewtonDynamics P x u (zeroStep P.nc0 vs) ↔ ∀ i, i < N → P.f i (x i) (u i) = x (i + 1) := by
    rw [dyn_iff x u hP]
    simp [zeroStep, sub_eq_zero]
  have e3 : Spec.NewtonInit P x (zeroStep (nu := nu) P.nc0 vs) ↔ P.h (x 0) = 0 := by
    rw [init_iff (u := u) x hP]
    simp [zeroStep]
  have e4 : Spec.SemismoothConstraints P (ncOf P) (fun i z => (op i).normalConeProjection z (out i))
        (fun i k => ((op i).computeActiveSet (shiftedAt P mu vPrev x u i) (outA i)).getD k false) mu vPrev vs x u
        (zeroStep P.nc0 vs) ↔
      ∀ i, i ≤ N → CSets.Spec.InNormalCone (C i) (ncOf P i)
        (CSets.Spec.sub (List.zipWith (· + ·) (Spec.cstr P x u i) ((vPrev i).map (mu * ·))) ((vs i).map (mu * ·))) (vs i) := by
    refine forall_congr' fun i => forall_congr' fun hi => ?_
    refine Iff.trans ?_ (cone_fixed (hC i hi) mu hmu (shiftedAt P mu vPrev x u i) (vs i) (out i) (h.shifted mu x u i hi)
      (h.cur i hi) (h.out i hi))
    refine forall_congr' fun k => forall_congr' fun _ => ?_
    simp only [zeroStep, smul_zero, add_zero, zg]
    constructor
    · intro hD
      have := hD 0 (hasDerivAt_const _ _)
      simpa [shiftedAt] using this
    · intro hk D hD
      rw [hD.unique (hasDerivAt_const _ _)]
      simpa [shiftedAt] using hk
  rw [e1, e2, e3, e4]
  constructor
  · rintro ⟨a, b, c, d⟩; exact ⟨a, c, b, d⟩
  · rintro ⟨a, c, b, d⟩; exact ⟨a, b, c, d⟩

/-- The multipliers of the iterate, those of the inactive constraints replaced by their new estimates. -/
noncomputable def mixed (P : Lag.Spec.Problem nx nu N) (op : ℕ → CSet) (mu : ℝ) (vPrev vs out : ℕ → List ℝ) (outA : ℕ → List Bool)
    (x : ∀ i, Fin (nx i) → ℝ) (u : ∀ i, Fin (nu i) → ℝ) (i : ℕ) : List ℝ :=
  (List.range (ncOf P i)).map fun k =>
    if ((op i).computeActiveSet (shiftedAt P mu vPrev x u i) (outA i)).getD k false then (vs i).getD k 0
    else 1 / mu * ((op i).normalConeProjection (shiftedAt P mu vPrev x u i) (out i)).getD k 0

theorem range_getD (n : ℕ) (f : ℕ → ℝ) (k : ℕ) (hk : k < n) : ((List.range n).map f).getD k 0 = f k := by
  simp [hk]

theorem project_lx {n m : ℕ} {S : CSet} {ks : List Kind} (hS : HasKinds S ks) (mi : ℝ) (sh Lv v w : CSets.Vec)
    (cs : List (CstrData n m)) (hk : ks.length = dim cs) (hsh : sh.length = dim cs)
    (hw : ∀ k, k < dim cs → w.getD k 0 = v.getD k 0 + if flagAt ks sh k then 0 else Lv.getD k 0 * mi) :
    cstrX v cs 0 + (project S mi sh Lv cs).lx = cstrX w cs 0 ∧ cstrU v cs 0 + (project S mi sh Lv cs).lu = cstrU w cs 0 := by
  constructor
  · funext b
    have e : (project S mi sh Lv cs).lx b = (∑ k : Fin (dim cs), jx cs k b * (Lv.getD k 0 * mi)) -
        ∑ k : Fin (dim cs), (project S mi sh Lv cs).C k b * (Lv.getD k 0 * mi) := rfl
    rw [Pi.add_apply, cstrX_eq, cstrX_eq, e, Finset.sum_range, Finset.sum_range, ← Finset.sum_sub_distrib,
      ← Finset.sum_add_distrib]
    refine Finset.sum_congr rfl fun k _ => ?_
    rw [project_C hS _ sh Lv cs hk hsh, Nat.zero_add, hw k k.2]
    cases flagAt ks sh k <;> simp
    ring
  · funext b
    have e : (project S mi sh Lv cs).lu b = (∑ k : Fin (dim cs), ju cs k b * (Lv.getD k 0 * mi)) -
        ∑ k : Fin (dim cs), (project S mi sh Lv cs).D k b * (Lv.getD k 0 * mi) := rfl
    rw [Pi.add_apply, cstrU_eq, cstrU_eq, e, Finset.sum_range, Finset.sum_range, ← Finset.sum_sub_distrib,
      ← Finset.sum_add_distrib]
    refine Finset.sum_congr rfl fun k _ => ?_
    rw [project_D hS _ sh Lv cs hk hsh, Nat.zero_add, hw k k.2]
    cases flagAt ks sh k <;> simp
    ring

/-- **C54** The residuals of the subproblem at the zero step are those of the nonlinear problem: the errors of the dynamics and of
the initial condition, the differences between the new estimates of the multipliers and the multipliers (times `mu`), and the
gradient of the Lagrangian, in which the multipliers of the inactive constraints are replaced by their new estimates. -/
theorem C54_residuals_at_zero_step (hP : P.Right x u) (hmu : mu ≠ 0) (dv : ℕ → List ℝ)
    (h : Shapes P op ks vPrev vs out dv outA) :
    let I := inp P hess op mu preg exact false l vPrev vs out x u
    (subproblem I).g0 = P.h (x 0) ∧ (∀ i, i < N → (knot I i).f = P.f i (x i) (u i) - x (i + 1)) ∧
    (∀ i, i < N → ∀ k, (knot I i).d k =
      ((op i).normalConeProjection (shiftedAt P mu vPrev x u i) (out i)).getD k 0 - mu * (vs i).getD k 0) ∧
    (∀ k, (termKnot I).d k =
      ((op N).normalConeProjection (shiftedAt P mu vPrev x u N) (out N)).getD k 0 - mu * (vs N).getD k 0) ∧
    ∀ (ex : ∀ i, Fin (nx i) → ℝ) (eu : ∀ i, Fin (nu i) → ℝ), HasDerivAt
      (fun t : ℝ => lagrangian P l.init l.dyn (mixed P op mu vPrev vs out outA x u) (fun i => x i + t • ex i) (fun i => u i + t • eu i))
      ((∑ i ∈ Finset.range N, ((knot I i).q ⬝ᵥ ex i + (knot I i).r ⬝ᵥ eu i)) + (termKnot I).q ⬝ᵥ ex N) 0 := by
  intro I
  let z : Spec.Step nx nu P.nc0 := ⟨fun _ => 0, fun _ => 0, 0, fun _ => 0, dv⟩
  have h' : Shapes P op ks vPrev vs out z.dv outA := h
  have hLv := fun i hi k => Lv_getD (s := z)
    hess mu preg exact false l x u h' i hi k
  refine ⟨rfl, fun i _ => rfl, fun i hi k => hLv i hi.le k, fun k => hLv N le_rfl k, fun ex eu => ?_⟩
  have lm : ∀ i, (mixed P op mu vPrev vs out outA x u i).length = ncOf P i := fun i => by simp [mixed]
  have hd := C27_lagrangian_gradient P x u hP l (mixed P op mu vPrev vs out outA x u)
    ⟨fun i hi => by rw [lm i, ncOf, if_pos hi], by rw [lm N, ncOf, if_neg (lt_irrefl N)]⟩ ex eu
  refine HasDerivAt.congr_deriv hd ?_
  obtain ⟨g1, g2, g3⟩ := compute_eq (pdata P) (some l) (mixed P op mu vPrev vs out outA x u)
  obtain ⟨f1, f2, f3⟩ := compute_eq (pdata P) (some l) vs
  have hw : ∀ i, i ≤ N → ∀ k, k < ncOf P i → (mixed P op mu vPrev vs out outA x u i).getD k 0 = (vs i).getD k 0 +
      if flagAt (ks i) (shiftedAt P mu vPrev x u i) k then 0 else (I.Lvs i).getD k 0 * (1 / mu) := by
    intro i hi k hk
    have hf := flag_eq (s := z) mu x u h' i hi k
    rw [mixed, range_getD _ _ k hk, ← hf, hLv i hi k]
    cases flagAt (ks i) (shiftedAt P mu vPrev x u i) k
    · simp only [Bool.false_eq_true, if_false]
      field_simp
      ring
    · simp
  have hst : ∀ i, i < N → (compute (pdata P) (some l) (mixed P op mu vPrev vs out outA x u)).Lxs i = (knot I i).q ∧
      (compute (pdata P) (some l) (mixed P op mu vPrev vs out outA x u)).Lus i = (knot I i).r := by
    intro i hi
    have hd : dim ((P.c i).map cdata) = ncOf P i := by rw [dim_cdata, ncOf, if_pos hi]
    obtain ⟨px, pu⟩ := project_lx (h.lib i hi.le).hasKinds (1 / mu) (shiftedAt P mu vPrev x u i) (I.Lvs i) (vs i)
      (mixed P op mu vPrev vs out outA x u i) ((P.c i).map cdata) (by rw [hd, h.kinds i hi.le])
      (by rw [hd]; exact h'.shifted (s := z) mu x u i hi.le)
      (fun k hk => hw i hi.le k (hd ▸ hk))
    constructor
    · rw [g1 i hi]
      show _ + (_ + _ + cstrX (mixed P op mu vPrev vs out outA x u i) ((P.c i).map cdata) 0) = (compute _ _ _).Lxs i + _
      rw [f1 i hi, ← px]
      have e : ∀ a b c d e : Fin (nx i) → ℝ, a + (b + c + (d + e)) = a + (b + c + d) + e := fun a b c d e => by abel
      exact e _ _ _ _ _
    · rw [g3 i hi]
      show _ + _ + cstrU (mixed P op mu vPrev vs out outA x u i) ((P.c i).map cdata) 0 = (compute _ _ _).Lus i + _
      rw [f3 i hi, ← pu]
      show _ = _ + _ + cstrU (vs i) ((P.c i).map cdata) 0 + (project _ _ _ _ _).lu
      rw [← add_assoc]
      rfl
  have hte : (compute (pdata P) (some l) (mixed P op mu vPrev vs out outA x u)).Lxs N = (termKnot I).q := by
    have hd : dim (P.cN.map cdata) = ncOf P N := by rw [dim_cdata, ncOf, if_neg (lt_irrefl N)]
    obtain ⟨px, -⟩ := project_lx (h.lib N le_rfl).hasKinds (1 / mu) (shiftedAt P mu vPrev x u N) (I.Lvs N) (vs N)
      (mixed P op mu vPrev vs out outA x u N) (P.cN.map cdata) (by rw [hd, h.kinds N le_rfl])
      (by rw [hd]; exact h'.shifted (s := z) mu x u N le_rfl)
      (fun k hk => hw N le_rfl k (hd ▸ hk))
    rw [g2]
    show _ + (_ + cstrX (mixed P op mu vPrev vs out outA x u N) (P.cN.map cdata) 0) = (compute _ _ _).Lxs N + _
    rw [f2, ← px]
    have e : ∀ a b c d : Fin (nx N) → ℝ, a + (b + (c + d)) = a + (b + c) + d := fun a b c d => by abel
    exact e _ _ _ _
  unfold pair
  rw [Finset.sum_range_succ, hte, Finset.sum_add_distrib]
  have s1 : ∑ i ∈ Finset.range N, (compute (pdata P) (some l) (mixed P op mu vPrev vs out outA x u)).Lxs i ⬝ᵥ ex i =
      ∑ i ∈ Finset.range N, (knot I i).q ⬝ᵥ ex i :=
    Finset.sum_congr rfl fun i hi => by rw [(hst i (Finset.mem_range.1 hi)).1]
  have s2 : ∑ i ∈ Finset.range N, (compute (pdata P) (some l) (mixed P op mu vPrev vs out outA x u)).Lus i ⬝ᵥ eu i =
      ∑ i ∈ Finset.range N, (knot I i).r ⬝ᵥ eu i :=
    Finset.sum_congr rfl fun i hi => by rw [(hst i (Finset.mem_range.1 hi)).2]
  rw [s1, s2]
  ring

/-! ### The step of the linear solver -/

theorem build_all (φ : ∀ {nx nu nc nx2 : ℕ}, Gar.Knot ℝ 0 nx nu nc nx2 → Prop) (I : Input nx nu N) (k : ℕ)
    (tl : Gar.Chain ℝ 0 (nx k)) (h1 : ∀ i, i < k → φ (knot I i)) (h2 : tl.All φ) : (build I k tl).All φ := by
  induction k with
  | zero => exact h2
  | succ k ih => exact ih _ (fun i hi => h1 i (by omega)) ⟨h1 k (Nat.lt_succ_self k), h2⟩

/-- The Hessians are symmetric. -/
structure Hess.Symm (hess : Hess nx nu N) : Prop where
  Lxx : ∀ i, i < N → (hess.Lxx i).IsSymm
  Luu : ∀ i, i < N → (hess.Luu i).IsSymm
  Hxx : ∀ i, i < N → (hess.Hxx i).IsSymm
  Huu : ∀ i, i < N → (hess.Huu i).IsSymm
  termLxx : hess.termLxx.IsSymm
  initHxx : hess.initHxx.IsSymm

theorem symm_subproblem (hh : hess.Symm) :
    (subproblem (inp P hess op mu preg exact force l vPrev vs out x u)).stages.Symm := by
  have h1 : ∀ {n : ℕ}, (preg • (1 : Matrix (Fin n) (Fin n) ℝ)).IsSymm := fun {n} => Matrix.isSymm_one.smul _
  have h0 : ∀ i, (initHess hess.initHxx i).IsSymm := by
    intro i
    cases i with
    | zero => exact hh.initHxx
    | succ i => exact Matrix.isSymm_zero
  refine build_all _ _ N _ (fun i hi => ⟨?_, ?_⟩) ⟨?_, ?_⟩
  · refine (((hh.Lxx i hi).add h1).add ?_).add (h0 i)
    show (if exact then hess.Hxx i else 0).IsSymm
    cases exact
    · exact Matrix.isSymm_zero
    · exact hh.Hxx i hi
  · refine ((hh.Luu i hi).add h1).add ?_
    show (if exact then hess.Huu i else 0).IsSymm
    cases exact
    · exact Matrix.isSymm_zero
    · exact hh.Huu i hi
  · exact (hh.termLxx.add h1).add (h0 N)
  · exact Matrix.isSymm_zero

/-- **C54** What the linear solver returns is a Newton step: if the backward pass of the Riccati solver on the assembled subproblem
succeeds, the output of the forward pass is the trajectory of a step that satisfies the Newton equations. -/
theorem C54_linear_solver_returns_newton_step {ldl : Gar.LDL ℝ} (hl : ldl.Exact) (hh : hess.Symm) (hP : P.Right x u) (hmu : mu ≠ 0)
    (dv : ℕ → List ℝ) (h : Shapes P op ks vPrev vs out dv outA)
    (sol : Gar.Solver (subproblem (inp P hess op mu preg exact false l vPrev vs out x u)))
    (hb : Gar.backward ldl (subproblem (inp P hess op mu preg exact false l vPrev vs out x u)) mu = .ok sol) :
    ∃ s : Spec.Step nx nu P.nc0, s.dlam0 = (Gar.forward sol 0).1 ∧
      (Gar.forward sol 0).2 = traj (inp P hess op mu preg exact false l vPrev vs out x u) s ∧
      Spec.NewtonStationarity P (curv hess preg exact) x u l.init l.dyn vs s ∧ Spec.NewtonDynamics P x u s ∧
      Spec.NewtonInit P x s ∧
      Spec.SemismoothConstraints P (ncOf P) (fun i z => (op i).normalConeProjection z (out i))
        (fun i k => ((op i).computeActiveSet (shiftedAt P mu vPrev x u i) (outA i)).getD k false) mu vPrev vs x u s := by
  obtain ⟨s, e0, e1, l1, l2⟩ := traj_surj (inp P hess op mu preg exact false l vPrev vs out x u) (Gar.forward sol 0).1
    (Gar.forward sol 0).2
  have hK := Gar.C01_forward_solves_KKT_nonparametric hl _ mu (symm_subproblem hess mu preg exact false l x u hh) sol hb
  rw [← e0, e1] at hK
  have hs : Shapes P op ks vPrev vs out s.dv outA := by
    refine ⟨h.lib, h.kinds, h.prev, h.cur, h.out, fun i hi => ?_, h.outA⟩
    rcases Nat.lt_or_eq_of_le hi with hi | rfl
    · rw [l1 i hi, ncOf, if_pos hi]; exact dim_cdata _
    · rw [l2, ncOf, if_neg (lt_irrefl i)]; exact dim_cdata _
  exact ⟨s, e0, e1, (C54_subproblem_is_semismooth_newton hess mu preg exact l x u hP hmu hs).1 hK⟩

end

/-- The hypotheses of the theorems above are met: a bilinear cost, a product of an equality and an inequality constraint, one of
which is inactive, off the kinks; no terminal constraint. -/
example : ∃ op : ℕ → CSet, ∃ C : ℕ → List ℝ → Prop,
    let ks : ℕ → List Kind := fun i => if i = 0 then [.eq, .orth] else []
    let v : ℕ → List ℝ := fun i => if i = 0 then [3, -10] else []
    bilinear.Right (fun _ _ => 1) (fun _ _ => 2) ∧
    Shapes bilinear op ks v v v v (fun i => if i = 0 then [true, true] else []) ∧
    OffKinks bilinear ks 1 v (fun _ _ => 1) (fun _ _ => 2) ∧
    (∀ i, i ≤ 1 → ProjectsOnto (op i) (C i) (ncOf bilinear i)) ∧ (∀ w, ∃ y, bilinear.hxᵀ *ᵥ y = w) := by
  obtain ⟨S0, h0⟩ : ∃ S, product [equality, negativeOrthant] [1, 1] = some S := ⟨_, rfl⟩
  obtain ⟨S1, h1⟩ : ∃ S, product [] [] = some S := ⟨_, rfl⟩
  have l0 : Library S0 [.eq, .orth] := Library.product [(equality, [.eq]), (negativeOrthant, [.orth])] S0
    (by
      intro c hc
      simp only [List.mem_cons, List.not_mem_nil, or_false] at hc
      rcases hc with rfl | rfl
      · exact .equality 1
      · exact .negativeOrthant 1) h0
  have l1 : Library S1 [] := Library.product [] S1 (by simp) h1
  have p0 := (LibrarySet.product [(equality, CSets.Spec.Zero, 1), (negativeOrthant, CSets.Spec.Nonpos, 1)] S0
    (by
      intro c hc
      simp only [List.mem_cons, List.not_mem_nil, or_false] at hc
      rcases hc with rfl | rfl
      · exact .equality 1
      · exact .negativeOrthant 1) h0).projects
  have p1 := (LibrarySet.product [] S1 (by simp) h1).projects
  refine ⟨fun i => if i = 0 then S0 else S1, fun i => if i = 0 then CSets.Spec.Prod (List.map (·.2)
      [(equality, CSets.Spec.Zero, 1), (negativeOrthant, CSets.Spec.Nonpos, 1)]) else CSets.Spec.Prod (List.map (·.2)
      ([] : List (CSet × (List ℝ → Prop) × ℕ))), bilinear_right.1, ⟨?_, ?_, ?_, ?_, ?_, ?_, ?_⟩, ?_, ?_,
    fun w => ⟨w, by rw [show bilinear.hxᵀ = (1 : Matrix (Fin 1) (Fin 1) ℝ) from Matrix.transpose_one]; exact one_mulVec w⟩⟩
  · intro i hi; interval_cases i <;> simpa
  · intro i hi; interval_cases i <;> simp [ncOf, bilinear]
  · intro i hi; interval_cases i <;> simp [ncOf, bilinear]
  · intro i hi; interval_cases i <;> simp [ncOf, bilinear]
  · intro i hi; interval_cases i <;> simp [ncOf, bilinear]
  · intro i hi; interval_cases i <;> simp [ncOf, bilinear]
  · intro i hi; interval_cases i <;> simp [ncOf, bilinear]
  · intro i hi k hk
    interval_cases i
    · have hk : k < 2 := hk
      interval_cases k
      · simp [Kind.Regular, Kind.kink]
      · simp [Kind.Regular, Kind.kink, shiftedAt, bilinear, stack, Spec.cstr]
        norm_num
    · exact absurd hk (by simp)
  · intro i hi
    interval_cases i
    · simpa [ncOf, bilinear] using p0
    · simpa [ncOf, bilinear] using p1

end Aligator.LQ
