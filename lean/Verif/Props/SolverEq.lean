import Verif.Spec.SolverEq
import Verif.Props.SolverLQ
import Verif.Lemmas.SolverEq

/-!
# ProxDDP on linear-quadratic problems with equality path constraints (C77)
-/

namespace Aligator.Link

open Matrix CSets Lag LQ

variable {nx nu : ℕ → ℕ} {N : ℕ}

/-! ### The subproblem -/

/-- All path constraints are equalities: the product sets consist of zero sets, the buffers have their dimensions. -/
structure EqSets (P : Prob nx nu N) (S : Setup) : Prop where
  lib : ∀ i, i ≤ N → Library (S.op i) (List.replicate (P.nc i) Kind.eq)
  out : ∀ i, i ≤ N → (S.out i).length = P.nc i

theorem kkt_congr (pd : ProbData nx nu N) (H : Hess nx nu N) (V : Values nx pd.nc0) (op : ℕ → CSet) (mu preg : ℝ)
    (exact force : Bool) (l : Lams nx pd.nc0) (vp vs out : ℕ → List ℝ) (st : LQ.Spec.Step nx nu pd.nc0)
    (c' : ∀ i, List (CstrData (nx i) (nu i))) (t' : List (CstrData (nx N) 0)) (cc : ℕ → List ℝ) (h : pd.cstr = c')
    (h' : pd.termCstr = t') (h'' : V.c = cc) :
    Gar.KKT (subproblem (inputAt pd H V op mu preg exact force l vp vs out)) mu 0 st.dlam0
      (traj (inputAt pd H V op mu preg exact force l vp vs out) st) ↔
    Gar.KKT (subproblem (inputAt { pd with cstr := c', termCstr := t' } H { V with c := cc } op mu preg exact force l vp vs out))
      mu 0 st.dlam0 (traj (inputAt { pd with cstr := c', termCstr := t' } H { V with c := cc } op mu preg exact force l vp vs out) st) := by
  subst h h' h''
  rfl

theorem solves_iff (P : Prob nx nu N) (S : Setup) (exact : Bool) (H : Hess nx nu N) (s : SSt P) (d : Dir nx nu P.nc0) :
    Solves P S exact H s d ↔
      Gar.KKT (subproblem (inp (P.spec s.x.x s.x.u) H S.op s.mu s.preg exact S.force s.x.lam s.prevV s.x.vs S.out s.x.x s.x.u))
        s.mu 0 d.dlam.init (traj (inp (P.spec s.x.x s.x.u) H S.op s.mu s.preg exact S.force s.x.lam s.prevV s.x.vs S.out s.x.x s.x.u)
          ⟨d.dx, d.du, d.dlam.init, d.dlam.dyn, d.dv⟩) ∧ Shape P d.dv := by
  refine and_congr_left fun _ => ?_
  refine kkt_congr (P.data s.x.x s.x.u) H (P.values s.x.x s.x.u) S.op s.mu s.preg exact S.force s.x.lam s.prevV s.x.vs S.out
    ⟨d.dx, d.du, d.dlam.init, d.dlam.dyn, d.dv⟩ (pdata (P.spec s.x.x s.x.u)).cstr (pdata (P.spec s.x.x s.x.u)).termCstr
    (valuesAt (P.spec s.x.x s.x.u) s.x.x s.x.u).c ?_ ?_ ?_
  · funext i
    simp only [pdata, Prob.spec, Prob.data, List.map_map]
    rfl
  · simp only [pdata, Prob.spec, Prob.data, List.map_map]
    rfl
  · funext i
    exact values_c P s.x.x s.x.u i

theorem eq_shapes {P : Prob nx nu N} {S : Setup} (hS : EqSets P S) {v vs dv : ℕ → List ℝ} (hv : Shape P v) (hvs : Shape P vs)
    (hd : Shape P dv) (x : ∀ i, Fin (nx i) → ℝ) (u : ∀ i, Fin (nu i) → ℝ) :
    Shapes (P.spec x u) S.op (fun i => List.replicate (P.nc i) Kind.eq) v vs S.out dv (fun i => List.replicate (P.nc i) false) where
  lib := hS.lib
  kinds i _ := by simp [ncOf_spec]
  prev i hi := by rw [hv i hi, ncOf_spec]
  cur i hi := by rw [hvs i hi, ncOf_spec]
  out i hi := by rw [hS.out i hi, ncOf_spec]
  dv i hi := by rw [hd i hi, ncOf_spec]
  outA i _ := by simp [ncOf_spec]

theorem zipWith_replicate_eq (z : List ℝ) (n : ℕ) (h : z.length = n) :
    List.zipWith (fun (k : Kind) a => k.cone a) (List.replicate n Kind.eq) z = z := by
  subst h
  induction z with
  | nil => rfl
  | cons a z ih =>
    rw [List.length_cons, List.replicate_succ, List.zipWith_cons_cons, ih]
    rfl

theorem eq_cone {P : Prob nx nu N} {S : Setup} (hS : EqSets P S) {i : ℕ} (hi : i ≤ N) {z : List ℝ} (h : z.length = P.nc i) :
    (S.op i).normalConeProjection z (S.out i) = z := by
  rw [(hS.lib i hi).hasKinds.cone z (S.out i) (by simpa using h) (by simpa using hS.out i hi), zipWith_replicate_eq z _ h]

theorem eq_flag (sh : List ℝ) (n k : ℕ) (h : sh.length = n) (hk : k < n) : flagAt (List.replicate n Kind.eq) sh k = true := by
  unfold flagAt
  rw [List.getD_eq_getElem _ _ (by simp [h, hk]), List.getElem_zipWith, List.getElem_replicate]
  rfl

/-! ### Affine constraints -/

theorem spec_affine {n m : ℕ} {c : CFun n m} (h : Spec.AffineFun c) (x y : Fin n → ℝ) (u w : Fin m → ℝ) :
    c.spec y w = c.spec x u := by
  have h1 := h.Jx x u (y - x) (w - u)
  have h2 := h.Ju x u (y - x) (w - u)
  rw [add_sub_cancel, add_sub_cancel] at h1 h2
  unfold CFun.spec
  rw [h1, h2]

theorem spec_c {P : Prob nx nu N} {H : Hess nx nu N} (hL : Spec.IsLQE P H) (x y : ∀ i, Fin (nx i) → ℝ)
    (u w : ∀ i, Fin (nu i) → ℝ) : (∀ i, i < N → (P.spec y w).c i = (P.spec x u).c i) ∧ (P.spec y w).cN = (P.spec x u).cN :=
  ⟨fun i hi => List.map_congr_left fun c hc => spec_affine (hL.c i hi c hc) _ _ _ _,
    List.map_congr_left fun c hc => spec_affine (hL.cN c hc) _ _ _ _⟩

theorem stacked_add {n m : ℕ} (cs : List (CFun n m)) (h : ∀ c ∈ cs, Spec.AffineFun c) (x d : Fin n → ℝ) (u e : Fin m → ℝ) (k : ℕ) :
    (cs.flatMap fun c => List.ofFn (c.g (x + d) (u + e))).getD k 0 = (cs.flatMap fun c => List.ofFn (c.g x u)).getD k 0 +
      (stackDir (cs.map fun c => c.spec x u) d e).getD k 0 := by
  induction cs generalizing k with
  | nil => simp [stackDir]
  | cons c cs ih =>
    have h1 : stackDir ((c :: cs).map fun c => c.spec x u) d e =
        List.ofFn (c.Jx x u *ᵥ d + c.Ju x u *ᵥ e) ++ stackDir (cs.map fun c => c.spec x u) d e := rfl
    rw [h1, List.flatMap_cons, List.flatMap_cons]
    by_cases hk : k < c.dim
    · rw [List.getD_append _ _ _ _ (by simpa using hk), List.getD_append _ _ _ _ (by simpa using hk),
        List.getD_append _ _ _ _ (by simpa using hk), (h c (by simp)).g]
      simp [hk]
    · rw [List.getD_append_right _ _ _ _ (by simpa using hk), List.getD_append_right _ _ _ _ (by simpa using hk),
        List.getD_append_right _ _ _ _ (by simpa using hk)]
      simp only [List.length_ofFn]
      exact ih (fun c hc => h c (by simp [hc])) _

/-- Stacked directional derivative of the path constraints of a stage. -/
def cdir (P : Prob nx nu N) (x : ∀ i, Fin (nx i) → ℝ) (u : ∀ i, Fin (nu i) → ℝ) (ex : ∀ i, Fin (nx i) → ℝ)
    (eu : ∀ i, Fin (nu i) → ℝ) (i : ℕ) : List ℝ :=
  if i < N then stackDir ((P.spec x u).c i) (ex i) (eu i) else stackDir (P.spec x u).cN (ex N) 0

theorem cstr_add {P : Prob nx nu N} {H : Hess nx nu N} (hL : Spec.IsLQE P H) (x ex : ∀ i, Fin (nx i) → ℝ)
    (u eu : ∀ i, Fin (nu i) → ℝ) (i k : ℕ) :
    (Spec.cstr P (fun i => x i + ex i) (fun i => u i + eu i) i).getD k 0 =
      (Spec.cstr P x u i).getD k 0 + (cdir P x u ex eu i).getD k 0 := by
  unfold Spec.cstr cdir
  by_cases hi : i < N
  · simp only [if_pos hi]
    exact stacked_add _ (hL.c i hi) _ _ _ _ k
  · simp only [if_neg hi]
    have := stacked_add _ hL.cN (x N) (ex N) 0 0 k
    rw [add_zero] at this
    exact this

theorem cdir_congr {P : Prob nx nu N} {H : Hess nx nu N} (hL : Spec.IsLQE P H) (x y ex : ∀ i, Fin (nx i) → ℝ)
    (u w eu : ∀ i, Fin (nu i) → ℝ) : cdir P y w ex eu = cdir P x u ex eu := by
  funext i
  unfold cdir
  by_cases hi : i < N
  · rw [if_pos hi, if_pos hi, (spec_c hL x y u w).1 i hi]
  · rw [if_neg hi, if_neg hi, (spec_c hL x y u w).2]

/-! ### The full step -/

/-- What a full step along a solution of the linear system does. -/
structure StepFacts (P : Prob nx nu N) (force : Bool) (s : SSt P) (d : Dir nx nu P.nc0) (it : Iter nx nu P.nc0) : Prop where
  x : it.x = fun i => s.x.x i + d.dx i
  u : it.u = fun i => s.x.u i + d.du i
  shape : Shape P it.vs
  feasible : Spec.Feasible P it.x it.u
  Lx : ∀ i, i ≤ N → (gradAt P force it).Lxs i = -(s.preg • d.dx i)
  Lu : ∀ i, i < N → (gradAt P force it).Lus i = -(s.preg • d.du i)
  c : ∀ i, i ≤ N → ∀ k, (Spec.cstr P it.x it.u i).getD k 0 = s.mu * ((it.vs i).getD k 0 - (s.prevV i).getD k 0)

theorem cstr_length' (P : Prob nx nu N) (x : ∀ i, Fin (nx i) → ℝ) (u : ∀ i, Fin (nu i) → ℝ) (i : ℕ) :
    (Spec.cstr P x u i).length = P.nc i := values_c_length P x u i

theorem getD_ladd {a b : List ℝ} (h : a.length = b.length) (k : ℕ) :
    (LQ.Spec.ladd a b).getD k 0 = a.getD k 0 + b.getD k 0 := getD_zipWith_add _ _ h k

theorem eq_rows {P : Prob nx nu N} {H : Hess nx nu N} (hL : Spec.IsLQE P H) {S : Setup} (hS : EqSets P S) {exact : Bool} {s : SSt P}
    {d : Dir nx nu P.nc0} (hmu : 0 < s.mu) (hv : Shape P s.prevV) (hvs : Shape P s.x.vs) (hs : Solves P S exact H s d) :
    (P.hx (s.x.x 0) *ᵥ d.dx 0 + P.h (s.x.x 0) = 0) ∧
    (∀ i, i < N → P.fx i (s.x.x i) (s.x.u i) *ᵥ d.dx i + P.fu i (s.x.x i) (s.x.u i) *ᵥ d.du i +
      (P.f i (s.x.x i) (s.x.u i) - s.x.x (i + 1)) = d.dx (i + 1)) ∧
    (∀ i, i ≤ N → ∀ k, (Spec.cstr P s.x.x s.x.u i).getD k 0 + (cdir P s.x.x s.x.u d.dx d.du i).getD k 0 =
      s.mu * ((LQ.Spec.ladd (s.x.vs i) (d.dv i)).getD k 0 - (s.prevV i).getD k 0)) ∧
    (∀ i, i < N → (S.force = true → i ≠ 0) →
      (compute (pdata (P.spec s.x.x s.x.u)) (some (lamNew s.x.lam d)) (fun i => LQ.Spec.ladd (s.x.vs i) (d.dv i))).Lxs i +
      (H.Lxx i *ᵥ d.dx i + s.preg • d.dx i + H.Lxu i *ᵥ d.du i) = 0) ∧
    (∀ i, i < N →
      (compute (pdata (P.spec s.x.x s.x.u)) (some (lamNew s.x.lam d)) (fun i => LQ.Spec.ladd (s.x.vs i) (d.dv i))).Lus i +
      ((H.Lxu i)ᵀ *ᵥ d.dx i + (H.Luu i *ᵥ d.du i + s.preg • d.du i)) = 0) ∧
    ((S.force = true → N ≠ 0) →
      (compute (pdata (P.spec s.x.x s.x.u)) (some (lamNew s.x.lam d)) (fun i => LQ.Spec.ladd (s.x.vs i) (d.dv i))).Lxs N +
      (H.termLxx *ᵥ d.dx N + s.preg • d.dx N) = 0) := by
  obtain ⟨hk, hdv⟩ := (solves_iff P S exact H s d).1 hs
  have hsh := eq_shapes hS hv hvs hdv s.x.x s.x.u
  obtain ⟨f1, f2, f3, f4⟩ := hL.free.flat
  have ih : ∀ i, initHess H.initHxx i = 0 := by intro i; rw [f4]; cases i <;> rfl
  let st : LQ.Spec.Step nx nu (P.spec s.x.x s.x.u).nc0 := ⟨d.dx, d.du, d.dlam.init, d.dlam.dyn, d.dv⟩
  have hkk := (kkt_rows (P := P.spec s.x.x s.x.u) (op := S.op) (ks := fun i => List.replicate (P.nc i) Kind.eq) (vPrev := s.prevV)
    (vs := s.x.vs) (out := S.out) (outA := fun i => List.replicate (P.nc i) false) (s := st) H s.mu s.preg exact S.force s.x.lam s.x.x s.x.u hmu.ne' hsh).1 hk
  obtain ⟨h0, h1, h2, h3, h4⟩ := hkk
  have hdrop : ∀ i, (S.force = true → i ≠ 0) →
      dropped (P.spec s.x.x s.x.u) H S.op s.mu s.preg exact S.force s.x.lam s.prevV s.x.vs S.out s.x.x s.x.u i = 0 := by
    intro i hi
    unfold dropped
    rw [sub_eq_zero]
    show (if S.force then (gradNow (P.spec s.x.x s.x.u) s.x.lam s.x.vs).setX 0 0 else gradNow (P.spec s.x.x s.x.u) s.x.lam s.x.vs).Lxs i = _
    split
    · rename_i hf
      exact Function.update_of_ne (hi hf) _ _
    · rfl
  refine ⟨h0, h1, fun i hi k => ?_, fun i hi hf => ?_, fun i hi => ?_, fun hf => ?_⟩
  · by_cases hk' : k < P.nc i
    · have r := h2 i hi k (by rw [ncOf_spec]; exact hk')
      have ls : (shiftedAt (P.spec s.x.x s.x.u) s.mu s.prevV s.x.x s.x.u i).length = P.nc i := by
        simp [shiftedAt, cstr_length, ncOf_spec, hv i hi]
      unfold Row at r
      rw [eq_flag _ _ k ls hk', eq_cone hS hi ls, if_pos rfl] at r
      have e1 : (shiftedAt (P.spec s.x.x s.x.u) s.mu s.prevV s.x.x s.x.u i).getD k 0 =
          (Spec.cstr P s.x.x s.x.u i).getD k 0 + s.mu * (s.prevV i).getD k 0 := by
        unfold shiftedAt
        rw [getD_zipWith_add _ _ (by rw [List.length_map, hv i hi, ← values_c, values_c_length]), getD_map_mul, ← values_c]
        rfl
      have e2 : dirAt (P.spec s.x.x s.x.u) st i k = (cdir P s.x.x s.x.u d.dx d.du i).getD k 0 := by
        unfold dirAt cdir
        split <;> rfl
      rw [e1, e2] at r
      rw [getD_ladd (by rw [hvs i hi, hdv i hi])]
      have r' : (cdir P s.x.x s.x.u d.dx d.du i).getD k 0 + ((Spec.cstr P s.x.x s.x.u i).getD k 0 + s.mu * (s.prevV i).getD k 0 -
        s.mu * (s.x.vs i).getD k 0) - s.mu * (d.dv i).getD k 0 = 0 := r
      linarith
    · have hk' := not_lt.1 hk'
      have e0 := cstr_add hL s.x.x d.dx s.x.u d.du i k
      rw [← e0, List.getD_eq_default _ _ (by rw [cstr_length']; exact hk'),
        List.getD_eq_default _ _ (by simp [LQ.Spec.ladd, hvs i hi, hdv i hi, hk']),
        List.getD_eq_default _ _ (by rw [hv i hi]; exact hk')]
      simp
  · have r := (h3 i hi).1
    rw [hdrop i hf, add_zero] at r
    have r' : (compute (pdata (P.spec s.x.x s.x.u)) (some (lamNew s.x.lam d)) (fun i => LQ.Spec.ladd (s.x.vs i) (d.dv i))).Lxs i +
      ((H.Lxx i + s.preg • 1 + (if exact then H.Hxx i else 0) + initHess H.initHxx i) *ᵥ d.dx i +
        (H.Lxu i + (if exact then H.Hxu i else 0)) *ᵥ d.du i) = 0 := r
    rw [ih, f1, f2] at r'
    simpa only [ite_self, add_zero, add_mulVec, smul_mulVec, one_mulVec] using r'
  · have r' : (compute (pdata (P.spec s.x.x s.x.u)) (some (lamNew s.x.lam d)) (fun i => LQ.Spec.ladd (s.x.vs i) (d.dv i))).Lus i +
      ((H.Lxu i + (if exact then H.Hxu i else 0))ᵀ *ᵥ d.dx i +
        (H.Luu i + s.preg • 1 + (if exact then H.Huu i else 0)) *ᵥ d.du i) = 0 := (h3 i hi).2
    rw [f2, f3] at r'
    simpa only [ite_self, add_zero, add_mulVec, smul_mulVec, one_mulVec] using r'
  · rw [hdrop N hf, add_zero] at h4
    have r' : (compute (pdata (P.spec s.x.x s.x.u)) (some (lamNew s.x.lam d)) (fun i => LQ.Spec.ladd (s.x.vs i) (d.dv i))).Lxs N +
      ((H.termLxx + s.preg • 1 + initHess H.initHxx N) *ᵥ d.dx N) = 0 := h4
    rw [ih] at r'
    simpa only [add_zero, add_mulVec, smul_mulVec, one_mulVec] using r'

/-- **C77** On every linear-quadratic problem with equality path constraints (any horizon, dimensions, iterate, multipliers,
penalty parameter, regularisation, Hessian option, convex or not), a full step along the solution of the linear system leads to
a trajectory that satisfies the initial condition and the dynamics exactly, whose Lagrangian gradient is the step times minus the
regularisation, and whose constraint values are the penalty parameter times the change of the multipliers. -/
theorem C77_full_step {P : Prob nx nu N} {H : Hess nx nu N} (hL : Spec.IsLQE P H) {S : Setup} (hS : EqSets P S) {exact : Bool}
    {s : SSt P} {d : Dir nx nu P.nc0} (hmu : 0 < s.mu) (hv : Shape P s.prevV) (hvs : Shape P s.x.vs)
    (hs : Solves P S exact H s d) (hG : GoodStart P S.force (s.x.x 0)) :
    StepFacts P S.force s d (linearStep s.x (d.forced S.force) 1) := by
  obtain ⟨q0, q1, qc, r1, r2, r3⟩ := eq_rows hL hS hmu hv hvs hs
  have hdv := hs.2
  have h0 : S.force = true → d.dx 0 = 0 := by
    intro hf
    obtain ⟨h1, h2⟩ := hG hf
    refine h2 _ ?_
    rwa [h1, add_zero] at q0
  obtain ⟨e1, e2, e3, e4⟩ := forced_dx h0
  set it := linearStep s.x (d.forced S.force) 1 with hit
  have hx : it.x = fun i => s.x.x i + d.dx i := by
    funext i
    show s.x.x i + (1 : ℝ) • (d.forced S.force).dx i = _
    rw [e1, one_smul]
  have hu : it.u = fun i => s.x.u i + d.du i := by
    funext i
    show s.x.u i + (1 : ℝ) • (d.forced S.force).du i = _
    rw [e2, one_smul]
  have hl : it.lam.dyn = (lamNew s.x.lam d).dyn := by
    funext i
    show s.x.lam.dyn i + (1 : ℝ) • (d.forced S.force).dlam.dyn i = s.x.lam.dyn i + d.dlam.dyn i
    rw [e3, one_smul]
  have hl0 : S.force = false → it.lam.init = (lamNew s.x.lam d).init := by
    intro hf
    show s.x.lam.init + (1 : ℝ) • (d.forced S.force).dlam.init = s.x.lam.init + d.dlam.init
    rw [e4 hf, one_smul]
  have hvv : it.vs = fun i => LQ.Spec.ladd (s.x.vs i) (d.dv i) := by
    funext i
    have e5 : (d.forced S.force).dv = d.dv := by unfold Dir.forced; split <;> rfl
    show List.zipWith (· + ·) (s.x.vs i) (((d.forced S.force).dv i).map ((1 : ℝ) * ·)) = _
    rw [e5]
    simp [LQ.Spec.ladd]
  set Q := P.spec s.x.x s.x.u with hQ
  have hco : ∀ i, (S.force = true → i ≠ 0) →
      base (pdata (P.spec it.x it.u)) (some it.lam) i = base (pdata Q) (some (lamNew s.x.lam d)) i := by
    intro i hi
    cases i with
    | zero =>
      have hf : S.force = false := by
        cases h : S.force
        · rfl
        · exact absurd rfl (hi h)
      show (P.hx (it.x 0))ᵀ *ᵥ it.lam.init = (P.hx (s.x.x 0))ᵀ *ᵥ (lamNew s.x.lam d).init
      rw [hl0 hf, hx]
      dsimp only
      rw [hL.free.hx]
    | succ i =>
      show -it.lam.dyn i = -(lamNew s.x.lam d).dyn i
      rw [hl]
  obtain ⟨c1, c2, c3⟩ := compute_eq (pdata (P.spec it.x it.u)) (some it.lam) it.vs
  obtain ⟨b1, b2, b3⟩ := compute_eq (pdata Q) (some (lamNew s.x.lam d)) (fun i => LQ.Spec.ladd (s.x.vs i) (d.dv i))
  obtain ⟨sc, scN⟩ := spec_c hL s.x.x it.x s.x.u it.u
  obtain ⟨ga, gb⟩ := gradAt_eq P S.force it
  refine ⟨hx, hu, fun i hi => ?_, ⟨?_, fun i hi => ?_⟩, fun i hi => ?_, fun i hi => ?_, fun i hi k => ?_⟩
  · rw [hvv]
    simp [LQ.Spec.ladd, hvs i hi, hdv i hi]
  · rw [hx]
    dsimp only
    rw [hL.free.h, add_comm]
    exact q0
  · rw [hx, hu]
    dsimp only
    rw [hL.free.f, ← q1 i hi]
    abel
  · by_cases hf : S.force = true ∧ i = 0
    · obtain ⟨hf, rfl⟩ := hf
      rw [h0 hf, smul_zero, neg_zero]
      unfold gradAt
      dsimp only
      rw [if_pos hf]
      simp [Grad.setX]
    · have hi' : S.force = true → i ≠ 0 := fun h h' => hf ⟨h, h'⟩
      rw [ga i hi']
      rcases Nat.lt_or_eq_of_le hi with hi | rfl
      · have r := r1 i hi hi'
        rw [b1 i hi] at r
        rw [c1 i hi, hco i hi', eq_neg_iff_add_eq_zero]
        refine Eq.trans ?_ r
        have k1 : (pdata (P.spec it.x it.u)).Lx i = (pdata Q).Lx i + (H.Lxx i *ᵥ d.dx i + H.Lxu i *ᵥ d.du i) := by
          show P.lx i (it.x i) (it.u i) = _
          rw [hx, hu]
          exact hL.free.lx i _ _ _ _
        have k2 : dynX (pdata (P.spec it.x it.u)) (some it.lam) i = dynX (pdata Q) (some (lamNew s.x.lam d)) i := by
          show (P.fx i (it.x i) (it.u i))ᵀ *ᵥ it.lam.dyn i = (P.fx i (s.x.x i) (s.x.u i))ᵀ *ᵥ (lamNew s.x.lam d).dyn i
          rw [hx, hu, hl]
          exact congrArg (fun M => Mᵀ *ᵥ (lamNew s.x.lam d).dyn i) (hL.free.fx i _ _ _ _)
        have k3 : cstrX (it.vs i) ((pdata (P.spec it.x it.u)).cstr i) 0 =
            cstrX (LQ.Spec.ladd (s.x.vs i) (d.dv i)) ((pdata Q).cstr i) 0 := by
          show cstrX (it.vs i) (((P.spec it.x it.u).c i).map cdata) 0 = cstrX _ ((Q.c i).map cdata) 0
          rw [sc i hi, hvv]
        rw [k1, k2, k3]
        abel
      · have r := r3 hi'
        rw [b2] at r
        rw [c2, hco _ hi', eq_neg_iff_add_eq_zero]
        refine Eq.trans ?_ r
        have k1 : (pdata (P.spec it.x it.u)).termLx = (pdata Q).termLx + H.termLxx *ᵥ d.dx i := by
          show P.lNx (it.x i) = _
          rw [hx]
          exact hL.free.lNx _ _
        have k3 : cstrX (it.vs i) (pdata (P.spec it.x it.u)).termCstr 0 =
            cstrX (LQ.Spec.ladd (s.x.vs i) (d.dv i)) (pdata Q).termCstr 0 := by
          show cstrX (it.vs i) ((P.spec it.x it.u).cN.map cdata) 0 = cstrX _ (Q.cN.map cdata) 0
          rw [scN, hvv]
        rw [k1, k3]
        abel
  · have r := r2 i hi
    rw [b3 i hi] at r
    rw [gb, c3 i hi, eq_neg_iff_add_eq_zero]
    refine Eq.trans ?_ r
    have k1 : (pdata (P.spec it.x it.u)).Lu i = (pdata Q).Lu i + ((H.Lxu i)ᵀ *ᵥ d.dx i + H.Luu i *ᵥ d.du i) := by
      show P.lu i (it.x i) (it.u i) = _
      rw [hx, hu]
      exact hL.free.lu i _ _ _ _
    have k2 : dynU (pdata (P.spec it.x it.u)) (some it.lam) i = dynU (pdata Q) (some (lamNew s.x.lam d)) i := by
      show (P.fu i (it.x i) (it.u i))ᵀ *ᵥ it.lam.dyn i = (P.fu i (s.x.x i) (s.x.u i))ᵀ *ᵥ (lamNew s.x.lam d).dyn i
      rw [hx, hu, hl]
      exact congrArg (fun M => Mᵀ *ᵥ (lamNew s.x.lam d).dyn i) (hL.free.fu i _ _ _ _)
    have k3 : cstrU (it.vs i) ((pdata (P.spec it.x it.u)).cstr i) 0 =
        cstrU (LQ.Spec.ladd (s.x.vs i) (d.dv i)) ((pdata Q).cstr i) 0 := by
      show cstrU (it.vs i) (((P.spec it.x it.u).c i).map cdata) 0 = cstrU _ ((Q.c i).map cdata) 0
      rw [sc i hi, hvv]
    rw [k1, k2, k3]
    abel
  · rw [hvv, hx, hu, cstr_add hL]
    exact qc i hi k

/-! ### Distance to the solutions -/

theorem ldot_getD (a b : List ℝ) (n : ℕ) (ha : a.length = n) (hb : b.length = n) :
    Lag.Spec.ldot a b = ∑ k ∈ Finset.range n, a.getD k 0 * b.getD k 0 := by
  induction n generalizing a b with
  | zero =>
    rw [List.length_eq_zero_iff] at ha
    simp [ha, Lag.Spec.ldot]
  | succ n ih =>
    cases a with
    | nil => simp at ha
    | cons x a =>
      cases b with
      | nil => simp at hb
      | cons y b =>
        have := ih a b (by simpa using ha) (by simpa using hb)
        unfold Lag.Spec.ldot at this ⊢
        rw [List.zipWith_cons_cons, List.sum_cons, this, Finset.sum_range_succ']
        simp [add_comm]

theorem cdir_length (P : Prob nx nu N) (x : ∀ i, Fin (nx i) → ℝ) (u : ∀ i, Fin (nu i) → ℝ) (ex : ∀ i, Fin (nx i) → ℝ)
    (eu : ∀ i, Fin (nu i) → ℝ) (i : ℕ) : (cdir P x u ex eu i).length = P.nc i := by
  unfold cdir Prob.nc stackDir Prob.spec
  split <;> simp [List.length_flatMap, Function.comp_def, CFun.spec]

/-- The gradient of the Lagrangian along a direction. -/
theorem pair_spec (P : Prob nx nu N) (x : ∀ i, Fin (nx i) → ℝ) (u : ∀ i, Fin (nu i) → ℝ) (l : Lams nx P.nc0) (v : ℕ → List ℝ)
    (hv : Shape P v) (ex : ∀ i, Fin (nx i) → ℝ) (eu : ∀ i, Fin (nu i) → ℝ) :
    pair (compute (pdata (P.spec x u)) (some l) v) N ex eu = costSlope P x u ex eu + l.init ⬝ᵥ P.hx (x 0) *ᵥ ex 0 +
      (∑ i ∈ Finset.range N, l.dyn i ⬝ᵥ (P.fx i (x i) (u i) *ᵥ ex i + P.fu i (x i) (u i) *ᵥ eu i - ex (i + 1))) +
      ∑ i ∈ Finset.range (N + 1), ∑ k ∈ Finset.range (P.nc i), (v i).getD k 0 * (cdir P x u ex eu i).getD k 0 := by
  have h := pair_eq (P.spec x u) l v (hv.vShape x u) ex eu
  have e1 : ∑ i ∈ Finset.range (N + 1), ∑ k ∈ Finset.range (P.nc i), (v i).getD k 0 * (cdir P x u ex eu i).getD k 0 =
      (∑ i ∈ Finset.range N, Lag.Spec.ldot (v i) (stackDir ((P.spec x u).c i) (ex i) (eu i))) +
        Lag.Spec.ldot (v N) (stackDir (P.spec x u).cN (ex N) 0) := by
    rw [Finset.sum_range_succ]
    congr 1
    · refine Finset.sum_congr rfl fun i hi => ?_
      have hi := Finset.mem_range.1 hi
      rw [← ldot_getD _ _ _ (hv i hi.le) (cdir_length P x u ex eu i), cdir, if_pos hi]
    · rw [← ldot_getD _ _ _ (hv N le_rfl) (cdir_length P x u ex eu N), cdir, if_neg (lt_irrefl N)]
  have e2 : ∑ i ∈ Finset.range N, (P.lx i (x i) (u i) ⬝ᵥ ex i + P.lu i (x i) (u i) ⬝ᵥ eu i) =
      ∑ i ∈ Finset.range N, (ex i ⬝ᵥ P.lx i (x i) (u i) + eu i ⬝ᵥ P.lu i (x i) (u i)) :=
    Finset.sum_congr rfl fun i _ => by rw [dotProduct_comm, dotProduct_comm (P.lu i _ _)]
  have h' : pair (compute (pdata (P.spec x u)) (some l) v) N ex eu =
      (∑ i ∈ Finset.range N, (P.lx i (x i) (u i) ⬝ᵥ ex i + P.lu i (x i) (u i) ⬝ᵥ eu i)) + P.lNx (x N) ⬝ᵥ ex N +
      l.init ⬝ᵥ P.hx (x 0) *ᵥ ex 0 +
      (∑ i ∈ Finset.range N, (l.dyn i ⬝ᵥ (P.fx i (x i) (u i) *ᵥ ex i + P.fu i (x i) (u i) *ᵥ eu i - ex (i + 1)) +
        Lag.Spec.ldot (v i) (stackDir ((P.spec x u).c i) (ex i) (eu i)))) +
      Lag.Spec.ldot (v N) (stackDir (P.spec x u).cN (ex N) 0) := h
  have e3 : ∑ i ∈ Finset.range N, (l.dyn i ⬝ᵥ (P.fx i (x i) (u i) *ᵥ ex i + P.fu i (x i) (u i) *ᵥ eu i - ex (i + 1)) +
        Lag.Spec.ldot (v i) (stackDir ((P.spec x u).c i) (ex i) (eu i))) =
      (∑ i ∈ Finset.range N, l.dyn i ⬝ᵥ (P.fx i (x i) (u i) *ᵥ ex i + P.fu i (x i) (u i) *ᵥ eu i - ex (i + 1))) +
      ∑ i ∈ Finset.range N, Lag.Spec.ldot (v i) (stackDir ((P.spec x u).c i) (ex i) (eu i)) := Finset.sum_add_distrib
  rw [e1, h', e2, e3, dotProduct_comm (P.lNx (x N))]
  unfold costSlope
  ring

theorem costSlope_add {P : Prob nx nu N} {H : Hess nx nu N} (hL : Spec.IsLQE P H) (x ex : ∀ i, Fin (nx i) → ℝ)
    (u eu : ∀ i, Fin (nu i) → ℝ) :
    costSlope P (fun i => x i + ex i) (fun i => u i + eu i) ex eu = costSlope P x u ex eu + quad H ex eu := by
  unfold costSlope quad
  have h1 := hL.free.lx
  have h2 := hL.free.lu
  have h3 := hL.free.lNx
  dsimp only at h1 h2 h3
  simp only [h1, h2, h3, dotProduct_add, dot_transpose, Finset.sum_add_distrib, ← Finset.mul_sum]
  have : ∀ i, eu i ⬝ᵥ (H.Lxu i)ᵀ *ᵥ ex i = ex i ⬝ᵥ H.Lxu i *ᵥ eu i := fun i => dot_transpose _ _ _
  ring

theorem hasDerivAt_affine {E : Type*} [NormedAddCommGroup E] [NormedSpace ℝ E] {F : ℝ → E} {a b : E} (h : ∀ t, F t = a + t • b) :
    HasDerivAt F b 0 := by
  rw [show F = fun t => a + t • b from funext h]
  simpa using ((hasDerivAt_id (0 : ℝ)).smul_const b).const_add a

theorem hasDerivAt_quadratic {F : ℝ → ℝ} {a b c : ℝ} (h : ∀ t, F t = a + t * b + t ^ 2 * c) : HasDerivAt F b 0 := by
  rw [show F = fun t => a + t * b + t ^ 2 * c from funext h]
  have h1 := ((hasDerivAt_id (0 : ℝ)).mul_const b).const_add a
  have h2 := ((hasDerivAt_id (0 : ℝ)).pow 2).mul_const c
  exact (h1.add h2).congr_deriv (by simp)

theorem IsLQE_right {P : Prob nx nu N} {H : Hess nx nu N} (hL : Spec.IsLQE P H) (x : ∀ i, Fin (nx i) → ℝ)
    (u : ∀ i, Fin (nu i) → ℝ) : (P.spec x u).Right x u where
  h dx := hasDerivAt_affine fun t => by
    have := hL.free.h (x 0) (t • dx)
    rw [mulVec_smul] at this
    exact this
  l i _ dx du := hasDerivAt_quadratic (a := P.l i (x i) (u i))
      (c := 1 / 2 * (dx ⬝ᵥ (H.Lxx i *ᵥ dx) + 2 * (dx ⬝ᵥ (H.Lxu i *ᵥ du)) + du ⬝ᵥ (H.Luu i *ᵥ du))) fun t => by
    have := hL.free.l i (x i) (u i) (t • dx) (t • du)
    refine this.trans ?_
    simp only [smul_dotProduct, dotProduct_smul, mulVec_smul, smul_eq_mul]
    show _ = _ + t * (P.lx i (x i) (u i) ⬝ᵥ dx + P.lu i (x i) (u i) ⬝ᵥ du) + _
    rw [dotProduct_comm (P.lx i (x i) (u i)), dotProduct_comm (P.lu i (x i) (u i))]
    ring
  f i _ dx du := hasDerivAt_affine fun t => by
    have := hL.free.f i (x i) (u i) (t • dx) (t • du)
    rw [mulVec_smul, mulVec_smul, ← smul_add] at this
    exact this
  c i hi c hc dx du := by
    obtain ⟨c', h1, rfl⟩ := List.mem_map.1 hc
    refine hasDerivAt_affine (a := c'.g (x i) (u i)) fun t => ?_
    have := (hL.c i hi c' h1).g (x i) (u i) (t • dx) (t • du)
    rw [mulVec_smul, mulVec_smul, ← smul_add] at this
    exact this
  lN dx := hasDerivAt_quadratic (a := P.lN (x N)) (c := 1 / 2 * (dx ⬝ᵥ (H.termLxx *ᵥ dx))) fun t => by
    have := hL.free.lN (x N) (t • dx)
    refine this.trans ?_
    simp only [smul_dotProduct, dotProduct_smul, mulVec_smul, smul_eq_mul]
    show _ = _ + t * (P.lNx (x N) ⬝ᵥ dx) + _
    rw [dotProduct_comm (P.lNx (x N))]
    ring
  cN c hc dx du := by
    obtain ⟨c', h1, rfl⟩ := List.mem_map.1 hc
    refine hasDerivAt_affine (a := c'.g (x N) 0) fun t => ?_
    have := (hL.cN c' h1).g (x N) 0 (t • dx) (t • du)
    rw [mulVec_smul, mulVec_smul, ← smul_add] at this
    exact this

theorem lagrangian_spec (P : Prob nx nu N) (x : ∀ i, Fin (nx i) → ℝ) (u : ∀ i, Fin (nu i) → ℝ) (l : Lams nx P.nc0) (v : ℕ → List ℝ)
    (y : ∀ i, Fin (nx i) → ℝ) (w : ∀ i, Fin (nu i) → ℝ) :
    Spec.lagrangian P l.init l.dyn v y w = Lag.Spec.lagrangian (P.spec x u) l.init l.dyn v y w := by
  unfold Spec.lagrangian Lag.Spec.lagrangian
  have h : ∀ i, Spec.cstr P y w i = LQ.Spec.cstr (P.spec x u) y w i := by
    intro i
    unfold Spec.cstr LQ.Spec.cstr Prob.spec Lag.Spec.stack
    simp only [List.flatMap_map]
    rfl
  rw [Finset.sum_range_succ, Finset.sum_add_distrib]
  have h1 : ∑ i ∈ Finset.range N, Lag.Spec.ldot (v i) (Spec.cstr P y w i) =
      ∑ i ∈ Finset.range N, Lag.Spec.ldot (v i) (Lag.Spec.stack ((P.spec x u).c i) (y i) (w i)) :=
    Finset.sum_congr rfl fun i hi => by rw [h i, LQ.Spec.cstr, if_pos (Finset.mem_range.1 hi)]
  rw [h1, h N, LQ.Spec.cstr, if_neg (lt_irrefl N)]
  show Spec.cost P y w + l.init ⬝ᵥ P.h (y 0) + ∑ i ∈ Finset.range N, l.dyn i ⬝ᵥ (P.f i (y i) (w i) - y (i + 1)) + (_ + _) =
    Spec.cost P y w + l.init ⬝ᵥ P.h (y 0) + (∑ i ∈ Finset.range N, l.dyn i ⬝ᵥ (P.f i (y i) (w i) - y (i + 1)) + _) + _
  ring

theorem kkt_shape {P : Prob nx nu N} {fixed : Prop} {x : ∀ i, Fin (nx i) → ℝ} {u : ∀ i, Fin (nu i) → ℝ} {lam0 : Fin P.nc0 → ℝ}
    {lam : ∀ i, Fin (nx (i + 1)) → ℝ} {v : ℕ → List ℝ} (h : Spec.KKTPoint P fixed x u lam0 lam v) : Shape P v :=
  fun i hi => (h.sizes i hi).trans (cstr_length' P x u i)

theorem kkt_pair {P : Prob nx nu N} {H : Hess nx nu N} (hL : Spec.IsLQE P H) {fixed : Prop} {x : ∀ i, Fin (nx i) → ℝ}
    {u : ∀ i, Fin (nu i) → ℝ} {lam0 : Fin P.nc0 → ℝ} {lam : ∀ i, Fin (nx (i + 1)) → ℝ} {v : ℕ → List ℝ}
    (h : Spec.KKTPoint P fixed x u lam0 lam v) (ex : ∀ i, Fin (nx i) → ℝ) (eu : ∀ i, Fin (nu i) → ℝ) (hf : fixed → ex 0 = 0) :
    pair (compute (pdata (P.spec x u)) (some ⟨lam0, lam⟩) v) N ex eu = 0 := by
  have h1 := C27_lagrangian_gradient (P.spec x u) x u (IsLQE_right hL x u) ⟨lam0, lam⟩ v ((kkt_shape h).vShape x u) ex eu
  have h2 := h.stationary ex eu hf
  refine h1.unique (HasDerivAt.congr_deriv ?_ rfl)
  refine h2.congr_of_eventuallyEq (Filter.Eventually.of_forall fun t => ?_)
  exact (lagrangian_spec P x u ⟨lam0, lam⟩ v _ _).symm

/-- Inner product of two directions. -/
def inner2 (N : ℕ) (ax : ∀ i, Fin (nx i) → ℝ) (au : ∀ i, Fin (nu i) → ℝ) (bx : ∀ i, Fin (nx i) → ℝ) (bu : ∀ i, Fin (nu i) → ℝ) : ℝ :=
  (∑ i ∈ Finset.range (N + 1), ax i ⬝ᵥ bx i) + ∑ i ∈ Finset.range N, au i ⬝ᵥ bu i

theorem dist2_add (x d y : ∀ i, Fin (nx i) → ℝ) (u e w : ∀ i, Fin (nu i) → ℝ) :
    Spec.dist2 N (fun i => x i + d i) (fun i => u i + e i) y w + Spec.dist2 N (fun i => x i + d i) (fun i => u i + e i) x u -
      Spec.dist2 N x u y w = 2 * inner2 N d e (fun i => x i + d i - y i) (fun i => u i + e i - w i) := by
  unfold Spec.dist2 inner2 dotProduct
  have e1 : ∀ {n : ℕ → ℕ} (M : ℕ) (x d y : ∀ i, Fin (n i) → ℝ), (∑ i ∈ Finset.range M, ∑ k, ((x i + d i) k - y i k) ^ 2) +
      (∑ i ∈ Finset.range M, ∑ k, ((x i + d i) k - x i k) ^ 2) - (∑ i ∈ Finset.range M, ∑ k, (x i k - y i k) ^ 2) =
      2 * ∑ i ∈ Finset.range M, ∑ k, d i k * (x i + d i - y i) k := by
    intro n M x d y
    rw [← Finset.sum_add_distrib, ← Finset.sum_sub_distrib, Finset.mul_sum]
    refine Finset.sum_congr rfl fun i _ => ?_
    rw [← Finset.sum_add_distrib, ← Finset.sum_sub_distrib, Finset.mul_sum]
    refine Finset.sum_congr rfl fun k _ => ?_
    simp only [Pi.add_apply, Pi.sub_apply]
    ring
  have h1 := e1 (N + 1) x d y
  have h2 := e1 N u e w
  linarith

theorem vdist2_cross (nc : ℕ → ℕ) (v w z : ℕ → List ℝ) :
    Spec.vdist2 N nc v w + Spec.vdist2 N nc v z - Spec.vdist2 N nc z w =
      2 * ∑ i ∈ Finset.range (N + 1), ∑ k ∈ Finset.range (nc i), ((v i).getD k 0 - (w i).getD k 0) * ((v i).getD k 0 - (z i).getD k 0) := by
  unfold Spec.vdist2
  rw [← Finset.sum_add_distrib, ← Finset.sum_sub_distrib, Finset.mul_sum]
  refine Finset.sum_congr rfl fun i _ => ?_
  rw [← Finset.sum_add_distrib, ← Finset.sum_sub_distrib, Finset.mul_sum]
  exact Finset.sum_congr rfl fun k _ => by ring

/-- Sum of squares of the values of the path constraints. -/
def viol2 (P : Prob nx nu N) (x : ∀ i, Fin (nx i) → ℝ) (u : ∀ i, Fin (nu i) → ℝ) : ℝ :=
  Spec.vdist2 N P.nc (Spec.cstr P x u) fun _ => []

theorem getD_zero {l : List ℝ} (h : ∀ a ∈ l, a = 0) (k : ℕ) : l.getD k 0 = 0 := by
  by_cases hk : k < l.length
  · rw [List.getD_eq_getElem _ _ hk]
    exact h _ (List.getElem_mem hk)
  · exact List.getD_eq_default _ _ (not_lt.1 hk)

/-- **C77** The energy balance of one iteration: for every first-order optimal point of the problem, the weighted squared
distances of the new trajectory and of the new multipliers to it, plus the squares of the step and of the constraint values and
the quadratic form of the costs, are the distances of the old trajectory and of the multipliers at the last update.  No
convexity is needed. -/
theorem C77_energy {P : Prob nx nu N} {H : Hess nx nu N} (hL : Spec.IsLQE P H) {S : Setup} (hS : EqSets P S) {exact : Bool}
    {s : SSt P} {d : Dir nx nu P.nc0} (hmu : 0 < s.mu) (hv : Shape P s.prevV) (hvs : Shape P s.x.vs)
    (hs : Solves P S exact H s d) (hG : GoodStart P S.force (s.x.x 0)) {it : Iter nx nu P.nc0}
    (hit : it = linearStep s.x (d.forced S.force) 1) {y : ∀ i, Fin (nx i) → ℝ} {w : ∀ i, Fin (nu i) → ℝ} {lam0 : Fin P.nc0 → ℝ}
    {lam : ∀ i, Fin (nx (i + 1)) → ℝ} {vb : ℕ → List ℝ} (hk : Spec.KKTPoint P (S.force = true) y w lam0 lam vb) :
    s.preg * Spec.dist2 N it.x it.u y w + s.mu * Spec.vdist2 N P.nc it.vs vb + s.preg * Spec.dist2 N it.x it.u s.x.x s.x.u +
      viol2 P it.x it.u / s.mu + 2 * quad H (fun i => it.x i - y i) (fun i => it.u i - w i) =
      s.preg * Spec.dist2 N s.x.x s.x.u y w + s.mu * Spec.vdist2 N P.nc s.prevV vb := by
  have hF := C77_full_step hL hS hmu hv hvs hs hG
  rw [← hit] at hF
  set ex : ∀ i, Fin (nx i) → ℝ := fun i => it.x i - y i with hex
  set eu : ∀ i, Fin (nu i) → ℝ := fun i => it.u i - w i with heu
  have exy : (fun i => y i + ex i) = it.x := by funext i; simp [hex]
  have ewu : (fun i => w i + eu i) = it.u := by funext i; simp [heu]
  -- a forced first state
  have ex0 : S.force = true → ex 0 = 0 := by
    intro hf
    obtain ⟨h1, h2⟩ := hG hf
    refine h2 _ ?_
    have a1 := hL.free.h (y 0) (ex 0)
    have a2 := hL.free.hx (y 0) (s.x.x 0 - y 0)
    rw [add_sub_cancel] at a2
    have a3 : y 0 + ex 0 = it.x 0 := by simp [hex]
    rw [a3] at a1
    have b1 : P.h (it.x 0) = 0 := hF.feasible.init
    have b2 : P.h (y 0) = 0 := hk.feasible.init
    have a1' : P.h (it.x 0) = P.h (y 0) + P.hx (y 0) *ᵥ ex 0 := a1
    have a2' : P.hx (s.x.x 0) = P.hx (y 0) := a2
    rw [b1, b2, zero_add] at a1'
    rw [a2']
    exact a1'.symm
  have k0 := kkt_pair hL hk ex eu ex0
  -- at the new point
  have k1 : pair (compute (pdata (P.spec it.x it.u)) (some it.lam) it.vs) N ex eu = -(s.preg * inner2 N d.dx d.du ex eu) := by
    obtain ⟨ga, gb⟩ := gradAt_eq P S.force it
    unfold pair inner2
    have t1 : ∀ i ∈ Finset.range (N + 1), (compute (pdata (P.spec it.x it.u)) (some it.lam) it.vs).Lxs i ⬝ᵥ ex i =
        -(s.preg * (d.dx i ⬝ᵥ ex i)) := by
      intro i hi
      by_cases hf : S.force = true ∧ i = 0
      · obtain ⟨hf, rfl⟩ := hf
        rw [ex0 hf]
        simp
      · rw [← ga i fun h h' => hf ⟨h, h'⟩, hF.Lx i (Nat.lt_succ_iff.1 (Finset.mem_range.1 hi)), neg_dotProduct, smul_dotProduct,
          smul_eq_mul]
    have t2 : ∀ i ∈ Finset.range N, (compute (pdata (P.spec it.x it.u)) (some it.lam) it.vs).Lus i ⬝ᵥ eu i =
        -(s.preg * (d.du i ⬝ᵥ eu i)) := by
      intro i hi
      rw [← gb, hF.Lu i (Finset.mem_range.1 hi), neg_dotProduct, smul_dotProduct, smul_eq_mul]
    rw [Finset.sum_congr rfl t1, Finset.sum_congr rfl t2, Finset.sum_neg_distrib, Finset.sum_neg_distrib, ← Finset.mul_sum,
      ← Finset.mul_sum]
    ring
  rw [pair_spec P it.x it.u it.lam it.vs hF.shape] at k1
  replace k0 := (pair_spec P y w ⟨lam0, lam⟩ vb (kkt_shape hk) ex eu).symm.trans k0
  -- the linear constraints
  have z0 : P.hx (y 0) *ᵥ ex 0 = 0 := by
    have a1 := hL.free.h (y 0) (ex 0)
    have a3 : y 0 + ex 0 = it.x 0 := by simp [hex]
    rw [a3] at a1
    have a1' : P.h (it.x 0) = P.h (y 0) + P.hx (y 0) *ᵥ ex 0 := a1
    rw [hF.feasible.init, hk.feasible.init, zero_add] at a1'
    exact a1'.symm
  have z0' : P.hx (it.x 0) *ᵥ ex 0 = 0 := by
    have a2 := hL.free.hx (y 0) (ex 0)
    have a3 : y 0 + ex 0 = it.x 0 := by simp [hex]
    rw [a3] at a2
    have a2' : P.hx (it.x 0) = P.hx (y 0) := a2
    rw [a2', z0]
  have z1 : ∀ i, i < N → P.fx i (y i) (w i) *ᵥ ex i + P.fu i (y i) (w i) *ᵥ eu i - ex (i + 1) = 0 := by
    intro i hi
    have a1 : P.f i (y i + ex i) (w i + eu i) = P.f i (y i) (w i) + (P.fx i (y i) (w i) *ᵥ ex i + P.fu i (y i) (w i) *ᵥ eu i) :=
      hL.free.f i (y i) (w i) (ex i) (eu i)
    have a3 : y i + ex i = it.x i := by simp [hex]
    have a4 : w i + eu i = it.u i := by simp [heu]
    rw [a3, a4, hF.feasible.dynamics i hi, hk.feasible.dynamics i hi] at a1
    rw [sub_eq_zero]
    show _ = it.x (i + 1) - y (i + 1)
    rw [a1]
    abel
  have z1' : ∀ i, i < N → P.fx i (it.x i) (it.u i) *ᵥ ex i + P.fu i (it.x i) (it.u i) *ᵥ eu i - ex (i + 1) = 0 := by
    intro i hi
    have a1 : P.fx i (y i + ex i) (w i + eu i) = P.fx i (y i) (w i) := hL.free.fx i (y i) (w i) (ex i) (eu i)
    have a2 : P.fu i (y i + ex i) (w i + eu i) = P.fu i (y i) (w i) := hL.free.fu i (y i) (w i) (ex i) (eu i)
    have a3 : y i + ex i = it.x i := by simp [hex]
    have a4 : w i + eu i = it.u i := by simp [heu]
    rw [a3, a4] at a1 a2
    rw [a1, a2]
    exact z1 i hi
  rw [z0', dotProduct_zero, Finset.sum_eq_zero (fun i hi => by rw [z1' i (Finset.mem_range.1 hi), dotProduct_zero])] at k1
  rw [z0, dotProduct_zero, Finset.sum_eq_zero (fun i hi => by rw [z1 i (Finset.mem_range.1 hi), dotProduct_zero])] at k0
  -- the path constraints
  have zc : ∀ i, i ≤ N → ∀ k, (cdir P y w ex eu i).getD k 0 = s.mu * ((it.vs i).getD k 0 - (s.prevV i).getD k 0) := by
    intro i hi k
    have a1 := cstr_add hL y ex w eu i k
    rw [exy, ewu, getD_zero (hk.constraints i hi), zero_add] at a1
    rw [← a1, hF.c i hi k]
  rw [cdir_congr hL y it.x ex w it.u eu] at k1
  have sc := costSlope_add hL y ex w eu
  rw [exy, ewu] at sc
  rw [sc] at k1
  have cross : (∑ i ∈ Finset.range (N + 1), ∑ k ∈ Finset.range (P.nc i), (it.vs i).getD k 0 * (cdir P y w ex eu i).getD k 0) -
      (∑ i ∈ Finset.range (N + 1), ∑ k ∈ Finset.range (P.nc i), (vb i).getD k 0 * (cdir P y w ex eu i).getD k 0) =
      s.mu * ∑ i ∈ Finset.range (N + 1), ∑ k ∈ Finset.range (P.nc i),
        ((it.vs i).getD k 0 - (vb i).getD k 0) * ((it.vs i).getD k 0 - (s.prevV i).getD k 0) := by
    rw [← Finset.sum_sub_distrib, Finset.mul_sum]
    refine Finset.sum_congr rfl fun i hi => ?_
    rw [← Finset.sum_sub_distrib, Finset.mul_sum]
    refine Finset.sum_congr rfl fun k _ => ?_
    rw [zc i (Nat.lt_succ_iff.1 (Finset.mem_range.1 hi)) k]
    ring
  have hv2 := vdist2_cross (N := N) P.nc it.vs vb s.prevV
  have hx2 := dist2_add (N := N) s.x.x d.dx y s.x.u d.du w
  rw [← hF.x, ← hF.u] at hx2
  have ei : inner2 N d.dx d.du (fun i => s.x.x i + d.dx i - y i) (fun i => s.x.u i + d.du i - w i) = inner2 N d.dx d.du ex eu := by
    congr 1
    · funext i; rw [hex, hF.x]
    · funext i; rw [heu, hF.u]
  rw [ei] at hx2
  have hvi : viol2 P it.x it.u = s.mu ^ 2 * Spec.vdist2 N P.nc it.vs s.prevV := by
    unfold viol2 Spec.vdist2
    rw [Finset.mul_sum]
    refine Finset.sum_congr rfl fun i hi => ?_
    rw [Finset.mul_sum]
    refine Finset.sum_congr rfl fun k _ => ?_
    rw [hF.c i (Nat.lt_succ_iff.1 (Finset.mem_range.1 hi)) k]
    simp only [List.getD_nil, sub_zero]
    ring
  have hvi' : viol2 P it.x it.u / s.mu = s.mu * Spec.vdist2 N P.nc it.vs s.prevV := by
    rw [hvi]; field_simp
  rw [hvi']
  set I := inner2 N d.dx d.du ex eu
  set W := ∑ i ∈ Finset.range (N + 1), ∑ k ∈ Finset.range (P.nc i),
        ((it.vs i).getD k 0 - (vb i).getD k 0) * ((it.vs i).getD k 0 - (s.prevV i).getD k 0)
  have m1 : s.preg * (Spec.dist2 N it.x it.u y w + Spec.dist2 N it.x it.u s.x.x s.x.u - Spec.dist2 N s.x.x s.x.u y w) =
    s.preg * (2 * I) := by rw [hx2]
  have m2 : s.mu * (Spec.vdist2 N P.nc it.vs vb + Spec.vdist2 N P.nc it.vs s.prevV - Spec.vdist2 N P.nc s.prevV vb) =
    s.mu * (2 * W) := by rw [hv2]
  linarith

/-! ### Contraction -/

theorem dist2_nonneg (x : ∀ i, Fin (nx i) → ℝ) (u : ∀ i, Fin (nu i) → ℝ) (y : ∀ i, Fin (nx i) → ℝ) (w : ∀ i, Fin (nu i) → ℝ) :
    0 ≤ Spec.dist2 N x u y w :=
  add_nonneg (Finset.sum_nonneg fun _ _ => Finset.sum_nonneg fun _ _ => sq_nonneg _)
    (Finset.sum_nonneg fun _ _ => Finset.sum_nonneg fun _ _ => sq_nonneg _)

theorem vdist2_nonneg (nc : ℕ → ℕ) (v w : ℕ → List ℝ) : 0 ≤ Spec.vdist2 N nc v w :=
  Finset.sum_nonneg fun _ _ => Finset.sum_nonneg fun _ _ => sq_nonneg _

/-- The gradient after a full step, along any direction. -/
theorem step_pair {P : Prob nx nu N} {S : Setup} {s : SSt P} {d : Dir nx nu P.nc0} {it : Iter nx nu P.nc0}
    (hF : StepFacts P S.force s d it) (ex : ∀ i, Fin (nx i) → ℝ) (eu : ∀ i, Fin (nu i) → ℝ) (ex0 : S.force = true → ex 0 = 0) :
    pair (compute (pdata (P.spec it.x it.u)) (some it.lam) it.vs) N ex eu = -(s.preg * inner2 N d.dx d.du ex eu) := by
  obtain ⟨ga, gb⟩ := gradAt_eq P S.force it
  unfold pair inner2
  have t1 : ∀ i ∈ Finset.range (N + 1), (compute (pdata (P.spec it.x it.u)) (some it.lam) it.vs).Lxs i ⬝ᵥ ex i =
      -(s.preg * (d.dx i ⬝ᵥ ex i)) := by
    intro i hi
    by_cases hf : S.force = true ∧ i = 0
    · obtain ⟨hf, rfl⟩ := hf
      rw [ex0 hf]
      simp
    · rw [← ga i fun h h' => hf ⟨h, h'⟩, hF.Lx i (Nat.lt_succ_iff.1 (Finset.mem_range.1 hi)), neg_dotProduct, smul_dotProduct,
        smul_eq_mul]
  have t2 : ∀ i ∈ Finset.range N, (compute (pdata (P.spec it.x it.u)) (some it.lam) it.vs).Lus i ⬝ᵥ eu i =
      -(s.preg * (d.du i ⬝ᵥ eu i)) := by
    intro i hi
    rw [← gb, hF.Lu i (Finset.mem_range.1 hi), neg_dotProduct, smul_dotProduct, smul_eq_mul]
  rw [Finset.sum_congr rfl t1, Finset.sum_congr rfl t2, Finset.sum_neg_distrib, Finset.sum_neg_distrib, ← Finset.mul_sum,
    ← Finset.mul_sum]
  ring

theorem step_error {P : Prob nx nu N} {H : Hess nx nu N} (hL : Spec.IsLQE P H) {S : Setup} {s : SSt P} {d : Dir nx nu P.nc0}
    {it : Iter nx nu P.nc0} (hF : StepFacts P S.force s d it) (h0 : S.force = true → d.dx 0 = 0) {K : ℝ}
    {y : ∀ i, Fin (nx i) → ℝ} {w : ∀ i, Fin (nu i) → ℝ} {vb : ℕ → List ℝ} (hE : Spec.ErrorBound P (S.force = true) K y w vb) :
    Spec.dist2 N it.x it.u y w + Spec.vdist2 N P.nc it.vs vb ≤
      K * (viol2 P it.x it.u + s.preg ^ 2 * Spec.dist2 N it.x it.u s.x.x s.x.u) := by
  have hnc : (fun i => (Spec.cstr P it.x it.u i).length) = P.nc := funext fun i => cstr_length' P it.x it.u i
  have h := hE it.x it.u it.lam.init it.lam.dyn it.vs (fun i => -(s.preg • d.dx i)) (fun i => -(s.preg • d.du i)) hF.feasible
    (fun i hi => (hF.shape i hi).trans (cstr_length' P it.x it.u i).symm) (fun hf => by rw [h0 hf]; simp) ?_
  · rw [hnc] at h
    refine h.trans (le_of_eq ?_)
    congr 2
    unfold Spec.dist2
    rw [hF.x, hF.u, mul_add, Finset.mul_sum, Finset.mul_sum]
    congr 1
    · refine Finset.sum_congr rfl fun i _ => ?_
      rw [Finset.mul_sum]
      refine Finset.sum_congr rfl fun k _ => ?_
      simp only [Pi.neg_apply, Pi.smul_apply, smul_eq_mul, Pi.zero_apply, Pi.add_apply]
      ring
    · refine Finset.sum_congr rfl fun i _ => ?_
      rw [Finset.mul_sum]
      refine Finset.sum_congr rfl fun k _ => ?_
      simp only [Pi.neg_apply, Pi.smul_apply, smul_eq_mul, Pi.zero_apply, Pi.add_apply]
      ring
  · intro ex eu hf
    have h1 := C27_lagrangian_gradient (P.spec it.x it.u) it.x it.u (IsLQE_right hL it.x it.u) it.lam it.vs
      (hF.shape.vShape it.x it.u) ex eu
    have h2 : pair (compute (pdata (P.spec it.x it.u)) (some it.lam) it.vs) N ex eu =
        (∑ i ∈ Finset.range (N + 1), (fun i => -(s.preg • d.dx i)) i ⬝ᵥ ex i) +
          ∑ i ∈ Finset.range N, (fun i => -(s.preg • d.du i)) i ⬝ᵥ eu i := by
      rw [step_pair hF ex eu hf]
      unfold inner2
      simp only [neg_dotProduct, smul_dotProduct, smul_eq_mul, Finset.sum_neg_distrib, ← Finset.mul_sum]
      ring
    refine HasDerivAt.congr_deriv ?_ h2
    refine h1.congr_of_eventuallyEq (Filter.Eventually.of_forall fun t => ?_)
    exact lagrangian_spec P it.x it.u it.lam it.vs _ _

theorem start_dx0 {P : Prob nx nu N} {H : Hess nx nu N} (hL : Spec.IsLQE P H) {S : Setup} (hS : EqSets P S) {exact : Bool}
    {s : SSt P} {d : Dir nx nu P.nc0} (hmu : 0 < s.mu) (hv : Shape P s.prevV) (hvs : Shape P s.x.vs)
    (hs : Solves P S exact H s d) (hG : GoodStart P S.force (s.x.x 0)) (hf : S.force = true) : d.dx 0 = 0 := by
  obtain ⟨q0, -⟩ := eq_rows hL hS hmu hv hvs hs
  obtain ⟨h1, h2⟩ := hG hf
  refine h2 _ ?_
  rwa [h1, add_zero] at q0

/-- **C77** On a convex problem the weighted squared distance of trajectory and multipliers to a solution never grows, and the
squares of the new constraint values and of the step are bounded by it. -/
theorem C77_closer {P : Prob nx nu N} {H : Hess nx nu N} (hL : Spec.IsLQE P H) (hC : Spec.Convex N H) {S : Setup} (hS : EqSets P S)
    {exact : Bool} {s : SSt P} {d : Dir nx nu P.nc0} (hmu : 0 < s.mu) (hv : Shape P s.prevV) (hvs : Shape P s.x.vs)
    (hs : Solves P S exact H s d) (hG : GoodStart P S.force (s.x.x 0)) {it : Iter nx nu P.nc0}
    (hit : it = linearStep s.x (d.forced S.force) 1) {y : ∀ i, Fin (nx i) → ℝ} {w : ∀ i, Fin (nu i) → ℝ} {lam0 : Fin P.nc0 → ℝ}
    {lam : ∀ i, Fin (nx (i + 1)) → ℝ} {vb : ℕ → List ℝ} (hk : Spec.KKTPoint P (S.force = true) y w lam0 lam vb) :
    s.preg * Spec.dist2 N it.x it.u y w + s.mu * Spec.vdist2 N P.nc it.vs vb +
      (s.preg * Spec.dist2 N it.x it.u s.x.x s.x.u + viol2 P it.x it.u / s.mu) ≤
      s.preg * Spec.dist2 N s.x.x s.x.u y w + s.mu * Spec.vdist2 N P.nc s.prevV vb := by
  have h := C77_energy hL hS hmu hv hvs hs hG hit hk
  have hq := quad_nonneg hC (fun i => it.x i - y i) (fun i => it.u i - w i)
  linarith

/-- **C77** With an error bound, every full step contracts the weighted squared distance to the solution by the factor
`K ρ² / (1 + K ρ²)`, where `ρ` bounds the penalty parameter and the regularisation: the smaller these are, the faster. -/
theorem C77_contraction {P : Prob nx nu N} {H : Hess nx nu N} (hL : Spec.IsLQE P H) (hC : Spec.Convex N H) {S : Setup}
    (hS : EqSets P S) {exact : Bool} {s : SSt P} {d : Dir nx nu P.nc0} (hmu : 0 < s.mu) (hpr : 0 ≤ s.preg) (hv : Shape P s.prevV)
    (hvs : Shape P s.x.vs) (hs : Solves P S exact H s d) (hG : GoodStart P S.force (s.x.x 0)) {it : Iter nx nu P.nc0}
    (hit : it = linearStep s.x (d.forced S.force) 1) {y : ∀ i, Fin (nx i) → ℝ} {w : ∀ i, Fin (nu i) → ℝ} {lam0 : Fin P.nc0 → ℝ}
    {lam : ∀ i, Fin (nx (i + 1)) → ℝ} {vb : ℕ → List ℝ} (hk : Spec.KKTPoint P (S.force = true) y w lam0 lam vb) {K rho : ℝ}
    (hK : 0 ≤ K) (hE : Spec.ErrorBound P (S.force = true) K y w vb) (h1 : s.mu ≤ rho) (h2 : s.preg ≤ rho) :
    (1 + K * rho ^ 2) * (s.preg * Spec.dist2 N it.x it.u y w + s.mu * Spec.vdist2 N P.nc it.vs vb) ≤
      K * rho ^ 2 * (s.preg * Spec.dist2 N s.x.x s.x.u y w + s.mu * Spec.vdist2 N P.nc s.prevV vb) := by
  have hF := C77_full_step hL hS hmu hv hvs hs hG
  rw [← hit] at hF
  have he := step_error hL hF (start_dx0 hL hS hmu hv hvs hs hG) hE
  have hc := C77_closer hL hC hS hmu hv hvs hs hG hit hk
  have n1 := dist2_nonneg (N := N) it.x it.u y w
  have n2 := vdist2_nonneg (N := N) P.nc it.vs vb
  have n3 := dist2_nonneg (N := N) it.x it.u s.x.x s.x.u
  have n4 : 0 ≤ viol2 P it.x it.u := vdist2_nonneg _ _ _
  set a := Spec.dist2 N it.x it.u y w
  set b := Spec.vdist2 N P.nc it.vs vb
  set c := Spec.dist2 N it.x it.u s.x.x s.x.u
  set v := viol2 P it.x it.u
  have hr : 0 ≤ rho := hmu.le.trans h1
  have m1 : s.preg * a ≤ rho * a := mul_le_mul_of_nonneg_right h2 n1
  have m2 : s.mu * b ≤ rho * b := mul_le_mul_of_nonneg_right h1 n2
  have m3 : rho * (a + b) ≤ rho * (K * (v + s.preg ^ 2 * c)) := mul_le_mul_of_nonneg_left he hr
  have m4 : v + s.preg ^ 2 * c ≤ rho * (s.preg * c + v / s.mu) := by
    have e1 : v = s.mu * (v / s.mu) := by field_simp
    have e2 : s.mu * (v / s.mu) ≤ rho * (v / s.mu) := mul_le_mul_of_nonneg_right h1 (div_nonneg n4 hmu.le)
    have e3 : s.preg * (s.preg * c) ≤ rho * (s.preg * c) := mul_le_mul_of_nonneg_right h2 (mul_nonneg hpr n3)
    calc v + s.preg ^ 2 * c = s.mu * (v / s.mu) + s.preg * (s.preg * c) := by rw [← e1]; ring
      _ ≤ rho * (v / s.mu) + rho * (s.preg * c) := add_le_add e2 e3
      _ = _ := by ring
  have m5 : rho * K * (v + s.preg ^ 2 * c) ≤ rho * K * (rho * (s.preg * c + v / s.mu)) := mul_le_mul_of_nonneg_left m4 (mul_nonneg hr hK)
  have m6 : K * rho ^ 2 * (s.preg * c + v / s.mu) ≤ K * rho ^ 2 * (s.preg * Spec.dist2 N s.x.x s.x.u y w +
      s.mu * Spec.vdist2 N P.nc s.prevV vb - (s.preg * a + s.mu * b)) :=
    mul_le_mul_of_nonneg_left (by linarith) (mul_nonneg hK (sq_nonneg _))
  nlinarith

/-! ### Runs -/

/-- The largest absolute constraint value. -/
noncomputable def viol (P : Prob nx nu N) (x : ∀ i, Fin (nx i) → ℝ) (u : ∀ i, Fin (nu i) → ℝ) : ℝ :=
  infNorm ((List.range (N + 1)).map fun i => infNorm (Spec.cstr P x u i))

theorem infNorm_le_getD {l : List ℝ} {b : ℝ} (hb : 0 ≤ b) (h : ∀ k, |l.getD k 0| ≤ b) : infNorm l ≤ b := by
  refine infNorm_le hb fun a ha => ?_
  obtain ⟨k, hk, rfl⟩ := List.getElem_of_mem ha
  rw [← List.getD_eq_getElem _ 0 hk]
  exact h k

theorem viol_nonneg (P : Prob nx nu N) (x : ∀ i, Fin (nx i) → ℝ) (u : ∀ i, Fin (nu i) → ℝ) : 0 ≤ viol P x u := infNorm_nonneg _

theorem le_viol (P : Prob nx nu N) (x : ∀ i, Fin (nx i) → ℝ) (u : ∀ i, Fin (nu i) → ℝ) {i : ℕ} (hi : i ≤ N) :
    infNorm (Spec.cstr P x u i) ≤ viol P x u :=
  infNorm_range (f := fun i => infNorm (Spec.cstr P x u i)) (by omega)

theorem viol_le {P : Prob nx nu N} {x : ∀ i, Fin (nx i) → ℝ} {u : ∀ i, Fin (nu i) → ℝ} {b : ℝ} (hb : 0 ≤ b)
    (h : ∀ i, i ≤ N → ∀ k, |(Spec.cstr P x u i).getD k 0| ≤ b) : viol P x u ≤ b := by
  refine infNorm_le hb fun a ha => ?_
  obtain ⟨i, hi, rfl⟩ := List.mem_map.1 ha
  rw [abs_of_nonneg (infNorm_nonneg _)]
  exact infNorm_le_getD hb (h i (Nat.lt_succ_iff.1 (List.mem_range.1 hi)))

theorem viol_max (P : Prob nx nu N) (x : ∀ i, Fin (nx i) → ℝ) (u : ∀ i, Fin (nu i) → ℝ) : Spec.MaxViolation P x u (viol P x u) :=
  fun _ hi _ ha => (le_infNorm ha).trans (le_viol P x u hi)

theorem viol_sq (P : Prob nx nu N) (x : ∀ i, Fin (nx i) → ℝ) (u : ∀ i, Fin (nu i) → ℝ) : viol P x u ^ 2 ≤ viol2 P x u := by
  have n4 : 0 ≤ viol2 P x u := vdist2_nonneg _ _ _
  have h : viol P x u ≤ Real.sqrt (viol2 P x u) := by
    refine viol_le (Real.sqrt_nonneg _) fun i hi k => ?_
    by_cases hk : k < P.nc i
    · refine Real.abs_le_sqrt ?_
      have h1 : ((Spec.cstr P x u i).getD k 0) ^ 2 ≤ ∑ k ∈ Finset.range (P.nc i), ((Spec.cstr P x u i).getD k 0 - ([] : List ℝ).getD k 0) ^ 2 := by
        have := Finset.single_le_sum (f := fun k => ((Spec.cstr P x u i).getD k 0 - ([] : List ℝ).getD k 0) ^ 2)
          (fun _ _ => sq_nonneg _) (Finset.mem_range.2 hk)
        refine le_trans (le_of_eq ?_) this
        simp
      exact h1.trans (Finset.single_le_sum (f := fun i => ∑ k ∈ Finset.range (P.nc i),
        ((Spec.cstr P x u i).getD k 0 - ([] : List ℝ).getD k 0) ^ 2)
        (fun _ _ => Finset.sum_nonneg fun _ _ => sq_nonneg _) (Finset.mem_range.2 (Nat.lt_succ_iff.2 hi)))
    · rw [List.getD_eq_default _ _ (by rw [cstr_length']; exact not_lt.1 hk), abs_zero]
      exact Real.sqrt_nonneg _
  calc viol P x u ^ 2 ≤ Real.sqrt (viol2 P x u) ^ 2 := pow_le_pow_left₀ (viol_nonneg P x u) h 2
    _ = _ := Real.sq_sqrt n4

/-- The multiplier step of an equality. -/
theorem eq_ms {P : Prob nx nu N} {S : Setup} (hS : EqSets P S) {mu : ℝ} (hmu : 0 < mu) {v : ℕ → List ℝ} {it : Iter nx nu P.nc0}
    (hv : Shape P v) (hvs : Shape P it.vs) {i : ℕ} (hi : i ≤ N) :
    ((mult P S mu v it).1.ms i).infeas = Spec.cstr P it.x it.u i ∧
    ∀ k, (((mult P S mu v it).1.ms i).Lvs).getD k 0 =
      (Spec.cstr P it.x it.u i).getD k 0 + mu * (v i).getD k 0 - mu * (it.vs i).getD k 0 := by
  have hc : ((P.values it.x it.u).c i).length = P.nc i := values_c_length P it.x it.u i
  have e1 : ((mult P S mu v it).1.ms i) = multiplierStep (S.op i) mu (Spec.cstr P it.x it.u i) (v i) (it.vs i) (S.out i) [] := rfl
  have hl : (Spec.cstr P it.x it.u i).length = P.nc i := hc
  rw [e1]
  set c := Spec.cstr P it.x it.u i
  have hlen : (List.zipWith (· + ·) c ((v i).map (mu * ·))).length = P.nc i := by simp [hl, hv i hi]
  have hcone := eq_cone hS hi hlen
  unfold multiplierStep
  dsimp only
  rw [hcone]
  refine ⟨?_, fun k => ?_⟩
  · have h : ∀ (a b : List ℝ), a.length = b.length →
        (List.zipWith (· - ·) ((List.zipWith (· + ·) a (b.map (mu * ·))).map (1 / mu * ·)) b).map (mu * ·) = a := by
      intro a
      induction a with
      | nil => intro b _; simp
      | cons x a ih =>
        intro b hb
        cases b with
        | nil => simp at hb
        | cons y b =>
          have := ih b (by simpa using hb)
          simp only [List.map_cons, List.zipWith_cons_cons] at this ⊢
          rw [this]
          congr 1
          field_simp
          ring
    exact h c (v i) (hl.trans (hv i hi).symm)
  · have h1 : ∀ (a b : List ℝ), a.length = b.length → ∀ k, (List.zipWith (· - ·) a b).getD k 0 = a.getD k 0 - b.getD k 0 :=
      fun a b h k => getD_sub h k
    have h2 : ∀ (a : List ℝ) k, (a.map (mu * ·)).getD k 0 = mu * a.getD k 0 := by
      intro a k
      by_cases hk : k < a.length
      · rw [List.getD_eq_getElem _ _ (by simpa using hk), List.getD_eq_getElem _ _ hk, List.getElem_map]
      · rw [List.getD_eq_default _ _ (by simpa using hk), List.getD_eq_default _ _ (not_lt.1 hk), mul_zero]
    rw [h1 _ _ (by simp [hl, hv i hi, hvs i hi]), h2, getD_zipWith_add _ _ (by simp [hl, hv i hi]), h2]

theorem slacks_feasible {P : Prob nx nu N} {it : Iter nx nu P.nc0} (hF : Spec.Feasible P it.x it.u) {i : ℕ} (hi : i ≤ N) :
    infNorm (slacks (P.values it.x it.u) i) ≤ 0 := by
  cases i with
  | zero =>
    refine infNorm_ofFn_le le_rfl fun k => ?_
    show |P.h (it.x 0) k| ≤ 0
    rw [hF.init]; simp
  | succ i =>
    refine infNorm_ofFn_le le_rfl fun k => ?_
    show |(P.f i (it.x i) (it.u i) - it.x (i + 1)) k| ≤ 0
    rw [hF.dynamics i (by omega)]; simp

/-- On a feasible trajectory the primal infeasibility is the constraint violation. -/
theorem eq_prim {P : Prob nx nu N} {S : Setup} (hS : EqSets P S) {mu : ℝ} (hmu : 0 < mu) {v : ℕ → List ℝ} {it : Iter nx nu P.nc0}
    (hv : Shape P v) (hvs : Shape P it.vs) (hF : Spec.Feasible P it.x it.u) :
    (mult P S mu v it).2 = some (viol P it.x it.u) := by
  show some (primInfeas N (fun i => ((mult P S mu v it).1.ms i).infeas) (slacks (P.values it.x it.u))) = _
  congr 1
  unfold primInfeas
  have e1 : (List.range (N + 1)).map (fun i => infNorm ((mult P S mu v it).1.ms i).infeas) =
      (List.range (N + 1)).map fun i => infNorm (Spec.cstr P it.x it.u i) :=
    List.map_congr_left fun i hi => by rw [(eq_ms hS hmu hv hvs (Nat.lt_succ_iff.1 (List.mem_range.1 hi))).1]
  rw [e1]
  refine max_eq_left ((infNorm_le le_rfl fun a ha => ?_).trans (infNorm_nonneg _))
  obtain ⟨i, hi, rfl⟩ := List.mem_map.1 ha
  rw [abs_of_nonneg (infNorm_nonneg _)]
  exact slacks_feasible hF (Nat.lt_succ_iff.1 (List.mem_range.1 hi))

/-- The constraint values are `mu` times the difference of the multipliers to `v`. -/
def Rel (P : Prob nx nu N) (mu : ℝ) (v : ℕ → List ℝ) (it : Iter nx nu P.nc0) : Prop :=
  ∀ i, i ≤ N → ∀ k, (Spec.cstr P it.x it.u i).getD k 0 = mu * ((it.vs i).getD k 0 - (v i).getD k 0)

/-- All components of the gradient of the Lagrangian are at most `b`. -/
def SmallGrad (P : Prob nx nu N) (force : Bool) (it : Iter nx nu P.nc0) (b : ℝ) : Prop :=
  (∀ i, i ≤ N → ∀ k, |(gradAt P force it).Lxs i k| ≤ b) ∧ ∀ i, i < N → ∀ k, |(gradAt P force it).Lus i k| ≤ b

/-- The state at which a linear system is solved during a run, after the first one: the trajectory satisfies initial condition
and dynamics, the gradient of its Lagrangian is small, a constraint is still violated, and the multipliers have just been updated
or the penalty parameter has just been decreased. -/
structure AtWork (p : ProxDDP.Params) (P : Prob nx nu N) (S : Setup) (M : ℕ) (st : SSt P) : Prop where
  feasible : Spec.Feasible P st.x.x st.x.u
  start : GoodStart P S.force (st.x.x 0)
  grad : SmallGrad P S.force st.x (0.01 * p.targetDual)
  far : p.targetTol < viol P st.x.x st.x.u
  shape : Shape P st.x.vs ∧ Shape P st.prevV
  mu : ∃ j, j ≤ M ∧ st.mu = p.muFactor ^ j * max p.muInit p.muLb
  preg : 0 < st.preg ∧ st.preg ≤ max p.regInit p.regMin
  kind : st.prevV = st.x.vs ∨ Rel P (st.mu / p.muFactor) st.prevV st.x
  ws : st.ws = (mult P S st.mu st.prevV st.x).1

/-- The linear solver returns a solution of the linear system, a descent direction whose full step passes the Armijo test. -/
def FullStep (p : ProxDDP.Params) (P : Prob nx nu N) (S : Setup) (exact : Bool) (H : Hess nx nu N) (c1 : ℝ)
    (solve : SSt P → Option (Dir nx nu P.nc0)) (st : SSt P) : Prop :=
  ∃ d, solve st = some d ∧ Solves P S exact H st d ∧ slope P st (d.forced S.force) < -p.dphiThresh ∧
    merit P S st.mu st.prevV (linearStep st.x (d.forced S.force) 1) ≤
      merit P S st.mu st.prevV st.x + c1 * slope P st (d.forced S.force)

/-- The iterates as the abstract argument sees them. -/
noncomputable def ctx (P : Prob nx nu N) (force : Bool) (g0 D : ℝ) (y : ∀ i, Fin (nx i) → ℝ) (w : ∀ i, Fin (nu i) → ℝ) (vb : ℕ → List ℝ) :
    ProxDDP.Ctx (Iter nx nu P.nc0) (ℕ → List ℝ) where
  viol it := viol P it.x it.u
  eX it := Spec.dist2 N it.x it.u y w
  eV v := Spec.vdist2 N P.nc v vb
  vs it := it.vs
  Near it := Spec.Feasible P it.x it.u ∧ Shape P it.vs ∧ SmallGrad P force it g0 ∧ Spec.dist2 N it.x it.u y w ≤ D ∧
    GoodStart P force (it.x 0)
  Ok v := Shape P v
  Rel mu v it := Rel P mu v it
  Fine _ _ := True

theorem dist2_tri (x y z : ∀ i, Fin (nx i) → ℝ) (u v w : ∀ i, Fin (nu i) → ℝ) :
    Spec.dist2 N x u y v ≤ 2 * (Spec.dist2 N x u z w + Spec.dist2 N y v z w) := by
  unfold Spec.dist2
  have h : ∀ {n : ℕ → ℕ} (m : ℕ) (x y z : ∀ i, Fin (n i) → ℝ), (∑ i ∈ Finset.range m, ∑ k, (x i k - y i k) ^ 2) ≤
      2 * ((∑ i ∈ Finset.range m, ∑ k, (x i k - z i k) ^ 2) + ∑ i ∈ Finset.range m, ∑ k, (y i k - z i k) ^ 2) := by
    intro n m x y z
    rw [← Finset.sum_add_distrib, Finset.mul_sum]
    refine Finset.sum_le_sum fun i _ => ?_
    rw [← Finset.sum_add_distrib, Finset.mul_sum]
    refine Finset.sum_le_sum fun k _ => ?_
    nlinarith [sq_nonneg (x i k - z i k + (y i k - z i k))]
  have h1 := h (N + 1) x y z
  have h2 := h N u v w
  linarith

theorem sq_le_dist2 (x y : ∀ i, Fin (nx i) → ℝ) (u w : ∀ i, Fin (nu i) → ℝ) :
    (∀ i, i ≤ N → ∀ k, (x i k - y i k) ^ 2 ≤ Spec.dist2 N x u y w) ∧ ∀ i, i < N → ∀ k, (u i k - w i k) ^ 2 ≤ Spec.dist2 N x u y w := by
  have h : ∀ {n : ℕ → ℕ} (m : ℕ) (x y : ∀ i, Fin (n i) → ℝ) (i : ℕ) (k : Fin (n i)), i < m → (x i k - y i k) ^ 2 ≤
      ∑ i ∈ Finset.range m, ∑ k, (x i k - y i k) ^ 2 := by
    intro n m x y i k hi
    exact (Finset.single_le_sum (f := fun k => (x i k - y i k) ^ 2) (fun _ _ => sq_nonneg _) (Finset.mem_univ k)).trans
      (Finset.single_le_sum (f := fun i => ∑ k, (x i k - y i k) ^ 2) (fun _ _ => Finset.sum_nonneg fun _ _ => sq_nonneg _)
        (Finset.mem_range.2 hi))
  have n1 : 0 ≤ ∑ i ∈ Finset.range (N + 1), ∑ k, (x i k - y i k) ^ 2 :=
    Finset.sum_nonneg fun _ _ => Finset.sum_nonneg fun _ _ => sq_nonneg _
  have n2 : 0 ≤ ∑ i ∈ Finset.range N, ∑ k, (u i k - w i k) ^ 2 := Finset.sum_nonneg fun _ _ => Finset.sum_nonneg fun _ _ => sq_nonneg _
  refine ⟨fun i hi k => ?_, fun i hi k => ?_⟩
  · have := h (N + 1) x y i k (by omega)
    unfold Spec.dist2
    linarith
  · have := h N u w i k hi
    unfold Spec.dist2
    linarith

theorem slope_zero {P : Prob nx nu N} (s : SSt P) (d : Dir nx nu P.nc0) (hx : ∀ i, i ≤ N → d.dx i = 0) (hu : ∀ i, i < N → d.du i = 0) :
    slope P s d = 0 := by
  unfold slope
  rw [directionalDerivative_eq_pair]
  unfold pair
  rw [Finset.sum_eq_zero fun i hi => by rw [hx i (Nat.lt_succ_iff.1 (Finset.mem_range.1 hi)), dotProduct_zero],
    Finset.sum_eq_zero fun i hi => by rw [hu i (Finset.mem_range.1 hi), dotProduct_zero], add_zero]

/-- The constants of a run: solution, error bound, energy, size of the iterates, contraction. -/
structure Consts (p : ProxDDP.Params) (P : Prob nx nu N) (force : Bool) (K B0 D q : ℝ) (y : ∀ i, Fin (nx i) → ℝ) (w : ∀ i, Fin (nu i) → ℝ)
    (lam0 : Fin P.nc0 → ℝ) (lam : ∀ i, Fin (nx (i + 1)) → ℝ) (vb : ℕ → List ℝ) : Prop where
  kkt : Spec.KKTPoint P (force = true) y w lam0 lam vb
  K0 : 0 ≤ K
  error : Spec.ErrorBound P (force = true) K y w vb
  size : K * ((max p.muInit p.muLb + max p.regInit p.regMin) * B0) ≤ D
  grad : 4 * (max p.regInit p.regMin) ^ 2 * D ≤ (0.01 * p.targetDual) ^ 2
  q0 : 0 ≤ q
  q1 : q ≤ 1
  rate : K * (max (max p.muInit p.muLb) (max p.regInit p.regMin)) ^ 2 * (1 - q) ≤ q

theorem step1_of {p : ProxDDP.Params} (hp : p.Valid) (hth : 0 ≤ p.dphiThresh) (ham : p.alphaMin < 1)
    {P : Prob nx nu N} {H : Hess nx nu N} (hL : Spec.IsLQE P H) (hC : Spec.Convex N H) {S : Setup} (hS : EqSets P S)
    {search : SSt P → Search} {c1 : ℝ} (hse : ∀ s, AcceptsFullStep c1 p.dphiThresh (search s))
    {solve : SSt P → Option (Dir nx nu P.nc0)} {exact : Bool} {K B0 D q : ℝ} {y : ∀ i, Fin (nx i) → ℝ} {w : ∀ i, Fin (nu i) → ℝ}
    {lam0 : Fin P.nc0 → ℝ} {lam : ∀ i, Fin (nx (i + 1)) → ℝ} {vb : ℕ → List ℝ} (hc : Consts p P S.force K B0 D q y w lam0 lam vb)
    {st : SSt P} (hvs : Shape P st.x.vs) (hv : Shape P st.prevV) (hmu0 : 0 < st.mu) (hmu1 : st.mu ≤ max p.muInit p.muLb)
    (hpr0 : 0 < st.preg) (hpr1 : st.preg ≤ max p.regInit p.regMin) (hG : GoodStart P S.force (st.x.x 0))
    (hD : Spec.dist2 N st.x.x st.x.u y w ≤ D)
    (hen : st.preg * Spec.dist2 N st.x.x st.x.u y w + st.mu * Spec.vdist2 N P.nc st.prevV vb ≤ B0)
    (hfull : FullStep p P S exact H c1 solve st) :
    ∃ x1, ProxDDP.Step1 (ctx P S.force (0.01 * p.targetDual) D y w vb) p (env P S (oracle P S search solve)) q st x1 := by
  obtain ⟨d, hd, hs, hdesc, harm⟩ := hfull
  set it := linearStep st.x (d.forced S.force) 1 with hit
  have hF := C77_full_step hL hS hmu0 hv hvs hs hG
  rw [← hit] at hF
  have h0 := start_dx0 hL hS hmu0 hv hvs hs hG
  have hcl := C77_closer hL hC hS hmu0 hv hvs hs hG hit hc.kkt
  have hcon := C77_contraction hL hC hS hmu0 hpr0.le hv hvs hs hG hit hc.kkt hc.K0 hc.error
    (hmu1.trans (le_max_left _ (max p.regInit p.regMin))) (hpr1.trans (le_max_right (max p.muInit p.muLb) _))
  have herr := step_error hL hF h0 hc.error
  have n1 := dist2_nonneg (N := N) it.x it.u y w
  have n2 := vdist2_nonneg (N := N) P.nc it.vs vb
  have n3 := dist2_nonneg (N := N) it.x it.u st.x.x st.x.u
  have n4 : 0 ≤ viol2 P it.x it.u := vdist2_nonneg _ _ _
  have n5 := dist2_nonneg (N := N) st.x.x st.x.u y w
  have n6 := vdist2_nonneg (N := N) P.nc st.prevV vb
  have htri := dist2_tri (N := N) it.x st.x.x y it.u st.x.u w
  set E0 := st.preg * Spec.dist2 N st.x.x st.x.u y w + st.mu * Spec.vdist2 N P.nc st.prevV vb with hE0
  set a := Spec.dist2 N it.x it.u y w with ha
  set c := Spec.dist2 N it.x it.u st.x.x st.x.u with hcdef
  have hE00 : 0 ≤ E0 := add_nonneg (mul_nonneg hpr0.le n5) (mul_nonneg hmu0.le n6)
  have hgood : 0 ≤ 0.01 * p.targetDual := by have := hp.targetDual; linarith
  have q1 : st.preg * c ≤ E0 := by
    have : 0 ≤ viol2 P it.x it.u / st.mu := div_nonneg n4 hmu0.le
    have := mul_nonneg hpr0.le n1
    have := mul_nonneg hmu0.le n2
    linarith
  have q2 : viol2 P it.x it.u ≤ st.mu * E0 := by
    have h1 : viol2 P it.x it.u / st.mu ≤ E0 := by
      have := mul_nonneg hpr0.le n1
      have := mul_nonneg hmu0.le n2
      have := mul_nonneg hpr0.le n3
      linarith
    have := mul_le_mul_of_nonneg_left h1 hmu0.le
    rwa [mul_div_cancel₀ _ hmu0.ne'] at this
  have hB0 : 0 ≤ B0 := hE00.trans hen
  have hp0 : 0 ≤ max p.regInit p.regMin := hpr0.le.trans hpr1
  -- the size of the new iterate
  have haD : a ≤ D := by
    have e1 : viol2 P it.x it.u ≤ max p.muInit p.muLb * B0 := q2.trans (mul_le_mul hmu1 hen hE00 (hmu0.le.trans hmu1))
    have e2 : st.preg ^ 2 * c ≤ max p.regInit p.regMin * B0 := by
      calc st.preg ^ 2 * c = st.preg * (st.preg * c) := by ring
        _ ≤ _ := mul_le_mul hpr1 (q1.trans hen) (mul_nonneg hpr0.le n3) hp0
    have e3 : K * (viol2 P it.x it.u + st.preg ^ 2 * c) ≤ K * ((max p.muInit p.muLb + max p.regInit p.regMin) * B0) :=
      mul_le_mul_of_nonneg_left (by linarith) hc.K0
    have := hc.size
    linarith
  -- the gradient
  have hcc : st.preg ^ 2 * c ≤ (0.01 * p.targetDual) ^ 2 := by
    have e1 : c ≤ 4 * D := by linarith
    have e2 : st.preg ^ 2 ≤ (max p.regInit p.regMin) ^ 2 := pow_le_pow_left₀ hpr0.le hpr1 2
    have e3 : st.preg ^ 2 * c ≤ (max p.regInit p.regMin) ^ 2 * (4 * D) := mul_le_mul e2 e1 n3 (sq_nonneg _)
    have := hc.grad
    linarith
  have hsq : ∀ b : ℝ, b ^ 2 ≤ c → |-(st.preg * b)| ≤ 0.01 * p.targetDual := by
    intro b hb
    refine abs_le_of_sq_le_sq ?_ hgood
    have := mul_le_mul_of_nonneg_left hb (sq_nonneg st.preg)
    nlinarith
  obtain ⟨s1, s2⟩ := sq_le_dist2 (N := N) it.x st.x.x it.u st.x.u
  have hgx : ∀ i, i ≤ N → ∀ k, |(gradAt P S.force it).Lxs i k| ≤ 0.01 * p.targetDual := by
    intro i hi k
    rw [hF.Lx i hi]
    refine hsq (d.dx i k) ?_
    have := s1 i hi k
    rw [hF.x] at this
    simpa [hcdef, hF.x] using this
  have hgu : ∀ i, i < N → ∀ k, |(gradAt P S.force it).Lus i k| ≤ 0.01 * p.targetDual := by
    intro i hi k
    rw [hF.Lu i hi]
    refine hsq (d.du i k) ?_
    have := s2 i hi k
    rw [hF.u] at this
    simpa [hcdef, hF.u] using this
  have hLvs : ∀ i, i ≤ N → infNorm ((mult P S st.mu st.prevV it).1.ms i).Lvs ≤ 0 := by
    intro i hi
    refine infNorm_le_getD le_rfl fun k => ?_
    rw [(eq_ms hS hmu0 hv hF.shape hi).2 k, hF.c i hi k]
    refine le_of_eq ?_
    rw [abs_eq_zero]
    ring
  have hne : (∃ i, i ≤ N ∧ ∃ k, d.dx i k ≠ 0) ∨ ∃ i, i < N ∧ ∃ k, d.du i k ≠ 0 := by
    by_contra hcn
    rw [not_or] at hcn
    obtain ⟨n1, n2⟩ := hcn
    push Not at n1 n2
    have hz := forced_dx h0
    have : slope P st (d.forced S.force) = 0 := slope_zero st _ (fun i hi => by rw [hz.1]; exact funext (n1 i hi))
      fun i hi => by rw [hz.2.1]; exact funext (n2 i hi)
    rw [this] at hdesc
    linarith
  refine ⟨it, ⟨slope P st (d.forced S.force), [], 1, ?_, ?_, not_le.2 ham⟩, ⟨hF.feasible, hF.shape, ⟨hgx, hgu⟩, haD, ?_⟩, hF.c, ?_, ?_, ?_, ?_⟩
  · have hacc := hse st (merit P S st.mu st.prevV st.x) (slope P st (d.forced S.force))
      (fun a => merit P S st.mu st.prevV (linearStep st.x (d.forced S.force) a)) hdesc harm
    show oracle P S search solve st = _
    unfold oracle
    rw [hd]
    dsimp only
    have hse' : search st (merit P S st.mu st.prevV st.x) (directionalDerivative (P.data st.x.x st.x.u)
        (lamsPlus st.mu (0.1 * st.mu) st.x.lam st.ws.V) (fun i => (st.ws.ms i).vsPlus) (d.forced S.force).dx (d.forced S.force).du)
        (fun a => merit P S st.mu st.prevV (linearStep st.x (d.forced S.force) a)) = some (1, [1]) := hacc
    rw [hse']
    rfl
  · rw [abs_of_neg (by linarith)]
    exact not_le.2 (by linarith)
  · intro hf
    obtain ⟨h1, h2⟩ := hG hf
    have : it.x 0 = st.x.x 0 := by rw [hF.x]; simp [h0 hf]
    rw [this]
    exact ⟨h1, h2⟩
  · have g := inner_ge (N := N) (g := gradAt P S.force it) (sl := slacks (mult P S st.mu st.prevV it).1.V)
      (Lv := fun i => ((mult P S st.mu st.prevV it).1.ms i).Lvs)
    rcases hne with ⟨i, hi, k, hk⟩ | ⟨i, hi, k, hk⟩
    · refine lt_of_lt_of_le ?_ (g.1 i hi k)
      rw [hF.Lx i hi]
      show 0 < |-(st.preg * d.dx i k)|
      rw [abs_neg, abs_mul]
      exact mul_pos (abs_pos.2 hpr0.ne') (abs_pos.2 hk)
    · refine lt_of_lt_of_le ?_ (g.2 i hi k)
      rw [hF.Lu i hi]
      show 0 < |-(st.preg * d.du i k)|
      rw [abs_neg, abs_mul]
      exact mul_pos (abs_pos.2 hpr0.ne') (abs_pos.2 hk)
  · exact inner_le (sl := slacks (mult P S st.mu st.prevV it).1.V) (Lv := fun i => ((mult P S st.mu st.prevV it).1.ms i).Lvs) hgood hgx hgu
      (fun i hi => (slacks_feasible hF.feasible hi.le).trans hgood) fun i hi => (hLvs i hi).trans hgood
  · exact (viol_sq P it.x it.u).trans q2
  · show st.preg * a + st.mu * Spec.vdist2 N P.nc it.vs vb ≤ q * E0
    have hr := hc.rate
    have hq1 := hc.q1
    have hq0 := hc.q0
    set kr := K * (max (max p.muInit p.muLb) (max p.regInit p.regMin)) ^ 2 with hkr
    set E1 := st.preg * a + st.mu * Spec.vdist2 N P.nc it.vs vb with hE1
    have hE1n : 0 ≤ E1 := add_nonneg (mul_nonneg hpr0.le n1) (mul_nonneg hmu0.le n2)
    have hle : E1 ≤ E0 := by
      have := mul_nonneg hpr0.le n3
      have : 0 ≤ viol2 P it.x it.u / st.mu := div_nonneg n4 hmu0.le
      linarith
    -- `E1 ≤ kr (E0 - E1)`
    have h1 : E1 ≤ kr * (E0 - E1) := by linarith
    have h2 : (1 - q) * E1 ≤ (1 - q) * (kr * (E0 - E1)) := mul_le_mul_of_nonneg_left h1 (by linarith)
    have h3 : kr * (1 - q) * (E0 - E1) ≤ q * (E0 - E1) := mul_le_mul_of_nonneg_right hr (by linarith)
    nlinarith

theorem eq_facts {p : ProxDDP.Params} (hp : p.Valid) (hth : 0 ≤ p.dphiThresh) (ham : p.alphaMin < 1)
    {P : Prob nx nu N} {H : Hess nx nu N} (hL : Spec.IsLQE P H) (hC : Spec.Convex N H) {S : Setup} (hS : EqSets P S)
    (hmode : S.mode = .newton) {search : SSt P → Search} {c1 : ℝ} (hse : ∀ s, AcceptsFullStep c1 p.dphiThresh (search s))
    {solve : SSt P → Option (Dir nx nu P.nc0)} {exact : Bool} {K B0 D r : ℝ} {q : ℝ} {M : ℕ} {y : ∀ i, Fin (nx i) → ℝ}
    {w : ∀ i, Fin (nu i) → ℝ} {lam0 : Fin P.nc0 → ℝ} {lam : ∀ i, Fin (nx (i + 1)) → ℝ} {vb : ℕ → List ℝ}
    (hc : Consts p P S.force K B0 D q y w lam0 lam vb) (hq : (ProxDDP.Plan.mk (max p.muInit p.muLb) B0 M q r).Fits p)
    (hwork : ∀ st, AtWork p P S M st → FullStep p P S exact H c1 solve st) :
    ProxDDP.Facts (ctx P S.force (0.01 * p.targetDual) D y w vb) p (env P S (oracle P S search solve))
      ⟨max p.muInit p.muLb, B0, M, q, r⟩ := by
  have hgood : 0 ≤ 0.01 * p.targetDual := by have := hp.targetDual; linarith
  have th0 := hq.theta0
  have th1 := hq.theta2
  refine ⟨fun it => viol_nonneg P it.x it.u, fun it => dist2_nonneg _ _ _ _, fun v => vdist2_nonneg _ _ _, fun it ws => ?_,
    fun it h => h.2.1, fun mu v it hmu hv h _ => eq_prim hS hmu hv h.2.1 h.1, fun _ _ _ _ _ _ _ => ⟨trivial, trivial⟩, fun it h => ?_,
    fun mu it hmu h _ => ?_, fun mu v it hmu hv h _ hrel => ?_, fun st hW => ?_⟩
  · show nextV S it ws = it.vs
    unfold nextV
    rw [hmode]
  · exact dual_le (sl := fun _ => []) (Lv := fun _ => []) hgood h.2.2.1.1 h.2.2.1.2
  · have hin : 0 ≤ (env P S (oracle P S search solve)).innerCrit it (mult P S mu it.vs it).1 := infNorm_nonneg _
    refine viol_le hin fun i hi k => ?_
    · have h1 := inner_bounds (N := N) (g := gradAt P S.force it) (sl := slacks (mult P S mu it.vs it).1.V)
        (Lv := fun i => ((mult P S mu it.vs it).1.ms i).Lvs) i hi
      refine le_trans ?_ h1
      have h2 := getD_le_infNorm (((mult P S mu it.vs it).1.ms i).Lvs) k
      rw [(eq_ms hS hmu h.2.1 h.2.1 hi).2 k] at h2
      simpa using h2
  · have hL2 : ∀ i, i ≤ N → ∀ k, (((mult P S mu v it).1.ms i).Lvs).getD k 0 =
        (1 - p.muFactor) * (Spec.cstr P it.x it.u i).getD k 0 := by
      intro i hi k
      rw [(eq_ms hS hmu hv h.2.1 hi).2 k]
      have h3 := hrel i hi k
      have h4 : p.muFactor * (Spec.cstr P it.x it.u i).getD k 0 = mu * ((it.vs i).getD k 0 - (v i).getD k 0) := by
        rw [h3]
        field_simp
      linarith
    have h1t : 0 < 1 - p.muFactor := by linarith
    refine ⟨?_, ?_⟩
    · rw [← le_div_iff₀' h1t]
      have hin : 0 ≤ (env P S (oracle P S search solve)).innerCrit it (mult P S mu v it).1 := infNorm_nonneg _
      refine viol_le (div_nonneg hin h1t.le) fun i hi k => ?_
      rw [le_div_iff₀' h1t]
      have h1 := inner_bounds (N := N) (g := gradAt P S.force it) (sl := slacks (mult P S mu v it).1.V)
        (Lv := fun i => ((mult P S mu v it).1.ms i).Lvs) i hi
      have h2 := getD_le_infNorm (((mult P S mu v it).1.ms i).Lvs) k
      rw [hL2 i hi k, abs_mul, abs_of_pos h1t] at h2
      exact h2.trans h1
    · refine inner_le (sl := slacks (mult P S mu v it).1.V) (Lv := fun i => ((mult P S mu v it).1.ms i).Lvs)
        (hgood.trans (le_max_left _ _)) (fun i hi k => (h.2.2.1.1 i hi k).trans (le_max_left _ _))
        (fun i hi k => (h.2.2.1.2 i hi k).trans (le_max_left _ _))
        (fun i hi => (slacks_feasible h.1 hi.le).trans (hgood.trans (le_max_left _ _))) fun i hi => ?_
      refine le_trans ?_ (le_max_right _ _)
      refine infNorm_le_getD (mul_nonneg h1t.le (viol_nonneg P it.x it.u)) fun k => ?_
      rw [hL2 i hi k, abs_mul, abs_of_pos h1t]
      exact mul_le_mul_of_nonneg_left ((getD_le_infNorm _ k).trans (le_viol P it.x it.u hi)) h1t.le
  · obtain ⟨j, hj, hmu⟩ := hW.mu
    have hmu0 : 0 < max p.muInit p.muLb := hq.mu0
    have hmu1 : 0 < st.mu := by rw [hmu]; exact mul_pos (pow_pos th0 _) hmu0
    have hmu2 : st.mu ≤ max p.muInit p.muLb := by
      rw [hmu]
      have := mul_le_mul_of_nonneg_right (pow_le_one₀ th0.le th1.le : p.muFactor ^ j ≤ 1) hmu0.le
      rwa [one_mul] at this
    have hA : AtWork p P S M st :=
      ⟨hW.near.1, hW.near.2.2.2.2, hW.near.2.2.1, hW.far, ⟨hW.near.2.1, hW.ok⟩, ⟨j, hj, hmu⟩, ⟨hW.preg0, hW.preg1⟩, hW.kind, hW.ws⟩
    exact step1_of hp hth ham hL hC hS hse hc hW.near.2.1 hW.ok hmu1 hmu2 hW.preg0 hW.preg1 hW.near.2.2.2.2 hW.near.2.2.2.1
      hW.energy (hwork st hA)

/-- **C77** (partial)  ProxDDP on a convex linear-quadratic problem with equality path constraints whose first-order conditions
are nonsingular, for every horizon, dimensions, guess and multipliers of the right sizes, Newton update of the multipliers: if
the guess is not accepted at once and the full steps pass the line search, then the run reports convergence after at most `M + 1`
iterations, where `M` is logarithmic in the initial error, at a trajectory that satisfies the initial condition and the dynamics
exactly and all constraints within the tolerance.  What is missing: the acceptance of full steps is assumed (see
`C76_full_step_rejected` for a run where it fails); the penalty parameter must not reach its lower bound within `M` decreases. -/
theorem C77_run_converges_partial {p : ProxDDP.Params} (hp : p.Valid) (hb : 0 < p.dualBeta) (hth : 0 ≤ p.dphiThresh)
    (ham : p.alphaMin < 1) (htt : 0 ≤ p.targetTol) (hth0 : 0 < p.muFactor) (hth1 : p.muFactor < 1)
    (htols : 0.01 * p.targetDual ≤ (1 - p.muFactor) * p.targetTol)
    {P : Prob nx nu N} {H : Hess nx nu N} (hL : Spec.IsLQE P H) (hC : Spec.Convex N H) {S : Setup} (hS : EqSets P S)
    (hmode : S.mode = .newton) (search : SSt P → Search) (c1 : ℝ) (hse : ∀ s, AcceptsFullStep c1 p.dphiThresh (search s))
    (solve : SSt P → Option (Dir nx nu P.nc0)) {exact : Bool} (v0 : ℕ → List ℝ) (s0 : SSt P) (hv0 : Shape P v0)
    (hvs : Shape P s0.x.vs) (hG : GoodStart P S.force (s0.x.x 0))
    -- a solution with an error bound, the initial error, the rate
    {K B0 D q r : ℝ} {y : ∀ i, Fin (nx i) → ℝ} {w : ∀ i, Fin (nu i) → ℝ} {lam0 : Fin P.nc0 → ℝ} {lam : ∀ i, Fin (nx (i + 1)) → ℝ}
    {vb : ℕ → List ℝ} (hc : Consts p P S.force K B0 D q y w lam0 lam vb)
    (hB0 : max p.regInit p.regMin * Spec.dist2 N s0.x.x s0.x.u y w + max p.muInit p.muLb * Spec.vdist2 N P.nc v0 vb ≤ B0)
    (hD0 : Spec.dist2 N s0.x.x s0.x.u y w ≤ D) (hq1 : q + p.muFactor ≤ 1) (hqr : q ≤ r) (htr : p.muFactor * (q + p.muFactor) ≤ r)
    {M : ℕ} (hlast : r ^ M * (max p.muInit p.muLb * B0) ≤ p.targetTol ^ 2)
    -- tolerances and penalty parameters of the first `M` decreases
    (hsched : ∀ j, j ≤ M → p.innerTol0 * (min (p.muFactor ^ j * max p.muInit p.muLb) 0.99) ^ p.dualAlpha ≤
      (1 - p.muFactor) * (p.primTol0 * (min (p.muFactor ^ j * max p.muInit p.muLb) 0.99) ^ p.primAlpha))
    (hlb : ∀ j, 1 ≤ j → j ≤ M → p.muLb ≤ p.muFactor ^ j * max p.muInit p.muLb ∧
      ProxDDP.scalarClose p.closeEps (p.muFactor ^ j * max p.muInit p.muLb) p.muLb = false)
    (hit : M + 2 ≤ p.maxIters) (hal : 2 * M + 1 ≤ p.maxAlIters)
    -- the steps
    (hfar : ∃ i, i < N ∧ ∃ k, max (p.innerTol0 * (min (max p.muInit p.muLb) 0.99) ^ p.dualAlpha) p.targetDual <
      |(gradAt P S.force s0.x).Lus i k|)
    (hfirst : FullStep p P S exact H c1 solve (firstSt p P S search solve v0 s0))
    (hwork : ∀ st, AtWork p P S M st → FullStep p P S exact H c1 solve st) :
    ∃ F, ∀ fuel, F ≤ fuel → ∃ s, ProxDDP.run p (env P S (oracle P S search solve)) fuel v0 s0 = .done true s ∧
      s.numIters ≤ M + 1 ∧ Spec.Feasible P s.x.x s.x.u ∧ Spec.MaxViolation P s.x.x s.x.u p.targetTol ∧
      SmallGrad P S.force s.x (0.01 * p.targetDual) ∧ Spec.dist2 N s.x.x s.x.u y w ≤ D := by
  obtain ⟨t1, t2, t3, t4, t5⟩ := firstSt_eq p P S search solve v0 s0
  set mu := max p.muInit p.muLb with hmu
  have hmu0 : 0 < mu := hp.muLb.trans_le (le_max_right _ _)
  have hpreg : 0 < max p.regInit p.regMin := hp.regMin.trans_le (le_max_right _ _)
  have hB00 : 0 ≤ B0 := le_trans (add_nonneg (mul_nonneg hpreg.le (dist2_nonneg _ _ _ _)) (mul_nonneg hmu0.le (vdist2_nonneg _ _ _))) hB0
  have hq : (ProxDDP.Plan.mk mu B0 M q r).Fits p :=
    ⟨hmu0, hB00, hth0, hc.q0, hq1, hth1, hqr, htr, htt, hp.targetDual, htols, hsched, hlast, hlb, hp.regMin, hp.regDec1⟩
  have hF := eq_facts hp hth ham hL hC hS hmode hse hc hq hwork
  set e := env P S (oracle P S search solve) with he
  set C := ctx P S.force (0.01 * p.targetDual) D y w vb with hCtx
  -- the first step
  obtain ⟨x1, hst⟩ := step1_of hp hth ham hL hC hS hse hc (st := firstSt p P S search solve v0 s0) (by rw [t1]; exact hvs)
    (by rw [t2]; exact hv0) (by rw [t3]; exact hmu0) (by rw [t3]) (by rw [t4]; exact hpreg) (by rw [t4]) (by rw [t1]; exact hG)
    (by rw [t1]; exact hD0) (by rw [t1, t2, t3, t4]; exact hB0) hfirst
  obtain ⟨ws, hw⟩ : ∃ ws, mult P S mu v0 s0.x = (ws, (mult P S mu v0 s0.x).2) := ⟨_, rfl⟩
  obtain ⟨pr, hpr⟩ : ∃ pr, (mult P S mu v0 s0.x).2 = some pr := ⟨_, rfl⟩
  rw [hpr] at hw
  have hit0 : (ProxDDP.initRun p v0 s0).innerTol = max (p.innerTol0 * (min mu 0.99) ^ p.dualAlpha) p.targetDual := rfl
  obtain ⟨i0, hi0, k0, big⟩ := hfar
  have hgo : ¬ (e.innerCrit s0.x ws ≤ (ProxDDP.initRun p v0 s0).innerTol ∨ (e.dualInf s0.x ≤ p.targetDual ∧ pr ≤ p.targetTol)) := by
    rintro (h | ⟨h, -⟩)
    · have := (inner_ge (N := N) (g := gradAt P S.force s0.x) (sl := slacks ws.V) (Lv := fun i => (ws.ms i).Lvs)).2 i0 hi0 k0
      rw [hit0] at h
      exact absurd (this.trans h) (not_le.2 big)
    · have := (dual_bounds (N := N) (g := gradAt P S.force s0.x) (sl := fun _ => []) (Lv := fun _ => [])).2 i0 hi0 k0
      exact absurd (this.trans h) (not_le.2 ((le_max_right _ _).trans_lt big))
  have hnp : ProxDDP.nextPreg p (ProxDDP.initRun p v0 s0).pregLast = max p.regInit p.regMin := if_pos rfl
  obtain ⟨n, hn⟩ : ∃ n, p.maxAlIters = n + 1 := ⟨p.maxAlIters - 1, by omega⟩
  have hends : ProxDDP.Ends C p e (n + 1) M (ProxDDP.initRun p v0 s0) := by
    refine ProxDDP.ends_step (q := ⟨mu, B0, M, q, r⟩) hq hb hF (k := 0) (j := 0) (B := B0) ?_ hv0 (Nat.zero_add M) le_rfl ?_ le_rfl ?_ ?_ ?_ hw hgo hst ?_ ?_
      (by omega) (by show 0 + M + 2 ≤ _; omega)
    · intro m' s' _ hH hk hn' hit'
      refine ProxDDP.ends_head hq hb hF n m' s' hH ?_ hit'
      rcases hk with h | h
      · exact Or.inl ⟨h, by omega⟩
      · exact Or.inr ⟨h, by omega⟩
    · show mu = p.muFactor ^ 0 * mu
      rw [pow_zero, one_mul]
    · show mu * B0 ≤ r ^ 0 * (mu * B0)
      rw [pow_zero, one_mul]
    · rw [hit0]
      refine le_trans ?_ (le_max_right _ _)
      have := hp.targetDual
      linarith
    · exact le_max_right _ _
    · rw [hnp]
      exact hB0
    · rw [hnp]
      exact ⟨le_max_right _ _, le_rfl⟩
  obtain ⟨F, hFu⟩ := hends
  refine ⟨F, fun fuel hf => ?_⟩
  obtain ⟨s, r1, r2, r3, r4, -, -⟩ := hFu fuel hf
  refine ⟨s, ?_, ?_, r2.1, fun i hi a ha => ((viol_max P s.x.x s.x.u) i hi a ha).trans r3, r2.2.2.1, r2.2.2.2.1⟩
  · show ProxDDP.outer p e fuel p.maxAlIters _ = _
    rw [hn]
    exact r1
  · have : s.numIters ≤ 0 + M + 1 := r4
    omega

end Aligator.Link
