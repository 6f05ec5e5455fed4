import Verif.Spec.SolverIneq
import Verif.Props.SolverEqBound

/-!
# ProxDDP on linear-quadratic problems with inequality path constraints (C78)
-/

namespace Aligator.Link

open Matrix CSets Lag LQ

variable {nx nu : ℕ → ℕ} {N : ℕ}

/-! ### The subproblem -/

/-- The product sets are made of sets of the library; the buffers have their dimensions. -/
structure LibSets (P : Prob nx nu N) (S : Setup) (ks : ℕ → List Kind) : Prop where
  lib : ∀ i, i ≤ N → Library (S.op i) (ks i)
  kinds : ∀ i, i ≤ N → (ks i).length = P.nc i
  out : ∀ i, i ≤ N → (S.out i).length = P.nc i

theorem lib_shapes {P : Prob nx nu N} {S : Setup} {ks : ℕ → List Kind} (hS : LibSets P S ks) {v vs dv : ℕ → List ℝ} (hv : Shape P v)
    (hvs : Shape P vs) (hd : Shape P dv) (x : ∀ i, Fin (nx i) → ℝ) (u : ∀ i, Fin (nu i) → ℝ) :
    Shapes (P.spec x u) S.op ks v vs S.out dv (fun i => List.replicate (P.nc i) false) where
  lib := hS.lib
  kinds i hi := by rw [hS.kinds i hi, ncOf_spec]
  prev i hi := by rw [hv i hi, ncOf_spec]
  cur i hi := by rw [hvs i hi, ncOf_spec]
  out i hi := by rw [hS.out i hi, ncOf_spec]
  dv i hi := by rw [hd i hi, ncOf_spec]
  outA i _ := by simp [ncOf_spec]

/-- The kind of a row. -/
def kindAt (ks : ℕ → List Kind) (i k : ℕ) : Kind := (ks i).getD k .eq

theorem lib_cone {P : Prob nx nu N} {S : Setup} {ks : ℕ → List Kind} (hS : LibSets P S ks) {i : ℕ} (hi : i ≤ N) {z : List ℝ}
    (h : z.length = P.nc i) {k : ℕ} (hk : k < P.nc i) :
    ((S.op i).normalConeProjection z (S.out i)).getD k 0 = (kindAt ks i k).cone (z.getD k 0) := by
  have hl := hS.kinds i hi
  rw [(hS.lib i hi).hasKinds.cone z (S.out i) (h.trans hl.symm) ((hS.out i hi).trans hl.symm),
    getD_zipWith_kind _ _ _ _ _ (h.trans hl.symm) (h ▸ hk), kindAt, List.getD_eq_getElem _ _ (hl ▸ hk), List.getD_eq_getElem _ _ (h ▸ hk)]

theorem lib_flag {P : Prob nx nu N} {S : Setup} {ks : ℕ → List Kind} (hS : LibSets P S ks) {i : ℕ} (hi : i ≤ N) {z : List ℝ}
    (h : z.length = P.nc i) {k : ℕ} (hk : k < P.nc i) : flagAt (ks i) z k = (kindAt ks i k).flag (z.getD k 0) := by
  have hl := hS.kinds i hi
  rw [flagAt, getD_zipWith_kind _ _ _ _ _ (h.trans hl.symm) (h ▸ hk), kindAt, List.getD_eq_getElem _ _ (hl ▸ hk),
    List.getD_eq_getElem _ _ (h ▸ hk)]

/-- The shifted constraint value of a row. -/
def shiftV (P : Prob nx nu N) (mu : ℝ) (v : ℕ → List ℝ) (x : ∀ i, Fin (nx i) → ℝ) (u : ∀ i, Fin (nu i) → ℝ) (i k : ℕ) : ℝ :=
  (Spec.cstr P x u i).getD k 0 + mu * (v i).getD k 0

theorem lib_rows {P : Prob nx nu N} {H : Hess nx nu N} (hL : Spec.IsLQE P H) {S : Setup} {ks : ℕ → List Kind} (hS : LibSets P S ks) {exact : Bool} {s : SSt P}
    {d : Dir nx nu P.nc0} (hmu : 0 < s.mu) (hv : Shape P s.prevV) (hvs : Shape P s.x.vs) (hs : Solves P S exact H s d) :
    (P.hx (s.x.x 0) *ᵥ d.dx 0 + P.h (s.x.x 0) = 0) ∧
    (∀ i, i < N → P.fx i (s.x.x i) (s.x.u i) *ᵥ d.dx i + P.fu i (s.x.x i) (s.x.u i) *ᵥ d.du i +
      (P.f i (s.x.x i) (s.x.u i) - s.x.x (i + 1)) = d.dx (i + 1)) ∧
    (∀ i, i ≤ N → ∀ k, k < P.nc i → s.mu * (LQ.Spec.ladd (s.x.vs i) (d.dv i)).getD k 0 =
      (kindAt ks i k).cone (shiftV P s.mu s.prevV s.x.x s.x.u i k) +
        if (kindAt ks i k).flag (shiftV P s.mu s.prevV s.x.x s.x.u i k) then (cdir P s.x.x s.x.u d.dx d.du i).getD k 0 else 0) ∧
    (∀ i, i < N → (S.force = true → i ≠ 0) →
      (compute (pdata (P.spec s.x.x s.x.u)) (some (lamNew s.x.lam d)) (fun i => LQ.Spec.ladd (s.x.vs i) (d.dv i))).Lxs i +
      (H.Lxx i *ᵥ d.dx i + s.preg • d.dx i + H.Lxu i *ᵥ d.du i) = 0) ∧
    (∀ i, i < N →
      (compute (pdata (P.spec s.x.x s.x.u)) (some (lamNew s.x.lam d)) (fun i => LQ.Spec.ladd (s.x.vs i) (d.dv i))).Lus i +
      ((H.Lxu i)ᵀ *ᵥ d.dx i + (H.Luu i *ᵥ d.du i + s.preg • d.du i)) = 0) ∧
    ((S.force = true → N ≠ 0) →
      (compute (pdata (P.spec s.x.x s.x.u)) (some (lamNew s.x.lam d)) (fun i => LQ.Spec.ladd (s.x.vs i) (d.dv i))).Lxs N +
      (H.termLxx *ᵥ d.dx N + s.preg • d.dx N) = 0) := by
  obtain ⟨hk, hdv⟩ := (solves_iff P S exact H s d).1 hs
  have hsh := lib_shapes hS hv hvs hdv s.x.x s.x.u
  obtain ⟨f1, f2, f3, f4⟩ := hL.free.flat
  have ih : ∀ i, initHess H.initHxx i = 0 := by intro i; rw [f4]; cases i <;> rfl
  let st : LQ.Spec.Step nx nu (P.spec s.x.x s.x.u).nc0 := ⟨d.dx, d.du, d.dlam.init, d.dlam.dyn, d.dv⟩
  have hkk := (kkt_rows (P := P.spec s.x.x s.x.u) (op := S.op) (ks := ks) (vPrev := s.prevV)
    (vs := s.x.vs) (out := S.out) (outA := fun i => List.replicate (P.nc i) false) (s := st) H s.mu s.preg exact S.force s.x.lam s.x.x s.x.u hmu.ne' hsh).1 hk
  obtain ⟨h0, h1, h2, h3, h4⟩ := hkk
  have hdrop : ∀ i, (S.force = true → i ≠ 0) →
      dropped (P.spec s.x.x s.x.u) H S.op s.mu s.preg exact S.force s.x.lam s.prevV s.x.vs S.out s.x.x s.x.u i = 0 := by
    intro i hi
    unfold dropped
    rw [sub_eq_zero]
    show (if S.force then (gradNow (P.spec s.x.x s.x.u) s.x.lam s.x.vs).setX 0 0 else gradNow (P.spec s.x.x s.x.u) s.x.lam s.x.vs).Lxs i = _
    split
    · rename_i hf
      exact Function.update_of_ne (hi hf) _ _
    · rfl
  refine ⟨h0, h1, fun i hi k hk' => ?_, fun i hi hf => ?_, fun i hi => ?_, fun hf => ?_⟩
  · have r := h2 i hi k (by rw [ncOf_spec]; exact hk')
    have ls : (shiftedAt (P.spec s.x.x s.x.u) s.mu s.prevV s.x.x s.x.u i).length = P.nc i := by
      simp [shiftedAt, cstr_length, ncOf_spec, hv i hi]
    unfold Row at r
    rw [lib_flag hS hi ls hk', lib_cone hS hi ls hk'] at r
    have e1 : (shiftedAt (P.spec s.x.x s.x.u) s.mu s.prevV s.x.x s.x.u i).getD k 0 = shiftV P s.mu s.prevV s.x.x s.x.u i k := by
      unfold shiftedAt
      rw [getD_zipWith_add _ _ (by rw [List.length_map, hv i hi, ← values_c, values_c_length]), getD_map_mul, ← values_c]
      rfl
    have e2 : dirAt (P.spec s.x.x s.x.u) st i k = (cdir P s.x.x s.x.u d.dx d.du i).getD k 0 := by
      unfold dirAt cdir
      split <;> rfl
    rw [e1, e2] at r
    rw [getD_ladd (by rw [hvs i hi, hdv i hi])]
    set a := (kindAt ks i k).cone (shiftV P s.mu s.prevV s.x.x s.x.u i k)
    set b := if (kindAt ks i k).flag (shiftV P s.mu s.prevV s.x.x s.x.u i k) then (cdir P s.x.x s.x.u d.dx d.du i).getD k 0 else 0
    have r' : b + (a - s.mu * (s.x.vs i).getD k 0) - s.mu * (d.dv i).getD k 0 = 0 := r
    linarith
  · have r := (h3 i hi).1
    rw [hdrop i hf, add_zero] at r
    have r' : (compute (pdata (P.spec s.x.x s.x.u)) (some (lamNew s.x.lam d)) (fun i => LQ.Spec.ladd (s.x.vs i) (d.dv i))).Lxs i +
      ((H.Lxx i + s.preg • 1 + (if exact then H.Hxx i else 0) + initHess H.initHxx i) *ᵥ d.dx i +
        (H.Lxu i + (if exact then H.Hxu i else 0)) *ᵥ d.du i) = 0 := r
    rw [ih, f1, f2] at r'
    simpa only [ite_self, add_zero, add_mulVec, smul_mulVec, one_mulVec] using r'
  · have r' : (compute (pdata (P.spec s.x.x s.x.u)) (some (lamNew s.x.lam d)) (fun i => LQ.Spec.ladd (s.x.vs i) (d.dv i))).Lus i +
      ((H.Lxu i + (if exact then H.Hxu i else 0))ᵀ *ᵥ d.dx i +
        (H.Luu i + s.preg • 1 + (if exact then H.Huu i else 0)) *ᵥ d.du i) = 0 := (h3 i hi).2
    rw [f2, f3] at r'
    simpa only [ite_self, add_zero, add_mulVec, smul_mulVec, one_mulVec] using r'
  · rw [hdrop N hf, add_zero] at h4
    have r' : (compute (pdata (P.spec s.x.x s.x.u)) (some (lamNew s.x.lam d)) (fun i => LQ.Spec.ladd (s.x.vs i) (d.dv i))).Lxs N +
      ((H.termLxx + s.preg • 1 + initHess H.initHxx N) *ᵥ d.dx N) = 0 := h4
    rw [ih] at r'
    simpa only [add_zero, add_mulVec, smul_mulVec, one_mulVec] using r'

/-- What a full step along a solution of the linear system does. -/
structure StepI (P : Prob nx nu N) (ks : ℕ → List Kind) (force : Bool) (s : SSt P) (d : Dir nx nu P.nc0) (it : Iter nx nu P.nc0) :
    Prop where
  x : it.x = fun i => s.x.x i + d.dx i
  u : it.u = fun i => s.x.u i + d.du i
  shape : Shape P it.vs
  feasible : Spec.Feasible P it.x it.u
  Lx : ∀ i, i ≤ N → (gradAt P force it).Lxs i = -(s.preg • d.dx i)
  Lu : ∀ i, i < N → (gradAt P force it).Lus i = -(s.preg • d.du i)
  row : ∀ i, i ≤ N → ∀ k, k < P.nc i → s.mu * (it.vs i).getD k 0 = (kindAt ks i k).cone (shiftV P s.mu s.prevV s.x.x s.x.u i k) +
    if (kindAt ks i k).flag (shiftV P s.mu s.prevV s.x.x s.x.u i k) then
      shiftV P s.mu s.prevV it.x it.u i k - shiftV P s.mu s.prevV s.x.x s.x.u i k else 0

/-- **C78** On every linear-quadratic problem with path constraints in any sets of the library (any horizon, dimensions, iterate,
multipliers, penalty parameter, regularisation, Hessian option, convex or not), a full step along the solution of the linear
system leads to a trajectory that satisfies the initial condition and the dynamics exactly, whose Lagrangian gradient is the step
times minus the regularisation, and whose multipliers are the tangent at the old iterate of the projection of the shifted
constraint value. -/
theorem C78_full_step {P : Prob nx nu N} {H : Hess nx nu N} (hL : Spec.IsLQE P H) {S : Setup} {ks : ℕ → List Kind} (hS : LibSets P S ks) {exact : Bool}
    {s : SSt P} {d : Dir nx nu P.nc0} (hmu : 0 < s.mu) (hv : Shape P s.prevV) (hvs : Shape P s.x.vs)
    (hs : Solves P S exact H s d) (hG : GoodStart P S.force (s.x.x 0)) :
    StepI P ks S.force s d (linearStep s.x (d.forced S.force) 1) := by
  obtain ⟨q0, q1, qc, r1, r2, r3⟩ := lib_rows hL hS hmu hv hvs hs
  have hdv := hs.2
  have h0 : S.force = true → d.dx 0 = 0 := by
    intro hf
    obtain ⟨h1, h2⟩ := hG hf
    refine h2 _ ?_
    rwa [h1, add_zero] at q0
  obtain ⟨e1, e2, e3, e4⟩ := forced_dx h0
  set it := linearStep s.x (d.forced S.force) 1 with hit
  have hx : it.x = fun i => s.x.x i + d.dx i := by
    funext i
    show s.x.x i + (1 : ℝ) • (d.forced S.force).dx i = _
    rw [e1, one_smul]
  have hu : it.u = fun i => s.x.u i + d.du i := by
    funext i
    show s.x.u i + (1 : ℝ) • (d.forced S.force).du i = _
    rw [e2, one_smul]
  have hl : it.lam.dyn = (lamNew s.x.lam d).dyn := by
    funext i
    show s.x.lam.dyn i + (1 : ℝ) • (d.forced S.force).dlam.dyn i = s.x.lam.dyn i + d.dlam.dyn i
    rw [e3, one_smul]
  have hl0 : S.force = false → it.lam.init = (lamNew s.x.lam d).init := by
    intro hf
    show s.x.lam.init + (1 : ℝ) • (d.forced S.force).dlam.init = s.x.lam.init + d.dlam.init
    rw [e4 hf, one_smul]
  have hvv : it.vs = fun i => LQ.Spec.ladd (s.x.vs i) (d.dv i) := by
    funext i
    have e5 : (d.forced S.force).dv = d.dv := by unfold Dir.forced; split <;> rfl
    show List.zipWith (· + ·) (s.x.vs i) (((d.forced S.force).dv i).map ((1 : ℝ) * ·)) = _
    rw [e5]
    simp [LQ.Spec.ladd]
  set Q := P.spec s.x.x s.x.u with hQ
  have hco : ∀ i, (S.force = true → i ≠ 0) →
      base (pdata (P.spec it.x it.u)) (some it.lam) i = base (pdata Q) (some (lamNew s.x.lam d)) i := by
    intro i hi
    cases i with
    | zero =>
      have hf : S.force = false := by
        cases h : S.force
        · rfl
        · exact absurd rfl (hi h)
      show (P.hx (it.x 0))ᵀ *ᵥ it.lam.init = (P.hx (s.x.x 0))ᵀ *ᵥ (lamNew s.x.lam d).init
      rw [hl0 hf, hx]
      dsimp only
      rw [hL.free.hx]
    | succ i =>
      show -it.lam.dyn i = -(lamNew s.x.lam d).dyn i
      rw [hl]
  obtain ⟨c1, c2, c3⟩ := compute_eq (pdata (P.spec it.x it.u)) (some it.lam) it.vs
  obtain ⟨b1, b2, b3⟩ := compute_eq (pdata Q) (some (lamNew s.x.lam d)) (fun i => LQ.Spec.ladd (s.x.vs i) (d.dv i))
  obtain ⟨sc, scN⟩ := spec_c hL s.x.x it.x s.x.u it.u
  obtain ⟨ga, gb⟩ := gradAt_eq P S.force it
  refine ⟨hx, hu, fun i hi => ?_, ⟨?_, fun i hi => ?_⟩, fun i hi => ?_, fun i hi => ?_, fun i hi k hk => ?_⟩
  · rw [hvv]
    simp [LQ.Spec.ladd, hvs i hi, hdv i hi]
  · rw [hx]
    dsimp only
    rw [hL.free.h, add_comm]
    exact q0
  · rw [hx, hu]
    dsimp only
    rw [hL.free.f, ← q1 i hi]
    abel
  · by_cases hf : S.force = true ∧ i = 0
    · obtain ⟨hf, rfl⟩ := hf
      rw [h0 hf, smul_zero, neg_zero]
      unfold gradAt
      dsimp only
      rw [if_pos hf]
      simp [Grad.setX]
    · have hi' : S.force = true → i ≠ 0 := fun h h' => hf ⟨h, h'⟩
      rw [ga i hi']
      rcases Nat.lt_or_eq_of_le hi with hi | rfl
      · have r := r1 i hi hi'
        rw [b1 i hi] at r
        rw [c1 i hi, hco i hi', eq_neg_iff_add_eq_zero]
        refine Eq.trans ?_ r
        have k1 : (pdata (P.spec it.x it.u)).Lx i = (pdata Q).Lx i + (H.Lxx i *ᵥ d.dx i + H.Lxu i *ᵥ d.du i) := by
          show P.lx i (it.x i) (it.u i) = _
          rw [hx, hu]
          exact hL.free.lx i _ _ _ _
        have k2 : dynX (pdata (P.spec it.x it.u)) (some it.lam) i = dynX (pdata Q) (some (lamNew s.x.lam d)) i := by
          show (P.fx i (it.x i) (it.u i))ᵀ *ᵥ it.lam.dyn i = (P.fx i (s.x.x i) (s.x.u i))ᵀ *ᵥ (lamNew s.x.lam d).dyn i
          rw [hx, hu, hl]
          exact congrArg (fun M => Mᵀ *ᵥ (lamNew s.x.lam d).dyn i) (hL.free.fx i _ _ _ _)
        have k3 : cstrX (it.vs i) ((pdata (P.spec it.x it.u)).cstr i) 0 =
            cstrX (LQ.Spec.ladd (s.x.vs i) (d.dv i)) ((pdata Q).cstr i) 0 := by
          show cstrX (it.vs i) (((P.spec it.x it.u).c i).map cdata) 0 = cstrX _ ((Q.c i).map cdata) 0
          rw [sc i hi, hvv]
        rw [k1, k2, k3]
        abel
      · have r := r3 hi'
        rw [b2] at r
        rw [c2, hco _ hi', eq_neg_iff_add_eq_zero]
        refine Eq.trans ?_ r
        have k1 : (pdata (P.spec it.x it.u)).termLx = (pdata Q).termLx + H.termLxx *ᵥ d.dx i := by
          show P.lNx (it.x i) = _
          rw [hx]
          exact hL.free.lNx _ _
        have k3 : cstrX (it.vs i) (pdata (P.spec it.x it.u)).termCstr 0 =
            cstrX (LQ.Spec.ladd (s.x.vs i) (d.dv i)) (pdata Q).termCstr 0 := by
          show cstrX (it.vs i) ((P.spec it.x it.u).cN.map cdata) 0 = cstrX _ (Q.cN.map cdata) 0
          rw [scN, hvv]
        rw [k1, k3]
        abel
  · have r := r2 i hi
    rw [b3 i hi] at r
    rw [gb, c3 i hi, eq_neg_iff_add_eq_zero]
    refine Eq.trans ?_ r
    have k1 : (pdata (P.spec it.x it.u)).Lu i = (pdata Q).Lu i + ((H.Lxu i)ᵀ *ᵥ d.dx i + H.Luu i *ᵥ d.du i) := by
      show P.lu i (it.x i) (it.u i) = _
      rw [hx, hu]
      exact hL.free.lu i _ _ _ _
    have k2 : dynU (pdata (P.spec it.x it.u)) (some it.lam) i = dynU (pdata Q) (some (lamNew s.x.lam d)) i := by
      show (P.fu i (it.x i) (it.u i))ᵀ *ᵥ it.lam.dyn i = (P.fu i (s.x.x i) (s.x.u i))ᵀ *ᵥ (lamNew s.x.lam d).dyn i
      rw [hx, hu, hl]
      exact congrArg (fun M => Mᵀ *ᵥ (lamNew s.x.lam d).dyn i) (hL.free.fu i _ _ _ _)
    have k3 : cstrU (it.vs i) ((pdata (P.spec it.x it.u)).cstr i) 0 =
        cstrU (LQ.Spec.ladd (s.x.vs i) (d.dv i)) ((pdata Q).cstr i) 0 := by
      show cstrU (it.vs i) (((P.spec it.x it.u).c i).map cdata) 0 = cstrU _ ((Q.c i).map cdata) 0
      rw [sc i hi, hvv]
    rw [k1, k2, k3]
    abel
  · have h := qc i hi k hk
    have e : shiftV P s.mu s.prevV it.x it.u i k - shiftV P s.mu s.prevV s.x.x s.x.u i k =
        (cdir P s.x.x s.x.u d.dx d.du i).getD k 0 := by
      unfold shiftV
      rw [hx, hu, cstr_add hL]
      ring
    rw [e, hvv]
    exact h

/-! ### Sets -/

/-- The set of the library for a component. -/
def _root_.Aligator.Link.Spec.SetKind.kind : Spec.SetKind → Kind
  | .eq => .eq
  | .nonpos => .orth
  | .box l u => .box l u

theorem kindAt_map (sk : ℕ → List Spec.SetKind) (i k : ℕ) :
    kindAt (fun i => (sk i).map Spec.SetKind.kind) i k = ((sk i).getD k .eq).kind := by
  unfold kindAt
  exact List.getD_map (f := Spec.SetKind.kind) (d := .eq) ..

/-- The projection operators of the library split a number in a value allowed and an element of the normal cone there. -/
theorem split_normal (K : Spec.SetKind) (hne : K.set.Nonempty) (z : ℝ) : Spec.Normal K.set (z - K.kind.cone z) (K.kind.cone z) := by
  cases K with
  | eq =>
    simp only [Spec.SetKind.set, Spec.SetKind.kind, Kind.cone, Spec.Normal, Set.mem_singleton_iff, sub_self, true_and]
    rintro y rfl
    simp
  | nonpos =>
    simp only [Spec.SetKind.set, Spec.SetKind.kind, Kind.cone, Spec.Normal, Set.mem_Iic]
    refine ⟨by linarith [le_max_left z 0], fun y hy => ?_⟩
    rcases le_total z 0 with h | h
    · rw [max_eq_right h]; simp
    · rw [max_eq_left h]; nlinarith
  | box l u =>
    simp only [Spec.SetKind.set, Spec.SetKind.kind, Kind.cone, Spec.Normal, Set.mem_Icc]
    have hlu : l ≤ u := by
      obtain ⟨a, ha⟩ := hne
      exact ha.1.trans ha.2
    rw [sub_sub_cancel]
    refine ⟨⟨le_max_right _ _, max_le (min_le_right _ _) hlu⟩, fun y hy => ?_⟩
    rcases le_total z u with h | h
    · rw [min_eq_left h]
      rcases le_total z l with h' | h'
      · rw [max_eq_right h']; nlinarith [hy.1]
      · rw [max_eq_left h']; simp
    · rw [min_eq_right h, max_eq_left hlu]
      nlinarith [hy.2]

theorem normal_scale {C : Set ℝ} {c v mu : ℝ} (hmu : 0 < mu) (h : Spec.Normal C c (mu * v)) : Spec.Normal C c v :=
  ⟨h.1, fun y hy => by
    have := h.2 y hy
    rw [mul_assoc] at this
    exact nonpos_of_mul_nonpos_right this hmu⟩

theorem normal_mono {C : Set ℝ} {c v c' v' : ℝ} (h : Spec.Normal C c v) (h' : Spec.Normal C c' v') : 0 ≤ (v - v') * (c - c') := by
  have h1 := h.2 c' h'.1
  have h2 := h'.2 c h.1
  nlinarith

/-! ### Distance to the solutions -/

/-- The multipliers are those of the penalised problem at the iterate: the projections of the shifted constraint values over the
penalty parameter. -/
def Resolved (P : Prob nx nu N) (ks : ℕ → List Kind) (mu : ℝ) (v : ℕ → List ℝ) (it : Iter nx nu P.nc0) : Prop :=
  ∀ i, i ≤ N → ∀ k, k < P.nc i → mu * (it.vs i).getD k 0 = (kindAt ks i k).cone (shiftV P mu v it.x it.u i k)

/-- Between the old and the new iterate every projection is as the linear system took it to be: no constraint changed side. -/
def SamePiece (P : Prob nx nu N) (ks : ℕ → List Kind) (s : SSt P) (it : Iter nx nu P.nc0) : Prop :=
  ∀ i, i ≤ N → ∀ k, k < P.nc i → (kindAt ks i k).cone (shiftV P s.mu s.prevV it.x it.u i k) =
    (kindAt ks i k).cone (shiftV P s.mu s.prevV s.x.x s.x.u i k) +
      if (kindAt ks i k).flag (shiftV P s.mu s.prevV s.x.x s.x.u i k) then
        shiftV P s.mu s.prevV it.x it.u i k - shiftV P s.mu s.prevV s.x.x s.x.u i k else 0

theorem StepI.resolved {P : Prob nx nu N} {ks : ℕ → List Kind} {force : Bool} {s : SSt P} {d : Dir nx nu P.nc0}
    {it : Iter nx nu P.nc0} (hF : StepI P ks force s d it) (h : SamePiece P ks s it) : Resolved P ks s.mu s.prevV it :=
  fun i hi k hk => (hF.row i hi k hk).trans (h i hi k hk).symm

/-- The slack of a row: the value allowed nearest to the shifted constraint value. -/
noncomputable def slackV (P : Prob nx nu N) (ks : ℕ → List Kind) (mu : ℝ) (v : ℕ → List ℝ) (it : Iter nx nu P.nc0) (i k : ℕ) : ℝ :=
  shiftV P mu v it.x it.u i k - (kindAt ks i k).cone (shiftV P mu v it.x it.u i k)

theorem resolved_value {P : Prob nx nu N} {ks : ℕ → List Kind} {mu : ℝ} {v : ℕ → List ℝ} {it : Iter nx nu P.nc0}
    (h : Resolved P ks mu v it) {i : ℕ} (hi : i ≤ N) {k : ℕ} (hk : k < P.nc i) :
    (Spec.cstr P it.x it.u i).getD k 0 = slackV P ks mu v it i k + mu * ((it.vs i).getD k 0 - (v i).getD k 0) := by
  have := h i hi k hk
  unfold slackV
  rw [← this, shiftV]
  ring

theorem resolved_normal {P : Prob nx nu N} {sk : ℕ → List Spec.SetKind} {mu : ℝ} (hmu : 0 < mu) {v : ℕ → List ℝ}
    {it : Iter nx nu P.nc0} (h : Resolved P (fun i => (sk i).map Spec.SetKind.kind) mu v it) {i : ℕ} (hi : i ≤ N) {k : ℕ}
    (hk : k < P.nc i) (hne : ((sk i).getD k .eq).set.Nonempty) :
    Spec.Normal ((sk i).getD k .eq).set (slackV P (fun i => (sk i).map Spec.SetKind.kind) mu v it i k) ((it.vs i).getD k 0) := by
  refine normal_scale hmu ?_
  rw [h i hi k hk]
  unfold slackV
  rw [kindAt_map]
  exact split_normal _ hne _

theorem kktI_shape {P : Prob nx nu N} {sk : ℕ → List Spec.SetKind} {fixed : Prop} {x : ∀ i, Fin (nx i) → ℝ} {u : ∀ i, Fin (nu i) → ℝ}
    {lam0 : Fin P.nc0 → ℝ} {lam : ∀ i, Fin (nx (i + 1)) → ℝ} {v : ℕ → List ℝ} (h : Spec.KKTPointI P sk fixed x u lam0 lam v) :
    Shape P v :=
  fun i hi => (h.sizes i hi).trans (cstr_length' P x u i)

/-- The gradient of the Lagrangian at a feasible trajectory along the way to a first-order optimal point. -/
theorem pair_to_solution {P : Prob nx nu N} {H : Hess nx nu N} (hL : Spec.IsLQE P H) {sk : ℕ → List Spec.SetKind} {fixed : Prop}
    {it : Iter nx nu P.nc0} (hsh : Shape P it.vs) (hfe : Spec.Feasible P it.x it.u) {y : ∀ i, Fin (nx i) → ℝ}
    {w : ∀ i, Fin (nu i) → ℝ} {lam0 : Fin P.nc0 → ℝ} {lam : ∀ i, Fin (nx (i + 1)) → ℝ} {vb : ℕ → List ℝ}
    (hk : Spec.KKTPointI P sk fixed y w lam0 lam vb) (ex0 : fixed → it.x 0 - y 0 = 0) :
    pair (compute (pdata (P.spec it.x it.u)) (some it.lam) it.vs) N (fun i => it.x i - y i) (fun i => it.u i - w i) =
      quad H (fun i => it.x i - y i) (fun i => it.u i - w i) + ∑ i ∈ Finset.range (N + 1), ∑ k ∈ Finset.range (P.nc i),
        ((it.vs i).getD k 0 - (vb i).getD k 0) * ((Spec.cstr P it.x it.u i).getD k 0 - (Spec.cstr P y w i).getD k 0) := by
  set ex : ∀ i, Fin (nx i) → ℝ := fun i => it.x i - y i with hex
  set eu : ∀ i, Fin (nu i) → ℝ := fun i => it.u i - w i with heu
  have exy : (fun i => y i + ex i) = it.x := by funext i; simp [hex]
  have ewu : (fun i => w i + eu i) = it.u := by funext i; simp [heu]
  have k0 := (lag_deriv hL y w lam0 lam (kktI_shape hk) ex eu).unique (hk.stationary ex eu ex0)
  rw [pair_spec P it.x it.u it.lam it.vs hsh]
  replace k0 := (pair_spec P y w ⟨lam0, lam⟩ vb (kktI_shape hk) ex eu).symm.trans k0
  -- the linear constraints
  have z0 : P.hx (y 0) *ᵥ ex 0 = 0 := by
    have a1 := hL.free.h (y 0) (ex 0)
    have a3 : y 0 + ex 0 = it.x 0 := by simp [hex]
    rw [a3] at a1
    have a1' : P.h (it.x 0) = P.h (y 0) + P.hx (y 0) *ᵥ ex 0 := a1
    rw [hfe.init, hk.feasible.init, zero_add] at a1'
    exact a1'.symm
  have z0' : P.hx (it.x 0) *ᵥ ex 0 = 0 := by
    have a2 := hL.free.hx (y 0) (ex 0)
    have a3 : y 0 + ex 0 = it.x 0 := by simp [hex]
    rw [a3] at a2
    have a2' : P.hx (it.x 0) = P.hx (y 0) := a2
    rw [a2', z0]
  have z1 : ∀ i, i < N → P.fx i (y i) (w i) *ᵥ ex i + P.fu i (y i) (w i) *ᵥ eu i - ex (i + 1) = 0 := by
    intro i hi
    have a1 : P.f i (y i + ex i) (w i + eu i) = P.f i (y i) (w i) + (P.fx i (y i) (w i) *ᵥ ex i + P.fu i (y i) (w i) *ᵥ eu i) :=
      hL.free.f i (y i) (w i) (ex i) (eu i)
    have a3 : y i + ex i = it.x i := by simp [hex]
    have a4 : w i + eu i = it.u i := by simp [heu]
    rw [a3, a4, hfe.dynamics i hi, hk.feasible.dynamics i hi] at a1
    rw [sub_eq_zero]
    show _ = it.x (i + 1) - y (i + 1)
    rw [a1]
    abel
  have z1' : ∀ i, i < N → P.fx i (it.x i) (it.u i) *ᵥ ex i + P.fu i (it.x i) (it.u i) *ᵥ eu i - ex (i + 1) = 0 := by
    intro i hi
    have a1 : P.fx i (y i + ex i) (w i + eu i) = P.fx i (y i) (w i) := hL.free.fx i (y i) (w i) (ex i) (eu i)
    have a2 : P.fu i (y i + ex i) (w i + eu i) = P.fu i (y i) (w i) := hL.free.fu i (y i) (w i) (ex i) (eu i)
    have a3 : y i + ex i = it.x i := by simp [hex]
    have a4 : w i + eu i = it.u i := by simp [heu]
    rw [a3, a4] at a1 a2
    rw [a1, a2]
    exact z1 i hi
  rw [z0', dotProduct_zero, Finset.sum_eq_zero (fun i hi => by rw [z1' i (Finset.mem_range.1 hi), dotProduct_zero])]
  rw [z0, dotProduct_zero, Finset.sum_eq_zero (fun i hi => by rw [z1 i (Finset.mem_range.1 hi), dotProduct_zero])] at k0
  have zc : ∀ i k, (cdir P y w ex eu i).getD k 0 = (Spec.cstr P it.x it.u i).getD k 0 - (Spec.cstr P y w i).getD k 0 := by
    intro i k
    have a1 := cstr_add hL y ex w eu i k
    rw [exy, ewu] at a1
    rw [a1]
    ring
  rw [cdir_congr hL y it.x ex w it.u eu]
  have sc := costSlope_add hL y ex w eu
  rw [exy, ewu] at sc
  rw [sc]
  have cross : (∑ i ∈ Finset.range (N + 1), ∑ k ∈ Finset.range (P.nc i), (it.vs i).getD k 0 * (cdir P y w ex eu i).getD k 0) -
      (∑ i ∈ Finset.range (N + 1), ∑ k ∈ Finset.range (P.nc i), (vb i).getD k 0 * (cdir P y w ex eu i).getD k 0) =
      ∑ i ∈ Finset.range (N + 1), ∑ k ∈ Finset.range (P.nc i),
        ((it.vs i).getD k 0 - (vb i).getD k 0) * ((Spec.cstr P it.x it.u i).getD k 0 - (Spec.cstr P y w i).getD k 0) := by
    rw [← Finset.sum_sub_distrib]
    refine Finset.sum_congr rfl fun i hi => ?_
    rw [← Finset.sum_sub_distrib]
    refine Finset.sum_congr rfl fun k _ => ?_
    rw [zc i k]
    ring
  linarith

/-- Multipliers of the penalised problem at the iterate: the cross term of the distances to a first-order optimal point. -/
theorem cross_resolved {P : Prob nx nu N} {ks : ℕ → List Kind} {mu : ℝ} {v : ℕ → List ℝ} {it : Iter nx nu P.nc0}
    (h : Resolved P ks mu v it) (vb cb : ℕ → List ℝ) :
    2 * ∑ i ∈ Finset.range (N + 1), ∑ k ∈ Finset.range (P.nc i),
        ((it.vs i).getD k 0 - (vb i).getD k 0) * ((Spec.cstr P it.x it.u i).getD k 0 - (cb i).getD k 0) =
      mu * (Spec.vdist2 N P.nc it.vs vb + Spec.vdist2 N P.nc it.vs v - Spec.vdist2 N P.nc v vb) +
      2 * ∑ i ∈ Finset.range (N + 1), ∑ k ∈ Finset.range (P.nc i),
        ((it.vs i).getD k 0 - (vb i).getD k 0) * (slackV P ks mu v it i k - (cb i).getD k 0) := by
  rw [vdist2_cross]
  have : ∑ i ∈ Finset.range (N + 1), ∑ k ∈ Finset.range (P.nc i),
        ((it.vs i).getD k 0 - (vb i).getD k 0) * ((Spec.cstr P it.x it.u i).getD k 0 - (cb i).getD k 0) =
      mu * (∑ i ∈ Finset.range (N + 1), ∑ k ∈ Finset.range (P.nc i),
        ((it.vs i).getD k 0 - (vb i).getD k 0) * ((it.vs i).getD k 0 - (v i).getD k 0)) +
      ∑ i ∈ Finset.range (N + 1), ∑ k ∈ Finset.range (P.nc i),
        ((it.vs i).getD k 0 - (vb i).getD k 0) * (slackV P ks mu v it i k - (cb i).getD k 0) := by
    rw [Finset.mul_sum, ← Finset.sum_add_distrib]
    refine Finset.sum_congr rfl fun i hi => ?_
    rw [Finset.mul_sum, ← Finset.sum_add_distrib]
    refine Finset.sum_congr rfl fun k hk => ?_
    rw [resolved_value h (Nat.lt_succ_iff.1 (Finset.mem_range.1 hi)) (Finset.mem_range.1 hk)]
    ring
  rw [this]
  ring

theorem cross_nonneg {P : Prob nx nu N} {sk : ℕ → List Spec.SetKind} {mu : ℝ} (hmu : 0 < mu) {v : ℕ → List ℝ}
    {it : Iter nx nu P.nc0} (h : Resolved P (fun i => (sk i).map Spec.SetKind.kind) mu v it) {fixed : Prop} {y : ∀ i, Fin (nx i) → ℝ}
    {w : ∀ i, Fin (nu i) → ℝ} {lam0 : Fin P.nc0 → ℝ} {lam : ∀ i, Fin (nx (i + 1)) → ℝ} {vb : ℕ → List ℝ}
    (hk : Spec.KKTPointI P sk fixed y w lam0 lam vb) :
    0 ≤ ∑ i ∈ Finset.range (N + 1), ∑ k ∈ Finset.range (P.nc i), ((it.vs i).getD k 0 - (vb i).getD k 0) *
      (slackV P (fun i => (sk i).map Spec.SetKind.kind) mu v it i k - (Spec.cstr P y w i).getD k 0) :=
  Finset.sum_nonneg fun i hi => Finset.sum_nonneg fun k hk' => by
    have hi := Nat.lt_succ_iff.1 (Finset.mem_range.1 hi)
    have hk' := Finset.mem_range.1 hk'
    have hn := hk.normal i hi k (by rw [cstr_length']; exact hk')
    exact normal_mono (resolved_normal hmu h hi hk' ⟨_, hn.1⟩) hn

theorem start_zero {P : Prob nx nu N} {H : Hess nx nu N} (hL : Spec.IsLQE P H) {x0 a b : Fin (nx 0) → ℝ} {force : Bool}
    (hG : GoodStart P force x0) (ha : P.h a = 0) (hb : P.h b = 0) (hf : force = true) : a - b = 0 := by
  obtain ⟨h1, h2⟩ := hG hf
  refine h2 _ ?_
  have a1 : P.h (b + (a - b)) = P.h b + P.hx b *ᵥ (a - b) := hL.free.h b (a - b)
  have a2 : P.hx (b + (x0 - b)) = P.hx b := hL.free.hx b (x0 - b)
  rw [add_sub_cancel] at a1 a2
  rw [ha, hb, zero_add] at a1
  rw [a2]
  exact a1.symm

/-- The gradient after a full step, along any direction. -/
theorem stepI_pair {P : Prob nx nu N} {ks : ℕ → List Kind} {force : Bool} {s : SSt P} {d : Dir nx nu P.nc0} {it : Iter nx nu P.nc0}
    (hF : StepI P ks force s d it) (ex : ∀ i, Fin (nx i) → ℝ) (eu : ∀ i, Fin (nu i) → ℝ) (ex0 : force = true → ex 0 = 0) :
    pair (compute (pdata (P.spec it.x it.u)) (some it.lam) it.vs) N ex eu = -(s.preg * inner2 N d.dx d.du ex eu) := by
  obtain ⟨ga, gb⟩ := gradAt_eq P force it
  unfold pair inner2
  have t1 : ∀ i ∈ Finset.range (N + 1), (compute (pdata (P.spec it.x it.u)) (some it.lam) it.vs).Lxs i ⬝ᵥ ex i =
      -(s.preg * (d.dx i ⬝ᵥ ex i)) := by
    intro i hi
    by_cases hf : force = true ∧ i = 0
    · obtain ⟨hf, rfl⟩ := hf
      rw [ex0 hf]
      simp
    · rw [← ga i fun h h' => hf ⟨h, h'⟩, hF.Lx i (Nat.lt_succ_iff.1 (Finset.mem_range.1 hi)), neg_dotProduct, smul_dotProduct,
        smul_eq_mul]
  have t2 : ∀ i ∈ Finset.range N, (compute (pdata (P.spec it.x it.u)) (some it.lam) it.vs).Lus i ⬝ᵥ eu i =
      -(s.preg * (d.du i ⬝ᵥ eu i)) := by
    intro i hi
    rw [← gb, hF.Lu i (Finset.mem_range.1 hi), neg_dotProduct, smul_dotProduct, smul_eq_mul]
  rw [Finset.sum_congr rfl t1, Finset.sum_congr rfl t2, Finset.sum_neg_distrib, Finset.sum_neg_distrib, ← Finset.mul_sum,
    ← Finset.mul_sum]
  ring

/-- **C78** The energy balance of one iteration in which no constraint changes side: for every first-order optimal point of the
problem, the weighted squared distances of the new trajectory and of the new multipliers to it, plus the squares of the step and of
the change of the multipliers, the quadratic form of the costs and the products of differences of multipliers and of values allowed,
are the distances of the old trajectory and of the multipliers at the last update.  No convexity of the costs is needed. -/
theorem C78_energy {P : Prob nx nu N} {H : Hess nx nu N} (hL : Spec.IsLQE P H) {S : Setup} {sk : ℕ → List Spec.SetKind}
    (hS : LibSets P S fun i => (sk i).map Spec.SetKind.kind) {exact : Bool} {s : SSt P} {d : Dir nx nu P.nc0} (hmu : 0 < s.mu)
    (hv : Shape P s.prevV) (hvs : Shape P s.x.vs) (hs : Solves P S exact H s d) (hG : GoodStart P S.force (s.x.x 0))
    {it : Iter nx nu P.nc0} (hit : it = linearStep s.x (d.forced S.force) 1)
    (hp : SamePiece P (fun i => (sk i).map Spec.SetKind.kind) s it) {y : ∀ i, Fin (nx i) → ℝ} {w : ∀ i, Fin (nu i) → ℝ}
    {lam0 : Fin P.nc0 → ℝ} {lam : ∀ i, Fin (nx (i + 1)) → ℝ} {vb : ℕ → List ℝ}
    (hk : Spec.KKTPointI P sk (S.force = true) y w lam0 lam vb) :
    s.preg * Spec.dist2 N it.x it.u y w + s.mu * Spec.vdist2 N P.nc it.vs vb + s.preg * Spec.dist2 N it.x it.u s.x.x s.x.u +
      s.mu * Spec.vdist2 N P.nc it.vs s.prevV + 2 * quad H (fun i => it.x i - y i) (fun i => it.u i - w i) +
      2 * ∑ i ∈ Finset.range (N + 1), ∑ k ∈ Finset.range (P.nc i), ((it.vs i).getD k 0 - (vb i).getD k 0) *
        (slackV P (fun i => (sk i).map Spec.SetKind.kind) s.mu s.prevV it i k - (Spec.cstr P y w i).getD k 0) =
      s.preg * Spec.dist2 N s.x.x s.x.u y w + s.mu * Spec.vdist2 N P.nc s.prevV vb := by
  have hF := C78_full_step hL hS hmu hv hvs hs hG
  rw [← hit] at hF
  have ex0 : S.force = true → it.x 0 - y 0 = 0 := start_zero hL hG hF.feasible.init hk.feasible.init
  have k1 := pair_to_solution hL hF.shape hF.feasible hk ex0
  rw [stepI_pair hF _ _ ex0] at k1
  have hcr := cross_resolved (hF.resolved hp) vb (Spec.cstr P y w)
  have hx2 := dist2_add (N := N) s.x.x d.dx y s.x.u d.du w
  rw [← hF.x, ← hF.u] at hx2
  have ei : inner2 N d.dx d.du (fun i => s.x.x i + d.dx i - y i) (fun i => s.x.u i + d.du i - w i) =
      inner2 N d.dx d.du (fun i => it.x i - y i) (fun i => it.u i - w i) := by
    congr 1
    · funext i; rw [hF.x]
    · funext i; rw [hF.u]
  rw [ei] at hx2
  set I := inner2 N d.dx d.du (fun i => it.x i - y i) (fun i => it.u i - w i)
  have m1 : s.preg * (Spec.dist2 N it.x it.u y w + Spec.dist2 N it.x it.u s.x.x s.x.u - Spec.dist2 N s.x.x s.x.u y w) =
    s.preg * (2 * I) := by rw [hx2]
  linarith

/-- **C78** On a convex problem a full step in which no constraint changes side never increases the weighted squared distance of
trajectory and multipliers to any solution, and the squares of the step and of the change of the multipliers are bounded by it. -/
theorem C78_closer {P : Prob nx nu N} {H : Hess nx nu N} (hL : Spec.IsLQE P H) (hC : Spec.Convex N H) {S : Setup}
    {sk : ℕ → List Spec.SetKind} (hS : LibSets P S fun i => (sk i).map Spec.SetKind.kind) {exact : Bool} {s : SSt P}
    {d : Dir nx nu P.nc0} (hmu : 0 < s.mu) (hv : Shape P s.prevV) (hvs : Shape P s.x.vs) (hs : Solves P S exact H s d)
    (hG : GoodStart P S.force (s.x.x 0)) {it : Iter nx nu P.nc0} (hit : it = linearStep s.x (d.forced S.force) 1)
    (hp : SamePiece P (fun i => (sk i).map Spec.SetKind.kind) s it) {y : ∀ i, Fin (nx i) → ℝ} {w : ∀ i, Fin (nu i) → ℝ}
    {lam0 : Fin P.nc0 → ℝ} {lam : ∀ i, Fin (nx (i + 1)) → ℝ} {vb : ℕ → List ℝ}
    (hk : Spec.KKTPointI P sk (S.force = true) y w lam0 lam vb) :
    s.preg * Spec.dist2 N it.x it.u y w + s.mu * Spec.vdist2 N P.nc it.vs vb +
      (s.preg * Spec.dist2 N it.x it.u s.x.x s.x.u + s.mu * Spec.vdist2 N P.nc it.vs s.prevV) ≤
      s.preg * Spec.dist2 N s.x.x s.x.u y w + s.mu * Spec.vdist2 N P.nc s.prevV vb := by
  have h := C78_energy hL hS hmu hv hvs hs hG hit hp hk
  have hq := quad_nonneg hC (fun i => it.x i - y i) (fun i => it.u i - w i)
  have hF := C78_full_step hL hS hmu hv hvs hs hG
  rw [← hit] at hF
  have hm := cross_nonneg hmu (hF.resolved hp) hk
  linarith

/-- **C78** However the iterate was reached (any number of steps of any length, any changes of active sets): on a convex problem, when
the trajectory satisfies the dynamics, the gradient of the Lagrangian vanishes and the multipliers are those of the penalised problem,
then replacing the multipliers at the last update by the current ones brings them closer to those of every solution, by at least the
square of the change. -/
theorem C78_multiplier_update {P : Prob nx nu N} {H : Hess nx nu N} (hL : Spec.IsLQE P H) (hC : Spec.Convex N H) {force : Bool}
    {sk : ℕ → List Spec.SetKind} {mu : ℝ} (hmu : 0 < mu) {v : ℕ → List ℝ} {it : Iter nx nu P.nc0} (hsh : Shape P it.vs)
    (hfe : Spec.Feasible P it.x it.u) (hG : GoodStart P force (it.x 0)) (hx : ∀ i, i ≤ N → (gradAt P force it).Lxs i = 0)
    (hu : ∀ i, i < N → (gradAt P force it).Lus i = 0) (hr : Resolved P (fun i => (sk i).map Spec.SetKind.kind) mu v it)
    {y : ∀ i, Fin (nx i) → ℝ} {w : ∀ i, Fin (nu i) → ℝ} {lam0 : Fin P.nc0 → ℝ} {lam : ∀ i, Fin (nx (i + 1)) → ℝ} {vb : ℕ → List ℝ}
    (hk : Spec.KKTPointI P sk (force = true) y w lam0 lam vb) :
    Spec.vdist2 N P.nc it.vs vb + Spec.vdist2 N P.nc it.vs v ≤ Spec.vdist2 N P.nc v vb := by
  have ex0 : force = true → it.x 0 - y 0 = 0 := start_zero hL hG hfe.init hk.feasible.init
  have k1 := pair_to_solution hL hsh hfe hk ex0
  have k2 : pair (compute (pdata (P.spec it.x it.u)) (some it.lam) it.vs) N (fun i => it.x i - y i) (fun i => it.u i - w i) = 0 := by
    obtain ⟨ga, gb⟩ := gradAt_eq P force it
    unfold pair
    rw [Finset.sum_eq_zero, Finset.sum_eq_zero, add_zero]
    · intro i hi
      rw [← gb, hu i (Finset.mem_range.1 hi), zero_dotProduct]
    · intro i hi
      by_cases hf : force = true ∧ i = 0
      · obtain ⟨hf, rfl⟩ := hf
        show _ ⬝ᵥ (it.x 0 - y 0) = 0
        rw [ex0 hf, dotProduct_zero]
      · rw [← ga i fun h h' => hf ⟨h, h'⟩, hx i (Nat.lt_succ_iff.1 (Finset.mem_range.1 hi)), zero_dotProduct]
  have hcr := cross_resolved hr vb (Spec.cstr P y w)
  have hq := quad_nonneg hC (fun i => it.x i - y i) (fun i => it.u i - w i)
  have hm := cross_nonneg hmu hr hk
  rw [k2] at k1
  have : mu * (Spec.vdist2 N P.nc it.vs vb + Spec.vdist2 N P.nc it.vs v - Spec.vdist2 N P.nc v vb) ≤ 0 := by linarith
  have := nonpos_of_mul_nonpos_right this hmu
  linarith

/-! ### When no constraint changes side -/

theorem same_side (K : Spec.SetKind) (hK : K.Proper) (z z' : ℝ) :
    K.kind.cone z' = K.kind.cone z + (if K.kind.flag z then z' - z else 0) ↔ K.sameSide z z' := by
  cases K with
  | eq => simp [Spec.SetKind.kind, Spec.SetKind.sameSide, Kind.cone, Kind.flag]
  | nonpos =>
    simp only [Spec.SetKind.kind, Spec.SetKind.sameSide, Kind.cone, Kind.flag, decide_eq_true_eq, gt_iff_lt]
    grind
  | box l u =>
    have hlu : l < u := hK
    simp only [Spec.SetKind.kind, Spec.SetKind.sameSide, Kind.cone, Kind.flag, Bool.or_eq_true, decide_eq_true_eq, gt_iff_lt]
    grind

/-- **C78** What it means that no constraint changes side: the shifted value of every inequality is positive before the step and not
negative after it, or not positive at either; the shifted value of every box constraint is beyond the same bound before and after the
step, or between them at both.  For boxes the active sets do not tell: a jump from above the upper bound to below the lower one
keeps the flag. -/
theorem C78_same_side {P : Prob nx nu N} {sk : ℕ → List Spec.SetKind} (hK : ∀ i, i ≤ N → ∀ k, k < P.nc i → ((sk i).getD k .eq).Proper)
    (s : SSt P) (it : Iter nx nu P.nc0) :
    SamePiece P (fun i => (sk i).map Spec.SetKind.kind) s it ↔ ∀ i, i ≤ N → ∀ k, k < P.nc i →
      ((sk i).getD k .eq).sameSide ((Spec.cstr P s.x.x s.x.u i).getD k 0 + s.mu * (s.prevV i).getD k 0)
        ((Spec.cstr P it.x it.u i).getD k 0 + s.mu * (s.prevV i).getD k 0) := by
  refine forall_congr' fun i => forall_congr' fun hi => forall_congr' fun k => forall_congr' fun hk => ?_
  rw [kindAt_map]
  exact same_side _ (hK i hi k hk) _ _

example : Kind.flag (.box 0 1) 2 = Kind.flag (.box 0 1) (-1) ∧
    ¬ (Kind.cone (.box 0 1) (-1) = Kind.cone (.box 0 1) 2 + if Kind.flag (.box 0 1) 2 then -1 - 2 else 0) := by
  norm_num [Kind.flag, Kind.cone]

/-! ### What the solver reports -/

theorem lib_ms {P : Prob nx nu N} {S : Setup} {ks : ℕ → List Kind} (hS : LibSets P S ks) {mu : ℝ} (hmu : 0 < mu) {v : ℕ → List ℝ}
    {it : Iter nx nu P.nc0} (hv : Shape P v) (hvs : Shape P it.vs) {i : ℕ} (hi : i ≤ N) {k : ℕ} (hk : k < P.nc i) :
    (((mult P S mu v it).1.ms i).infeas).length = P.nc i ∧ (((mult P S mu v it).1.ms i).Lvs).length = P.nc i ∧
    (((mult P S mu v it).1.ms i).infeas).getD k 0 = (kindAt ks i k).cone (shiftV P mu v it.x it.u i k) - mu * (v i).getD k 0 ∧
    (((mult P S mu v it).1.ms i).Lvs).getD k 0 = (kindAt ks i k).cone (shiftV P mu v it.x it.u i k) - mu * (it.vs i).getD k 0 := by
  have e1 : ((mult P S mu v it).1.ms i) = multiplierStep (S.op i) mu (Spec.cstr P it.x it.u i) (v i) (it.vs i) (S.out i) [] := rfl
  have hl : (Spec.cstr P it.x it.u i).length = P.nc i := cstr_length' P it.x it.u i
  rw [e1]
  have hlen : (List.zipWith (· + ·) (Spec.cstr P it.x it.u i) ((v i).map (mu * ·))).length = P.nc i := by simp [hl, hv i hi]
  have hm : ∀ (c : ℝ) (a : List ℝ) k, (a.map (c * ·)).getD k 0 = c * a.getD k 0 := by
    intro c a k
    by_cases hk : k < a.length
    · rw [List.getD_eq_getElem _ _ (by simpa using hk), List.getD_eq_getElem _ _ hk, List.getElem_map]
    · rw [List.getD_eq_default _ _ (by simpa using hk), List.getD_eq_default _ _ (not_lt.1 hk), mul_zero]
  have hsub : ∀ (a b : List ℝ), a.length = b.length → ∀ k, (List.zipWith (· - ·) a b).getD k 0 = a.getD k 0 - b.getD k 0 :=
    fun a b h k => getD_sub h k
  have hz : (List.zipWith (· + ·) (Spec.cstr P it.x it.u i) ((v i).map (mu * ·))).getD k 0 = shiftV P mu v it.x it.u i k := by
    rw [getD_zipWith_add _ _ (by simp [hl, hv i hi]), hm]
    rfl
  have hcone := lib_cone hS hi hlen hk
  rw [hz] at hcone
  have hcl : ((S.op i).normalConeProjection (List.zipWith (· + ·) (Spec.cstr P it.x it.u i) ((v i).map (mu * ·))) (S.out i)).length =
      P.nc i := by
    have hkl := hS.kinds i hi
    rw [(hS.lib i hi).hasKinds.cone _ (S.out i) (hlen.trans hkl.symm) ((hS.out i hi).trans hkl.symm)]
    simp [hl, hv i hi, hkl]
  unfold multiplierStep
  dsimp only
  refine ⟨by simp [hcl, hv i hi], by simp [hcl, hvs i hi], ?_, ?_⟩
  · rw [hm, hsub _ _ (by simp [hcl, hv i hi]), hm, hcone]
    field_simp
  · rw [hsub _ _ (by simp [hcl, hvs i hi]), hm, hcone]

/-- **C78** What the reported infeasibility says: on a trajectory that satisfies the dynamics it is the largest distance of a
constraint value to the value allowed that the projection of its shifted value chooses; when the multipliers are those of the
penalised problem, they are in the normal cones there. -/
theorem C78_reported {P : Prob nx nu N} {S : Setup} {sk : ℕ → List Spec.SetKind}
    (hS : LibSets P S fun i => (sk i).map Spec.SetKind.kind)
    (hne : ∀ i, i ≤ N → ∀ k, k < P.nc i → ((sk i).getD k .eq).set.Nonempty) {mu : ℝ} (hmu : 0 < mu) {v : ℕ → List ℝ}
    {it : Iter nx nu P.nc0} (hv : Shape P v) (hvs : Shape P it.vs) (hF : Spec.Feasible P it.x it.u) :
    ∃ b, (mult P S mu v it).2 = some b ∧ 0 ≤ b ∧
      (∀ B, 0 ≤ B → (b ≤ B ↔ ∀ i, i ≤ N → ∀ k, k < P.nc i →
        |(Spec.cstr P it.x it.u i).getD k 0 - slackV P (fun i => (sk i).map Spec.SetKind.kind) mu v it i k| ≤ B)) ∧
      (Resolved P (fun i => (sk i).map Spec.SetKind.kind) mu v it → Spec.NearNormal P sk b it.x it.u it.vs) := by
  set ks : ℕ → List Kind := fun i => (sk i).map Spec.SetKind.kind with hks
  refine ⟨primInfeas N (fun i => ((mult P S mu v it).1.ms i).infeas) (slacks (P.values it.x it.u)), rfl, ?_⟩
  set b := primInfeas N (fun i => ((mult P S mu v it).1.ms i).infeas) (slacks (P.values it.x it.u)) with hb
  have hb' : b = infNorm ((List.range (N + 1)).map fun i => infNorm ((mult P S mu v it).1.ms i).infeas) := by
    rw [hb]
    unfold primInfeas
    refine max_eq_left ((infNorm_le le_rfl fun a ha => ?_).trans (infNorm_nonneg _))
    obtain ⟨i, hi, rfl⟩ := List.mem_map.1 ha
    rw [abs_of_nonneg (infNorm_nonneg _)]
    exact slacks_feasible hF (Nat.lt_succ_iff.1 (List.mem_range.1 hi))
  have hval : ∀ i, i ≤ N → ∀ k, k < P.nc i → (((mult P S mu v it).1.ms i).infeas).getD k 0 =
      (Spec.cstr P it.x it.u i).getD k 0 - slackV P ks mu v it i k := by
    intro i hi k hk
    rw [(lib_ms hS hmu hv hvs hi hk).2.2.1]
    unfold slackV shiftV
    ring
  have hlen : ∀ i, i ≤ N → ∀ k, k < (((mult P S mu v it).1.ms i).infeas).length → k < P.nc i := by
    intro i hi k hk
    by_contra hn
    have e1 : ((mult P S mu v it).1.ms i) = multiplierStep (S.op i) mu (Spec.cstr P it.x it.u i) (v i) (it.vs i) (S.out i) [] := rfl
    have : (((mult P S mu v it).1.ms i).infeas).length ≤ P.nc i := by
      rw [e1]
      unfold multiplierStep
      simp [hv i hi]
    omega
  have hiff : ∀ B, 0 ≤ B → (b ≤ B ↔ ∀ i, i ≤ N → ∀ k, k < P.nc i →
        |(Spec.cstr P it.x it.u i).getD k 0 - slackV P ks mu v it i k| ≤ B) := by
    intro B hB
    constructor
    · intro h i hi k hk
      have hl := (lib_ms hS hmu hv hvs hi hk).1
      rw [← hval i hi k hk, List.getD_eq_getElem _ _ (hl ▸ hk)]
      refine (le_infNorm (List.getElem_mem _)).trans (le_trans ?_ h)
      rw [hb']
      exact infNorm_range (f := fun i => infNorm ((mult P S mu v it).1.ms i).infeas) (by omega)
    · intro h
      rw [hb']
      refine infNorm_le hB fun a ha => ?_
      obtain ⟨i, hi, rfl⟩ := List.mem_map.1 ha
      have hi := Nat.lt_succ_iff.1 (List.mem_range.1 hi)
      rw [abs_of_nonneg (infNorm_nonneg _)]
      refine infNorm_le hB fun a ha => ?_
      obtain ⟨k, hk, rfl⟩ := List.getElem_of_mem ha
      have hk' := hlen i hi k hk
      rw [← List.getD_eq_getElem _ 0 hk, hval i hi k hk']
      exact h i hi k hk'
  have hb0 : 0 ≤ b := by rw [hb']; exact infNorm_nonneg _
  refine ⟨hb0, hiff, fun hr i hi k hk => ?_⟩
  rw [cstr_length'] at hk
  exact ⟨_, resolved_normal hmu hr hi hk (hne i hi k hk), (hiff b hb0).1 le_rfl i hi k hk⟩

/-- **C78** After a full step in which no constraint changes side the multipliers are those of the penalised problem: the
part of the inner criterion that comes from the constraints is zero, what remains is the gradient of the Lagrangian, minus the
regularisation times the step. -/
theorem C78_inner {P : Prob nx nu N} {H : Hess nx nu N} (hL : Spec.IsLQE P H) {S : Setup} {ks : ℕ → List Kind} (hS : LibSets P S ks)
    {exact : Bool} {s : SSt P} {d : Dir nx nu P.nc0} (hmu : 0 < s.mu) (hv : Shape P s.prevV) (hvs : Shape P s.x.vs)
    (hs : Solves P S exact H s d) (hG : GoodStart P S.force (s.x.x 0)) {it : Iter nx nu P.nc0}
    (hit : it = linearStep s.x (d.forced S.force) 1) :
    SamePiece P ks s it ↔ ∀ i, i ≤ N → ∀ k, k < P.nc i → (((mult P S s.mu s.prevV it).1.ms i).Lvs).getD k 0 = 0 := by
  have hF := C78_full_step hL hS hmu hv hvs hs hG
  rw [← hit] at hF
  refine forall_congr' fun i => forall_congr' fun hi => forall_congr' fun k => forall_congr' fun hk => ?_
  rw [(lib_ms hS hmu hv hF.shape hi hk).2.2.2, hF.row i hi k hk, sub_eq_zero]

/-! ### Many iterations -/

theorem lib_dx0 {P : Prob nx nu N} {H : Hess nx nu N} (hL : Spec.IsLQE P H) {S : Setup} {ks : ℕ → List Kind} (hS : LibSets P S ks)
    {exact : Bool} {s : SSt P} {d : Dir nx nu P.nc0} (hmu : 0 < s.mu) (hv : Shape P s.prevV) (hvs : Shape P s.x.vs)
    (hs : Solves P S exact H s d) (hG : GoodStart P S.force (s.x.x 0)) (hf : S.force = true) : d.dx 0 = 0 := by
  obtain ⟨q0, -⟩ := lib_rows hL hS hmu hv hvs hs
  obtain ⟨h1, h2⟩ := hG hf
  refine h2 _ ?_
  rwa [h1, add_zero] at q0

/-- A sequence of iterations with the full step, in which no constraint changes side, each followed by a multiplier update, with
penalty parameters and regularisations that do not grow. -/
structure Chain (P : Prob nx nu N) (S : Setup) (ks : ℕ → List Kind) (exact : Bool) (H : Hess nx nu N) (st : ℕ → SSt P) : Prop where
  mu : ∀ n, 0 < (st n).mu
  preg : ∀ n, 0 < (st n).preg
  mu_le : ∀ n, (st (n + 1)).mu ≤ (st n).mu
  preg_le : ∀ n, (st (n + 1)).preg ≤ (st n).preg
  step : ∀ n, ∃ d, Solves P S exact H (st n) d ∧ (st (n + 1)).x = linearStep (st n).x (d.forced S.force) 1
  side : ∀ n, SamePiece P ks (st n) (st (n + 1)).x
  update : ∀ n, (st (n + 1)).prevV = (st (n + 1)).x.vs

theorem Chain.good {P : Prob nx nu N} {H : Hess nx nu N} (hL : Spec.IsLQE P H) {S : Setup} {ks : ℕ → List Kind} (hS : LibSets P S ks)
    {exact : Bool} {st : ℕ → SSt P} (h : Chain P S ks exact H st) (hv : Shape P (st 0).prevV) (hvs : Shape P (st 0).x.vs)
    (hG : GoodStart P S.force ((st 0).x.x 0)) (n : ℕ) :
    Shape P (st n).prevV ∧ Shape P (st n).x.vs ∧ GoodStart P S.force ((st n).x.x 0) := by
  induction n with
  | zero => exact ⟨hv, hvs, hG⟩
  | succ n ih =>
    obtain ⟨i1, i2, i3⟩ := ih
    obtain ⟨d, hd, hx⟩ := h.step n
    have hF := C78_full_step hL hS (h.mu n) i1 i2 hd i3
    rw [← hx] at hF
    refine ⟨by rw [h.update n]; exact hF.shape, hF.shape, fun hf => ?_⟩
    have e : (st (n + 1)).x.x 0 = (st n).x.x 0 := by
      rw [hF.x]
      show (st n).x.x 0 + d.dx 0 = _
      rw [lib_dx0 hL hS (h.mu n) i1 i2 hd i3 hf, add_zero]
    rw [e]
    exact i3 hf

/-- **C78** The rate: on a convex problem that has a first-order optimal point, among the first `M` such iterations there is one after
which the trajectory satisfies initial condition and dynamics, every constraint is within `√(μ E / M)` of a value allowed where its
multiplier is in the normal cone, and every component of the gradient of the Lagrangian is at most `√(ρ E / M)`; `μ` and `ρ` are the
first penalty parameter and regularisation, and `E` is the weighted squared distance of the guess to the optimal point. -/
theorem C78_rate {P : Prob nx nu N} {H : Hess nx nu N} (hL : Spec.IsLQE P H) (hC : Spec.Convex N H) {S : Setup}
    {sk : ℕ → List Spec.SetKind} (hS : LibSets P S fun i => (sk i).map Spec.SetKind.kind) {exact : Bool} {st : ℕ → SSt P}
    (h : Chain P S (fun i => (sk i).map Spec.SetKind.kind) exact H st) (hv : Shape P (st 0).prevV) (hvs : Shape P (st 0).x.vs)
    (hG : GoodStart P S.force ((st 0).x.x 0)) {y : ∀ i, Fin (nx i) → ℝ} {w : ∀ i, Fin (nu i) → ℝ}
    {lam0 : Fin P.nc0 → ℝ} {lam : ∀ i, Fin (nx (i + 1)) → ℝ} {vb : ℕ → List ℝ}
    (hk : Spec.KKTPointI P sk (S.force = true) y w lam0 lam vb) {M : ℕ} (hM : 0 < M) {E : ℝ}
    (hE : E = (st 0).preg * Spec.dist2 N (st 0).x.x (st 0).x.u y w + (st 0).mu * Spec.vdist2 N P.nc (st 0).prevV vb) :
    ∃ n, 0 < n ∧ n ≤ M ∧ Spec.Feasible P (st n).x.x (st n).x.u ∧
      Spec.NearNormal P sk (Real.sqrt ((st 0).mu * E / M)) (st n).x.x (st n).x.u (st n).x.vs ∧
      SmallGrad P S.force (st n).x (Real.sqrt ((st 0).preg * E / M)) := by
  set en : ℕ → ℝ := fun n => (st n).preg * Spec.dist2 N (st n).x.x (st n).x.u y w + (st n).mu * Spec.vdist2 N P.nc (st n).prevV vb with hen
  set g : ℕ → ℝ := fun n => (st n).preg * Spec.dist2 N (st (n + 1)).x.x (st (n + 1)).x.u (st n).x.x (st n).x.u +
    (st n).mu * Spec.vdist2 N P.nc (st (n + 1)).x.vs (st n).prevV with hg
  have hdec : ∀ n, en (n + 1) + g n ≤ en n := by
    intro n
    obtain ⟨i1, i2, i3⟩ := h.good hL hS hv hvs hG n
    obtain ⟨d, hd, hx⟩ := h.step n
    have hc := C78_closer hL hC hS (h.mu n) i1 i2 hd i3 hx (h.side n) hk
    have e1 := mul_le_mul_of_nonneg_right (h.preg_le n) (dist2_nonneg (N := N) (st (n + 1)).x.x (st (n + 1)).x.u y w)
    have e2 := mul_le_mul_of_nonneg_right (h.mu_le n) (vdist2_nonneg (N := N) P.nc (st (n + 1)).x.vs vb)
    simp only [hen, hg]
    rw [h.update n]
    linarith
  have hen0 : ∀ n, 0 ≤ en n := fun n => add_nonneg (mul_nonneg (h.preg n).le (dist2_nonneg _ _ _ _))
    (mul_nonneg (h.mu n).le (vdist2_nonneg _ _ _))
  have hsum : ∀ n, (∑ j ∈ Finset.range n, g j) + en n ≤ en 0 := by
    intro n
    induction n with
    | zero => simp
    | succ n ih =>
      rw [Finset.sum_range_succ]
      have := hdec n
      linarith
  have hmu : ∀ n, (st n).mu ≤ (st 0).mu := by
    intro n
    induction n with
    | zero => exact le_rfl
    | succ n ih => exact (h.mu_le n).trans ih
  have hpr : ∀ n, (st n).preg ≤ (st 0).preg := by
    intro n
    induction n with
    | zero => exact le_rfl
    | succ n ih => exact (h.preg_le n).trans ih
  have hM' : (0 : ℝ) < M := Nat.cast_pos.2 hM
  obtain ⟨n, hn, hgn⟩ : ∃ n ∈ Finset.range M, g n ≤ E / M := by
    by_contra hcon
    push Not at hcon
    have h1 : ∑ _j ∈ Finset.range M, E / M < ∑ j ∈ Finset.range M, g j :=
      Finset.sum_lt_sum_of_nonempty (Finset.nonempty_range_iff.2 hM.ne') hcon
    rw [Finset.sum_const, Finset.card_range, nsmul_eq_mul, mul_div_cancel₀ _ hM'.ne'] at h1
    have h2 := hsum M
    have h3 := hen0 M
    have h4 : E = en 0 := hE
    linarith
  have hEM : 0 ≤ E / M := by
    have h4 : E = en 0 := hE
    rw [h4]
    exact div_nonneg (hen0 0) hM'.le
  obtain ⟨i1, i2, i3⟩ := h.good hL hS hv hvs hG n
  obtain ⟨d, hd, hx⟩ := h.step n
  have hF := C78_full_step hL hS (h.mu n) i1 i2 hd i3
  rw [← hx] at hF
  have hr := hF.resolved (h.side n)
  have n1 := dist2_nonneg (N := N) (st (n + 1)).x.x (st (n + 1)).x.u (st n).x.x (st n).x.u
  have n2 := vdist2_nonneg (N := N) P.nc (st (n + 1)).x.vs (st n).prevV
  have m0 := h.mu n
  have p0 := h.preg n
  have g1 : (st n).preg * Spec.dist2 N (st (n + 1)).x.x (st (n + 1)).x.u (st n).x.x (st n).x.u ≤ E / M := by
    have := mul_nonneg m0.le n2
    simp only [hg] at hgn
    linarith
  have g2 : (st n).mu * Spec.vdist2 N P.nc (st (n + 1)).x.vs (st n).prevV ≤ E / M := by
    have := mul_nonneg p0.le n1
    simp only [hg] at hgn
    linarith
  refine ⟨n + 1, Nat.succ_pos n, Finset.mem_range.1 hn, hF.feasible, fun i hi k hk' => ?_, ?_⟩
  · rw [cstr_length'] at hk'
    have hn' := hk.normal i hi k (by rw [cstr_length']; exact hk')
    refine ⟨_, resolved_normal m0 hr hi hk' ⟨_, hn'.1⟩, ?_⟩
    rw [resolved_value hr hi hk', add_sub_cancel_left]
    refine Real.abs_le_sqrt ?_
    have h1 : (((st (n + 1)).x.vs i).getD k 0 - ((st n).prevV i).getD k 0) ^ 2 ≤
        Spec.vdist2 N P.nc (st (n + 1)).x.vs (st n).prevV := by
      refine (Finset.single_le_sum (f := fun k => (((st (n + 1)).x.vs i).getD k 0 - ((st n).prevV i).getD k 0) ^ 2)
        (fun _ _ => sq_nonneg _) (Finset.mem_range.2 hk')).trans ?_
      exact Finset.single_le_sum (f := fun i => ∑ k ∈ Finset.range (P.nc i),
        (((st (n + 1)).x.vs i).getD k 0 - ((st n).prevV i).getD k 0) ^ 2)
        (fun _ _ => Finset.sum_nonneg fun _ _ => sq_nonneg _) (Finset.mem_range.2 (Nat.lt_succ_iff.2 hi))
    rw [mul_pow, mul_div_assoc]
    calc (st n).mu ^ 2 * (((st (n + 1)).x.vs i).getD k 0 - ((st n).prevV i).getD k 0) ^ 2
        ≤ (st n).mu ^ 2 * Spec.vdist2 N P.nc (st (n + 1)).x.vs (st n).prevV := mul_le_mul_of_nonneg_left h1 (sq_nonneg _)
      _ = (st n).mu * ((st n).mu * Spec.vdist2 N P.nc (st (n + 1)).x.vs (st n).prevV) := by ring
      _ ≤ (st 0).mu * (E / M) := mul_le_mul (hmu n) g2 (mul_nonneg m0.le n2) (m0.le.trans (hmu n))
  · obtain ⟨s1, s2⟩ := sq_le_dist2 (N := N) (st (n + 1)).x.x (st n).x.x (st (n + 1)).x.u (st n).x.u
    have hsq : ∀ b : ℝ, b ^ 2 ≤ Spec.dist2 N (st (n + 1)).x.x (st (n + 1)).x.u (st n).x.x (st n).x.u →
        |-((st n).preg * b)| ≤ Real.sqrt ((st 0).preg * E / M) := by
      intro b hb
      rw [abs_neg]
      refine Real.abs_le_sqrt ?_
      rw [mul_pow, mul_div_assoc]
      calc (st n).preg ^ 2 * b ^ 2 ≤ (st n).preg ^ 2 * Spec.dist2 N (st (n + 1)).x.x (st (n + 1)).x.u (st n).x.x (st n).x.u :=
            mul_le_mul_of_nonneg_left hb (sq_nonneg _)
        _ = (st n).preg * ((st n).preg * Spec.dist2 N (st (n + 1)).x.x (st (n + 1)).x.u (st n).x.x (st n).x.u) := by ring
        _ ≤ (st 0).preg * (E / M) := mul_le_mul (hpr n) g1 (mul_nonneg p0.le n1) (p0.le.trans (hpr n))
    refine ⟨fun i hi k => ?_, fun i hi k => ?_⟩
    · rw [hF.Lx i hi]
      refine hsq (d.dx i k) ?_
      have := s1 i hi k
      rw [hF.x] at this ⊢
      simpa using this
    · rw [hF.Lu i hi]
      refine hsq (d.du i k) ?_
      have := s2 i hi k
      rw [hF.u] at this ⊢
      simpa using this

end Aligator.Link
