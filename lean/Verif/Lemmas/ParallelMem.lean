import Verif.Model.ParallelMem
import Verif.Lemmas.RiccatiMem
import Verif.Props.Parallel

/-!
# Lemmas: the memory of the parallel LQ solver
-/

set_option linter.unusedSectionVars false

namespace Aligator.ParMem

open Matrix Gar GarMem

variable {𝕜 : Type*} [Field 𝕜] [DecidableEq 𝕜] {nth : ℕ}

/-! ## Parametric blocks of the knots -/

/-- Inside a leg no parametric blocks; at its end no `Gv`. -/
def PZ {p : ℕ} : {nx : ℕ} → (D : Dims nx) → Knots 𝕜 p D → Prop
  | _, .last _ _ _, k => (show Knot _ _ _ _ _ _ from k).Gv = 0
  | _, .cons _ _ tl, k =>
    (k.1.Gx = 0 ∧ k.1.Gu = 0 ∧ k.1.Gv = 0 ∧ k.1.Gth = 0 ∧ k.1.gamma = 0) ∧ PZ tl k.2

theorem addParam_pz (p : ℕ) : {nx : ℕ} → (D : Dims nx) → (k : Knots 𝕜 nth D) → PZ D (addParam p D k)
  | _, .last _ _ _, _ => rfl
  | _, .cons _ _ tl, k => ⟨⟨rfl, rfl, rfl, rfl, rfl⟩, addParam_pz p tl k.2⟩

theorem set_pz {p : ℕ} : {nx : ℕ} → (D : Dims nx) → (m : Knots 𝕜 p D) → (k : Knots 𝕜 nth D) → PZ D m → PZ D (setKnots D m k)
  | _, .last _ _ _, _, _, h => h
  | _, .cons _ _ tl, m, k, h => ⟨h.1, set_pz tl m.2 k.2 h.2⟩

theorem configure_pz : {nx : ℕ} → (D : Dims nx) → (m : Knots 𝕜 (exit D) D) → PZ D m → PZ D (configureLast D m)
  | _, .last _ _ _, _, h => h
  | _, .cons _ _ tl, m, h => ⟨h.1, configure_pz tl m.2 h.2⟩

theorem knot_configure {m nx nu nc : ℕ} (a : Knot 𝕜 m nx nu nc m) (k : Knot 𝕜 nth nx nu nc m) (h : a.Gv = 0) :
    configureKnot (setKnot a k) = k.configure := by
  cases a
  simp only at h
  subst h
  rfl

theorem knot_set {p nx nu nc nx2 : ℕ} (a : Knot 𝕜 p nx nu nc nx2) (k : Knot 𝕜 nth nx nu nc nx2)
    (h : a.Gx = 0 ∧ a.Gu = 0 ∧ a.Gv = 0 ∧ a.Gth = 0 ∧ a.gamma = 0) : setKnot a k = k.addParameterization p := by
  obtain ⟨h1, h2, h3, h4, h5⟩ := h
  cases a
  simp only at h1 h2 h3 h4 h5
  subst h1 h2 h3 h4 h5
  rfl

theorem configure_set : {nx : ℕ} → (D : Dims nx) → (m : Knots 𝕜 (exit D) D) → (k : Knots 𝕜 nth D) → PZ D m →
    configureLast D (setKnots D m k) = legKnots D k
  | _, .last _ _ _, m, k, h => knot_configure (show Knot _ _ _ _ _ _ from m) (show Knot _ _ _ _ _ _ from k) h
  | _, .cons _ _ tl, m, k, h => Prod.ext (knot_set _ _ h.1) (configure_set tl m.2 k.2 h.2)

/-- The same for all legs. -/
def LPZ : {nx : ℕ} → (E : LDims nx) → PKnots 𝕜 nth E → Prop
  | _, .last _, _ => True
  | _, .cons D tl, m => PZ D m.1 ∧ LPZ tl m.2

theorem new_lpz : {nx : ℕ} → (E : LDims nx) → (k : LKnots 𝕜 nth E) → LPZ E (PKnots.new E k)
  | _, .last _, _ => trivial
  | _, .cons D tl, k => ⟨addParam_pz _ D k.1, new_lpz tl k.2⟩

theorem set_lpz : {nx : ℕ} → (E : LDims nx) → (m : PKnots 𝕜 nth E) → (k : LKnots 𝕜 nth E) → LPZ E m → LPZ E (PKnots.set E m k)
  | _, .last _, _, _, _ => trivial
  | _, .cons D tl, m, k, h => ⟨set_pz D m.1 k.1 h.1, set_lpz tl m.2 k.2 h.2⟩

theorem configure_lpz : {nx : ℕ} → (E : LDims nx) → (m : PKnots 𝕜 nth E) → LPZ E m → LPZ E (PKnots.configure E m)
  | _, .last _, _, _ => trivial
  | _, .cons D tl, m, h => ⟨configure_pz D m.1 h.1, configure_lpz tl m.2 h.2⟩

theorem lconfigure_set : {nx : ℕ} → (E : LDims nx) → (m : PKnots 𝕜 nth E) → (k : LKnots 𝕜 nth E) → LPZ E m →
    PKnots.configure E (PKnots.set E m k) = legK E k
  | _, .last _, _, _, _ => rfl
  | _, .cons D tl, m, k, h => Prod.ext (configure_set D m.1 k.1 h.1) (lconfigure_set tl m.2 k.2 h.2)

/-! ## Factors -/

/-- All factors are clean. -/
def LClean : {nx : ℕ} → (E : LDims nx) → LBufs 𝕜 nth E → Prop
  | _, .last _, b => Bufs.Clean (show Bufs _ _ _ from b)
  | _, .cons _ tl, b => Bufs.Clean b.1 ∧ LClean tl b.2

theorem lnew_clean : {nx : ℕ} → (E : LDims nx) → (u : LBufs 𝕜 nth E) → LClean E (LBufs.new E u)
  | _, .last _, u => new_clean (show Bufs _ _ _ from u)
  | _, .cons _ tl, u => ⟨new_clean u.1, lnew_clean tl u.2⟩

theorem legs_clean (L : LDLMem 𝕜) (mueq : 𝕜) : {nx : ℕ} → (E : LDims nx) → (m : PKnots 𝕜 nth E) → (b : LBufs 𝕜 nth E) →
    LClean E b → LClean E (backwardLegsM L mueq E m b).1
  | _, .last _, m, b, h => impl_clean L mueq (show Knots _ _ _ from m) b h
  | _, .cons _ tl, m, b, h => ⟨impl_clean L mueq m.1 b.1 h.1, legs_clean L mueq tl m.2 b.2 h.2⟩

/-- The factors of a leg as `Model/Parallel` has them. -/
def segFacs : {nx : ℕ} → (D : Dims nx) → (k : Knots 𝕜 nth D) → Bufs 𝕜 (exit D) D → Facs (seg D k).leg
  | _, .last _ _ _, _, b => .last (show Buf _ _ _ _ _ _ from b).F
  | _, .cons _ _ tl, k, b => .cons b.1.F (segFacs tl k.2 b.2)

theorem facs_cons_heq {p nx nu nc nx2 : ℕ} {k : Knot 𝕜 p nx nu nc nx2} {c c' : Chain 𝕜 p nx2} (e : c = c') (F : Factor 𝕜 p nx nu nc nx2)
    (a : Facs c) (a' : Facs c') (h : HEq a a') : HEq (Facs.cons (k := k) F a) (Facs.cons (k := k) F a') := by
  subst e; cases h; rfl

theorem segFacs_heq : {nx : ℕ} → (D : Dims nx) → (k : Knots 𝕜 nth D) → (b : Bufs 𝕜 (exit D) D) →
    HEq (b.facs (legKnots D k)) (segFacs D k b)
  | _, .last _ _ _, _, _ => HEq.rfl
  | _, .cons _ _ tl, k, b => facs_cons_heq (chain_eq tl k.2) b.1.F _ _ (segFacs_heq tl k.2 b.2)

theorem segFacs_vm : {nx : ℕ} → (D : Dims nx) → (k : Knots 𝕜 nth D) → (b : Bufs 𝕜 (exit D) D) → (segFacs D k b).vm = b.vm
  | _, .last _ _ _, _, _ => rfl
  | _, .cons _ _ _, _, _ => rfl

/-- All factors. -/
def lfacs : {nx : ℕ} → (E : LDims nx) → (k : LKnots 𝕜 nth E) → LBufs 𝕜 nth E → LegFacs (legs E k)
  | _, .last _, k, b => .last (Bufs.facs (show Knots _ _ _ from k) b)
  | _, .cons D tl, k, b => .cons (segFacs D k.1 b.1) (lfacs tl k.2 b.2)

/-- One leg, for any name of its stages. -/
theorem chain_run (L : LDLMem 𝕜) (mueq : 𝕜) {p nx : ℕ} {D : Dims nx} (K : Knots 𝕜 p D) (b : Bufs 𝕜 p D) (h : b.Clean)
    {c : Chain 𝕜 p nx} (e : K.chain = c) (G : Facs c) (hh : HEq ((backwardImplM L mueq K b).1.facs K) G) :
    (∀ F, backwardImpl L.toLDL mueq c = .ok F → (backwardImplM L mueq K b).2 = ⟨false, false⟩ ∧ G = F) ∧
    ∀ e, backwardImpl L.toLDL mueq c = .error e → (backwardImplM L mueq K b).2 ≠ ⟨false, false⟩ := by
  subst e
  cases hh
  have hr := impl_run L mueq K b h
  constructor
  · intro F hb
    rw [hb] at hr; exact hr
  · intro e hb
    rw [hb] at hr
    intro hf
    cases e <;> simp only at hr <;> rw [hf] at hr <;> simp at hr

/-- One leg. -/
theorem seg_run (L : LDLMem 𝕜) (mueq : 𝕜) {nx : ℕ} (D : Dims nx) (k : Knots 𝕜 nth D) (b : Bufs 𝕜 (exit D) D) (h : b.Clean) :
    (∀ F, backwardImpl L.toLDL mueq (seg D k).leg = .ok F → (backwardImplM L mueq (legKnots D k) b).2 = ⟨false, false⟩ ∧
        segFacs D k (backwardImplM L mueq (legKnots D k) b).1 = F) ∧
    ∀ e, backwardImpl L.toLDL mueq (seg D k).leg = .error e → (backwardImplM L mueq (legKnots D k) b).2 ≠ ⟨false, false⟩ :=
  chain_run L mueq (legKnots D k) b h (chain_eq D k) _ (segFacs_heq D k _)

theorem flags_or {a b : Flags} : (⟨a.threw || b.threw, a.bad || b.bad⟩ : Flags) = ⟨false, false⟩ ↔ a = ⟨false, false⟩ ∧ b = ⟨false, false⟩ := by
  obtain ⟨a1, a2⟩ := a
  obtain ⟨b1, b2⟩ := b
  cases a1 <;> cases a2 <;> cases b1 <;> cases b2 <;> simp

/-- All legs. -/
theorem legs_run (L : LDLMem 𝕜) (mueq : 𝕜) : {nx : ℕ} → (E : LDims nx) → (k : LKnots 𝕜 nth E) → (b : LBufs 𝕜 nth E) → LClean E b →
    match backwardLegs L.toLDL mueq (legs E k) with
    | .ok F => (backwardLegsM L mueq E (legK E k) b).2 = ⟨false, false⟩ ∧ lfacs E k (backwardLegsM L mueq E (legK E k) b).1 = F
    | .error _ => (backwardLegsM L mueq E (legK E k) b).2 ≠ ⟨false, false⟩
  | _, .last D, k, b, h => by
    have hr := impl_run L mueq (show Knots _ _ _ from k) b h
    simp only [legs, backwardLegs]
    cases hb : backwardImpl L.toLDL mueq (Knots.chain (show Knots 𝕜 nth D from k)) with
    | ok F => rw [hb] at hr; exact ⟨hr.1, congrArg LegFacs.last hr.2⟩
    | error e =>
      rw [hb] at hr
      intro hf
      replace hf : (backwardImplM L mueq (show Knots 𝕜 nth D from k) b).2 = ⟨false, false⟩ := hf
      cases e <;> simp only at hr <;> rw [hf] at hr <;> simp at hr
  | _, .cons D tl, k, b, h => by
    have h1 := seg_run L mueq D k.1 b.1 h.1
    have h2 := legs_run L mueq tl k.2 b.2 h.2
    have ef : (backwardLegsM L mueq (.cons D tl) (legK (.cons D tl) k) b).2 = ⟨false, false⟩ ↔
        (backwardImplM L mueq (legKnots D k.1) b.1).2 = ⟨false, false⟩ ∧
        (backwardLegsM L mueq tl (legK tl k.2) b.2).2 = ⟨false, false⟩ := flags_or
    simp only [legs, backwardLegs]
    cases hb : backwardImpl L.toLDL mueq (seg D k.1).leg with
    | error e => exact fun hf => h1.2 e hb (ef.1 hf).1
    | ok F =>
      replace h1 := h1.1 F hb
      simp only
      cases hc : backwardLegs L.toLDL mueq (legs tl k.2) with
      | error e => rw [hc] at h2; exact fun hf => h2 (ef.1 hf).2
      | ok FL =>
        rw [hc] at h2
        refine ⟨ef.2 ⟨h1.1, h2.1⟩, ?_⟩
        show LegFacs.cons _ _ = _
        exact congrArg₂ LegFacs.cons h1.2 h2.2

/-! ## The condensed system -/

theorem shape_eq : {nx : ℕ} → (E : LDims nx) → (k : LKnots 𝕜 nth E) → (legs E k).shape = shape E
  | _, .last _, _ => rfl
  | _, .cons D tl, k => congrArg (fun l => exit D :: exit D :: l) (shape_eq tl k.2)

theorem bt_cons_heq {n m m' : ℕ} {ms ms' : List ℕ} (e : ms = ms') (D : Mat 𝕜 n n) (B : Mat 𝕜 n m) (C : Mat 𝕜 m n)
    (D' : Mat 𝕜 m m) (B' : Mat 𝕜 m m') (C' : Mat 𝕜 m' m) (a : BT 𝕜 m' ms) (a' : BT 𝕜 m' ms') (h : HEq a a') :
    HEq (BT.cons D B C (BT.cons D' B' C' a)) (BT.cons D B C (BT.cons D' B' C' a')) := by
  subst e; cases h; rfl

theorem bt_cons1_heq {n m : ℕ} {ms ms' : List ℕ} (e : ms = ms') (D : Mat 𝕜 n n) (B : Mat 𝕜 n m) (C : Mat 𝕜 m n)
    (a : BT 𝕜 m ms) (a' : BT 𝕜 m ms') (h : HEq a a') : HEq (BT.cons D B C a) (BT.cons D B C a') := by
  subst e; cases h; rfl

theorem bv_cons_heq {n m : ℕ} {ms ms' : List ℕ} (e : ms = ms') (v : Vec 𝕜 n)
    (a : BV 𝕜 m ms) (a' : BV 𝕜 m ms') (h : HEq a a') : HEq (BV.cons v a) (BV.cons v a') := by
  subst e; cases h; rfl

theorem condT_heq : {nx : ℕ} → (E : LDims nx) → (k : LKnots 𝕜 nth E) → (b : LBufs 𝕜 nth E) →
    HEq (lfacs E k b).condT (condTM E b)
  | _, .last D, k, b => by
    have h := facs_vm (show Knots 𝕜 nth D from k) b
    exact heq_of_eq (congrArg BT.last (congrArg CostToGo.Vxx h))
  | _, .cons D tl, k, b => by
    have ih := condT_heq tl k.2 b.2
    have := segFacs_vm D k.1 b.1
    simp only [lfacs, LegFacs.condT, condTM, this]
    exact bt_cons_heq (shape_eq tl k.2) _ _ _ _ _ _ _ _ ih

theorem condR_heq : {nx : ℕ} → (E : LDims nx) → (k : LKnots 𝕜 nth E) → (b : LBufs 𝕜 nth E) →
    HEq (lfacs E k b).condR (condRM E b)
  | _, .last D, k, b => by
    have h := facs_vm (show Knots 𝕜 nth D from k) b
    exact heq_of_eq (congrArg BV.last (congrArg (- ·) (congrArg CostToGo.vx h)))
  | _, .cons D tl, k, b => by
    have ih := condR_heq tl k.2 b.2
    have := segFacs_vm D k.1 b.1
    simp only [lfacs, LegFacs.condR, condRM, this]
    exact bv_cons_heq (congrArg _ (shape_eq tl k.2)) _ _ _ (bv_cons_heq (shape_eq tl k.2) _ _ _ ih)

/-! ## The forward pass -/

/-- Blocks of the condensed solution in the types of `Model/Parallel`. -/
def castZ : {nx : ℕ} → (E : LDims nx) → (k : LKnots 𝕜 nth E) → BV 𝕜 nx (legs E k).shape → BV 𝕜 nx (shape E)
  | _, .last _, _, z => z
  | nx, .cons D tl, k, z =>
    match (z : BV 𝕜 nx (exit D :: exit D :: (legs tl k.2).shape)) with
    | .cons x (.cons lam rest) => .cons x (.cons lam (castZ tl k.2 rest))

theorem castZ_heq : {nx : ℕ} → (E : LDims nx) → (k : LKnots 𝕜 nth E) → (z : BV 𝕜 nx (legs E k).shape) → HEq z (castZ E k z)
  | _, .last _, _, _ => HEq.rfl
  | nx, .cons D tl, k, z => by
    change BV 𝕜 nx (exit D :: exit D :: (legs tl k.2).shape) at z
    rcases z with _ | ⟨x, _ | ⟨lam, rest⟩⟩
    exact bv_cons_heq (congrArg _ (shape_eq tl k.2)) _ _ _ (bv_cons_heq (shape_eq tl k.2) _ _ _ (castZ_heq tl k.2 rest))

theorem chain_forward {p nx : ℕ} {D : Dims nx} (K : Knots 𝕜 p D) (b : Bufs 𝕜 p D) (lam : Vec 𝕜 p) (x : Vec 𝕜 nx)
    (t : Traj K.chain) {c : Chain 𝕜 p nx} (e : K.chain = c) (G : Facs c) (hh : HEq (b.facs K) G) :
    e ▸ forwardImplM (some lam) K b x t = forwardImpl lam G x := by
  subst e
  cases hh
  exact forwardImpl_run (some lam) K b x t

theorem seg_forward {nx : ℕ} (D : Dims nx) (k : Knots 𝕜 nth D) (b : Bufs 𝕜 (exit D) D) (lam : Vec 𝕜 (exit D)) (x : Vec 𝕜 nx)
    (t : Traj (legKnots D k).chain) :
    chain_eq D k ▸ forwardImplM (some lam) (legKnots D k) b x t = forwardImpl lam (segFacs D k b) x :=
  chain_forward (legKnots D k) b lam x t (chain_eq D k) _ (segFacs_heq D k b)

theorem forwardLegs_run : {nx : ℕ} → (E : LDims nx) → (k : LKnots 𝕜 nth E) → (b : LBufs 𝕜 nth E) →
    (z : BV 𝕜 nx (legs E k).shape) → (t : LTraj E (legK E k)) →
    forwardLegs (lfacs E k b) z = joinT E k (forwardLegsM E (legK E k) b (castZ E k z) t) (castZ E k z)
  | nx, .last D, k, b, z, t => by
    change BV 𝕜 nx [] at z
    rcases z with ⟨x⟩
    exact (forwardImpl_run none (show Knots _ _ _ from k) b x t).symm
  | nx, .cons D tl, k, b, z, t => by
    change BV 𝕜 nx (exit D :: exit D :: (legs tl k.2).shape) at z
    rcases z with _ | ⟨x, _ | ⟨lam, rest⟩⟩
    have ih := forwardLegs_run tl k.2 b.2 rest t.2
    have hs := seg_forward D k.1 b.1 lam x t.1
    show glue (seg D k.1) (forwardImpl lam (segFacs D k.1 b.1) x) lam (forwardLegs (lfacs tl k.2 b.2) rest) = _
    rw [ih, ← hs]
    rfl

/-! ## The pass -/

theorem solve_heq (ldl : LDL 𝕜) {n : ℕ} {ms ms' : List ℕ} (e : ms' = ms) (T' : BT 𝕜 n ms') (T : BT 𝕜 n ms) (hT : HEq T' T)
    (r' : BV 𝕜 n ms') (r : BV 𝕜 n ms) (hr : HEq r' r) :
    (T'.solve ldl r').isSome = (T.solve ldl r).isSome := by
  subst e; cases hT; cases hr; rfl

theorem refine_heq {𝕜 : Type*} [Field 𝕜] [LinearOrder 𝕜] (ldl : LDL 𝕜) {n : ℕ} {ms ms' : List ℕ} (e : ms' = ms)
    (T' : BT 𝕜 n ms') (T : BT 𝕜 n ms) (hT : HEq T' T) (r' : BV 𝕜 n ms') (r : BV 𝕜 n ms) (hr : HEq r' r) (thr : 𝕜) (steps : ℕ)
    (err : BV 𝕜 n ms) (F : BFac 𝕜 n ms) (sol : BV 𝕜 n ms) (h : T.solve ldl r = some (F, sol)) :
    ∃ (F' : BFac 𝕜 n ms') (sol' err' : BV 𝕜 n ms'), T'.solve ldl r' = some (F', sol') ∧
      HEq (refineLoop T' F' r' (BV.normLe thr) steps sol' err').1 (refineLoop T F r (BV.normLe thr) steps sol err).1 := by
  subst e; cases hT; cases hr; exact ⟨F, sol, err, h, HEq.rfl⟩

end Aligator.ParMem
