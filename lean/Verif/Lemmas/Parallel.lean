import Verif.Model.Parallel
import Verif.Lemmas.BlockTridiag
import Verif.Lemmas.LqrCost

set_option linter.unusedSectionVars false

namespace Aligator.Gar

open Matrix

section field
variable {𝕜 : Type*} [Field 𝕜] [DecidableEq 𝕜] {nth : ℕ}

/-! ### Splitting -/

theorem takeSeg_spec {n nx : ℕ} (ch : Chain 𝕜 nth nx) {m : ℕ} {s : Seg 𝕜 nth nx m} {r : Chain 𝕜 nth m}
    (h : ch.takeSeg n = some ⟨m, s, r⟩) : s.append r = ch ∧ r.horizon + (n + 1) = ch.horizon := by
  induction n generalizing nx ch with
  | zero =>
    cases ch with
    | last k => simp [Chain.takeSeg] at h
    | cons k tl =>
      simp only [Chain.takeSeg, Option.some.injEq, Sigma.mk.injEq] at h
      obtain ⟨rfl, h⟩ := h
      simp only [heq_eq_eq, Prod.mk.injEq] at h
      obtain ⟨rfl, rfl⟩ := h
      exact ⟨rfl, rfl⟩
  | succ n ih =>
    cases ch with
    | last k => simp [Chain.takeSeg] at h
    | cons k tl =>
      simp only [Chain.takeSeg] at h
      split at h
      · cases h
      · rename_i m' s' r' e
        simp only [Option.some.injEq, Sigma.mk.injEq] at h
        obtain ⟨rfl, h⟩ := h
        simp only [heq_eq_eq, Prod.mk.injEq] at h
        obtain ⟨rfl, rfl⟩ := h
        obtain ⟨h1, h2⟩ := ih tl e
        refine ⟨?_, ?_⟩
        · simp only [Seg.append, h1]
        · simp only [Chain.horizon]; omega

theorem takeSeg_isSome {n nx : ℕ} (ch : Chain 𝕜 nth nx) :
    (ch.takeSeg n).isSome ↔ n < ch.horizon := by
  induction n generalizing nx ch with
  | zero =>
    cases ch with
    | last k => simp [Chain.takeSeg, Chain.horizon]
    | cons k tl => simp [Chain.takeSeg, Chain.horizon]
  | succ n ih =>
    cases ch with
    | last k => simp [Chain.takeSeg, Chain.horizon]
    | cons k tl =>
      have := ih tl
      simp only [Chain.takeSeg, Chain.horizon]
      rcases h : tl.takeSeg n with _ | ⟨m, s, r⟩
      · rw [h] at this
        simp at this ⊢
        omega
      · rw [h] at this
        simp at this ⊢
        omega

theorem splitLegs_join {ls : List ℕ} {nx : ℕ} (ch : Chain 𝕜 nth nx) {L : Legs 𝕜 nth nx}
    (h : ch.splitLegs ls = some L) : L.join = ch := by
  induction ls generalizing nx ch with
  | nil =>
    simp only [Chain.splitLegs, Option.some.injEq] at h
    subst h; rfl
  | cons n ls ih =>
    cases n with
    | zero => simp [Chain.splitLegs] at h
    | succ n =>
      simp only [Chain.splitLegs] at h
      split at h
      · cases h
      · rename_i m s r e
        split at h
        · cases h
        · rename_i L' e'
          simp only [Option.some.injEq] at h
          subst h
          simp only [Legs.join, ih r e', (takeSeg_spec ch e).1]

theorem splitLegs_isSome {ls : List ℕ} {nx : ℕ} (ch : Chain 𝕜 nth nx) :
    (ch.splitLegs ls).isSome ↔ (∀ n ∈ ls, 0 < n) ∧ ls.sum ≤ ch.horizon := by
  induction ls generalizing nx ch with
  | nil => simp [Chain.splitLegs]
  | cons n ls ih =>
    cases n with
    | zero => simp [Chain.splitLegs]
    | succ n =>
      simp only [Chain.splitLegs]
      have h1 := takeSeg_isSome (n := n) ch
      rcases h : ch.takeSeg n with _ | ⟨m, s, r⟩
      · rw [h] at h1
        simp at h1 ⊢
        intro _; omega
      · rw [h] at h1
        have h2 := (takeSeg_spec ch h).2
        have h3 := ih r
        dsimp only
        rcases h' : r.splitLegs ls with _ | L
        · rw [h'] at h3
          simp at h1 h3 ⊢
          intro h4; have := h3 h4; omega
        · rw [h'] at h3
          simp at h1 h3 ⊢
          refine ⟨h3.1, by omega⟩

/-! ### Legs -/

theorem Seg.append_all (φ : ∀ {nx nu nc nx2 : ℕ}, Knot 𝕜 nth nx nu nc nx2 → Prop) {nx m : ℕ}
    (s : Seg 𝕜 nth nx m) (ch : Chain 𝕜 nth m) (h : (s.append ch).All φ) : ch.All φ := by
  induction s with
  | one k => exact h.2
  | cons k s ih => exact ih ch h.2

theorem Seg.leg_symm {nx m : ℕ} (s : Seg 𝕜 nth nx m) (ch : Chain 𝕜 nth m)
    (h : (s.append ch).Symm) : s.leg.Symm := by
  induction s with
  | one k => exact h.1
  | cons k s ih => exact ⟨h.1, ih ch h.2⟩

theorem Seg.leg_noGv {nx m : ℕ} (s : Seg 𝕜 nth nx m) : s.leg.NoGv := by
  induction s with
  | one k => rfl
  | cons k s ih => exact ⟨rfl, ih⟩

theorem noGv_zero {nx : ℕ} (ch : Chain 𝕜 nth nx) (θ : Vec 𝕜 nth) (h : ch.NoGv) : ch.GvZero θ := by
  induction ch with
  | last k => exact (congrArg (fun M => M *ᵥ θ) h).trans (zero_mulVec _)
  | cons k tl ih => exact ⟨(congrArg (fun M => M *ᵥ θ) h.1).trans (zero_mulVec _), ih h.2⟩

theorem gvZero_zero {nx : ℕ} (ch : Chain 𝕜 nth nx) : ch.GvZero 0 := by
  induction ch with
  | last k => exact mulVec_zero _
  | cons k tl ih => exact ⟨mulVec_zero _, ih⟩

theorem glue_x0 {nx m : ℕ} (s : Seg 𝕜 nth nx m) (t' : Traj s.leg) (lam : Vec 𝕜 m)
    {ch : Chain 𝕜 nth m} (t : Traj ch) : (glue s t' lam t).x0 = t'.x0 := by
  cases s with
  | one k =>
    change Traj (.last k.configure) at t'
    cases t' with | last n => rfl
  | cons k s =>
    change Traj (.cons (k.addParameterization m) s.leg) at t'
    cases t' with | cons n l t'' => rfl

/-- Gluing the KKT conditions of a leg (parametrised by the costate at its end), the linking condition
and the KKT conditions of the rest. -/
theorem glue_tailKKT_iff {mu : 𝕜} {nx m : ℕ} (s : Seg 𝕜 nth nx m) (t' : Traj s.leg) (lam : Vec 𝕜 m)
    {ch : Chain 𝕜 nth m} (t : Traj ch) (p : Vec 𝕜 nx) :
    TailKKT mu 0 (s.append ch) p (glue s t' lam t) ↔
      TailKKT mu lam s.leg p t' ∧ thetaGrad lam s.leg t' = t.x0 ∧ TailKKT mu 0 ch lam t := by
  induction s with
  | one k =>
    change Traj (.last k.configure) at t'
    cases t' with
    | last n =>
      have e1 : gradX k.configure lam n = gradX k 0 n + k.Aᵀ *ᵥ lam := by
        simp only [gradX, Knot.configure, Knot.addParameterization, mulVec_zero, add_zero]
      have e2 : gradU k.configure lam n = gradU k 0 n + k.Bᵀ *ᵥ lam := by
        simp only [gradU, Knot.configure, Knot.addParameterization, mulVec_zero, add_zero]
      have e3 : gradV k.configure mu lam n = gradV k mu 0 n := by
        simp only [gradV, Knot.configure, Knot.addParameterization, mulVec_zero, zero_mulVec]
      have e4 : thetaGrad lam (Seg.one k).leg (.last n) = k.A *ᵥ n.x + k.B *ᵥ n.u + k.f := by
        simp only [Seg.leg, thetaGrad, Knot.configure, Knot.addParameterization, transpose_transpose,
          transpose_zero, zero_mulVec]
        abel
      rw [e4]
      show (_ ∧ _ ∧ _ ∧ _ ∧ _) ↔ (gradX k.configure lam n = p ∧ gradU k.configure lam n = 0 ∧
        gradV k.configure mu lam n = 0) ∧ _
      rw [e1, e2, e3]
      tauto
  | cons k s ih =>
    rename_i nx nu nc nx2 m
    change Traj (.cons (k.addParameterization m) s.leg) at t'
    cases t' with
    | cons n l t'' =>
      have e1 : gradX (k.addParameterization m) lam n = gradX k 0 n := by
        simp only [gradX, Knot.addParameterization, mulVec_zero, zero_mulVec]
      have e2 : gradU (k.addParameterization m) lam n = gradU k 0 n := by
        simp only [gradU, Knot.addParameterization, mulVec_zero, zero_mulVec]
      have e3 : gradV (k.addParameterization m) mu lam n = gradV k mu 0 n := by
        simp only [gradV, Knot.addParameterization, mulVec_zero, zero_mulVec]
      have e4 : thetaGrad lam (Seg.cons k s).leg (.cons n l t'') = thetaGrad lam s.leg t'' := by
        simp only [Seg.leg, thetaGrad, Knot.addParameterization,
          transpose_zero, zero_mulVec, add_zero, zero_add]
      rw [e4]
      show (gradX k 0 n + k.Aᵀ *ᵥ l = p ∧ gradU k 0 n + k.Bᵀ *ᵥ l = 0 ∧ gradV k mu 0 n = 0 ∧
          k.A *ᵥ n.x + k.B *ᵥ n.u + k.f = (glue s t'' lam t).x0 ∧
          TailKKT mu 0 (s.append ch) l (glue s t'' lam t)) ↔
        (gradX (k.addParameterization m) lam n + k.Aᵀ *ᵥ l = p ∧
          gradU (k.addParameterization m) lam n + k.Bᵀ *ᵥ l = 0 ∧
          gradV (k.addParameterization m) mu lam n = 0 ∧
          k.A *ᵥ n.x + k.B *ᵥ n.u + k.f = t''.x0 ∧ TailKKT mu lam s.leg l t'') ∧ _
      rw [e1, e2, e3, glue_x0, ih]
      tauto

/-- Every trajectory of the whole is glued from a trajectory of the leg and one of the rest. -/
theorem glue_surj {nx m : ℕ} (s : Seg 𝕜 nth nx m) {ch : Chain 𝕜 nth m} (t : Traj (s.append ch)) :
    ∃ t' lam t2, t = glue s t' lam t2 := by
  induction s with
  | one k =>
    change Traj (.cons k ch) at t
    cases t with
    | cons n lam t => exact ⟨Traj.last (k := k.configure) n, lam, t, rfl⟩
  | cons k s ih =>
    rename_i nx nu nc nx2 m
    change Traj (.cons k (s.append ch)) at t
    cases t with
    | cons n l t =>
      obtain ⟨t', lam, t2, rfl⟩ := ih t
      exact ⟨Traj.cons (k := k.addParameterization m) n l t', lam, t2, rfl⟩

/-- The factors of all legs satisfy the Riccati equations. -/
def LegsOK (mueq : 𝕜) : {nx : ℕ} → {L : Legs 𝕜 nth nx} → LegFacs L → Prop
  | _, _, .last (ch := ch) F => FacsOK mueq ch F ∧ F.vm.Vxx.IsSymm
  | _, _, .cons (s := s) F FL => (FacsOK mueq s.leg F ∧ F.vm.Vxx.IsSymm) ∧ LegsOK mueq FL

theorem backwardLegs_ok {ldl : LDL 𝕜} (hl : ldl.Exact) {mueq : 𝕜} {nx : ℕ} (L : Legs 𝕜 nth nx)
    (hs : L.join.Symm) (FL : LegFacs L) (h : backwardLegs ldl mueq L = .ok FL) : LegsOK mueq FL := by
  induction L with
  | last ch =>
    unfold backwardLegs at h
    split at h
    · cases h
    · rename_i F hF
      injection h with h
      subst h
      exact backwardImpl_ok hl ch hs F hF
  | cons s L ih =>
    unfold backwardLegs at h
    split at h
    · cases h
    · rename_i F hF
      split at h
      · cases h
      · rename_i FL' hFL
        injection h with h
        subst h
        exact ⟨backwardImpl_ok hl s.leg (s.leg_symm _ hs) F hF,
          ih (s.append_all _ _ hs) FL' hFL⟩

theorem forwardLegs_x0 {nx : ℕ} {L : Legs 𝕜 nth nx} (FL : LegFacs L) (z : BV 𝕜 nx L.shape) :
    (forwardLegs FL z).x0 = z.head := by
  cases FL with
  | last F =>
    change BV 𝕜 nx [] at z
    cases z with
    | last x => exact forwardImpl_x0 _ _ _
  | @cons _ m s L F FL =>
    change BV 𝕜 nx (m :: m :: L.shape) at z
    cases z with
    | cons x z =>
      cases z with
      | cons lam z =>
        refine (glue_x0 s _ _ _).trans ?_
        exact forwardImpl_x0 _ _ _

theorem condensed_tailKKT {mueq : 𝕜} {nx : ℕ} {L : Legs 𝕜 nth nx} (hs : L.join.Symm)
    (FL : LegFacs L) (hF : LegsOK mueq FL) (p : Vec 𝕜 nx) (z : BV 𝕜 nx L.shape)
    (h : FL.condT.mulFrom p z = FL.condR) : TailKKT mueq 0 L.join (-p) (forwardLegs FL z) := by
  induction FL with
  | last F =>
    rename_i nx ch
    change BV 𝕜 nx [] at z
    cases z with
    | last x =>
      have h' : p + F.vm.Vxx *ᵥ x = -F.vm.vx := by
        have h2 : BV.last (p + F.vm.Vxx *ᵥ x) = BV.last (-F.vm.vx) := h
        exact BV.last.inj h2
      have := forwardImpl_tailKKT 0 ch hs (gvZero_zero ch) F hF.1 x
      rw [mulVec_zero, add_zero,
        show F.vm.vx + F.vm.Vxx *ᵥ x = -p by linear_combination (norm := module) h'] at this
      exact this
  | cons F FL ih =>
    rename_i nx m s L
    change BV 𝕜 nx (m :: m :: L.shape) at z
    cases z with
    | cons x z =>
      cases z with
      | cons lam z =>
        have h' : BV.cons (p + F.vm.Vxx *ᵥ x + F.vm.Vxt *ᵥ lam)
            (.cons (F.vm.Vxtᵀ *ᵥ x + F.vm.Vtt *ᵥ lam + -(1 : Mat 𝕜 m m) *ᵥ z.head)
              (FL.condT.mulFrom ((-(1 : Mat 𝕜 m m))ᵀ *ᵥ lam) z)) =
            BV.cons (-F.vm.vx) (.cons (-F.vm.vt) FL.condR) := h
        rw [BV.cons.injEq, BV.cons.injEq, neg_mulVec, one_mulVec, transpose_neg, transpose_one, neg_mulVec,
          one_mulVec] at h'
        obtain ⟨h1, h2, h3⟩ := h'
        have hleg := s.leg_noGv
        refine (glue_tailKKT_iff s _ lam _ (-p)).2 ⟨?_, ?_, ?_⟩
        · have := forwardImpl_tailKKT lam s.leg (s.leg_symm _ hs) (noGv_zero _ _ hleg) F hF.1.1 x
          rwa [show F.vm.vx + F.vm.Vxx *ᵥ x + F.vm.Vxt *ᵥ lam = -p by
            linear_combination (norm := module) h1] at this
        · rw [← forwardImpl_thetaGrad lam s.leg hleg F hF.1.1 x, forwardLegs_x0]
          linear_combination (norm := module) h2
        · have := ih (s.append_all _ _ hs) hF.2 (-lam) z h3
          rwa [neg_neg] at this

section vtt
variable {nx nu nc nx2 : ℕ} {m : Knot 𝕜 nth nx nu nc nx2} {vn : CostToGo 𝕜 nth nx2} {mueq : 𝕜}
  {F : Factor 𝕜 nth nx nu nc nx2}

theorem StageEqs.Vtt_eq (E : StageEqs m vn mueq F) (hV : vn.Vxx.IsSymm) (hR : m.R.IsSymm)
    (hG : m.Gv = 0) : F.vm.Vtt = m.Gth + vn.Vtt -
      (F.Kthᵀ * (m.R + m.Bᵀ * vn.Vxx * m.B) * F.Kth + mueq • (F.Zthᵀ * F.Zth)) := by
  have hRh : (m.R + m.Bᵀ * vn.Vxx * m.B).IsSymm := hR.add (isSymm_congr hV _)
  set Rh := m.R + m.Bᵀ * vn.Vxx * m.B with hRhd
  have e1 : (m.Gu + m.Bᵀ * vn.Vxt)ᵀ * F.Kth = -(F.Kthᵀ * Rh * F.Kth + F.Zthᵀ * (m.D * F.Kth)) := by
    have := congrArg transpose E.T1
    rw [transpose_neg, transpose_add, transpose_mul, transpose_mul, transpose_transpose, ← hRhd,
      hRh.eq] at this
    rw [show (m.Gu + m.Bᵀ * vn.Vxt)ᵀ = -(F.Kthᵀ * Rh + F.Zthᵀ * m.D) by rw [this, neg_neg],
      Matrix.neg_mul, Matrix.add_mul, Matrix.mul_assoc F.Zthᵀ]
  have e2 : m.D * F.Kth = mueq • F.Zth := by
    have := E.T2
    rw [hG, neg_zero, neg_smul, Matrix.neg_mul, Matrix.smul_mul, Matrix.one_mul] at this
    linear_combination (norm := module) this
  rw [e2, Matrix.mul_smul] at e1
  rw [E.Vtt, E.Yth, ← Matrix.mul_assoc, add_assoc, ← Matrix.add_mul]
  rw [transpose_add, transpose_mul, transpose_transpose] at e1
  rw [e1]
  abel

theorem TermEqs.Vtt_eq (E : TermEqs m mueq F) (hR : m.R.IsSymm) :
    F.vm.Vtt = m.Gth - (F.Kthᵀ * m.R * F.Kth + mueq • (F.Zthᵀ * F.Zth)) := by
  have e1 : m.Guᵀ * F.Kth = -(F.Kthᵀ * m.R * F.Kth + F.Zthᵀ * (m.D * F.Kth)) := by
    have := congrArg transpose E.T1
    rw [transpose_neg, transpose_add, transpose_mul, transpose_mul, transpose_transpose,
      hR.eq] at this
    rw [show m.Guᵀ = -(F.Kthᵀ * m.R + F.Zthᵀ * m.D) by rw [this, neg_neg],
      Matrix.neg_mul, Matrix.add_mul, Matrix.mul_assoc F.Zthᵀ]
  have e2 : m.D * F.Kth = mueq • F.Zth := by
    have := E.T2
    rw [neg_smul, Matrix.neg_mul, Matrix.smul_mul, Matrix.one_mul] at this
    linear_combination (norm := module) this
  rw [e2, Matrix.mul_smul] at e1
  rw [E.Vtt, e1]
  abel

theorem isSymm_smul_gram {a b : ℕ} (c : 𝕜) (Z : Mat 𝕜 a b) : (c • (Zᵀ * Z)).IsSymm := by
  rw [Matrix.IsSymm, transpose_smul, transpose_mul, transpose_transpose]

end vtt

theorem FacsOK.Vtt_symm {mueq : 𝕜} {nx : ℕ} (ch : Chain 𝕜 nth nx) (hs : ch.Symm) (hG : ch.NoGv)
    (hT : ch.GthSymm) (F : Facs ch) (hF : FacsOK mueq ch F) : F.vm.Vtt.IsSymm := by
  induction ch with
  | last k =>
    cases F with
    | last F =>
      show F.vm.Vtt.IsSymm
      rw [TermEqs.Vtt_eq hF hs.2]
      have hT' : k.Gth.IsSymm := hT
      exact hT'.sub ((isSymm_congr hs.2 _).add (isSymm_smul_gram _ _))
  | cons k tl ih =>
    cases F with
    | cons F Ft =>
      obtain ⟨hV, E, hFt⟩ := hF
      show F.vm.Vtt.IsSymm
      rw [E.Vtt_eq hV hs.1.2 hG.1]
      have hT' : k.Gth.IsSymm := hT.1
      exact (hT'.add (ih hs.2 hG.2 hT.2 Ft hFt)).sub
        ((isSymm_congr (hs.1.2.add (isSymm_congr hV _)) _).add (isSymm_smul_gram _ _))

theorem Seg.leg_gthSymm {nx m : ℕ} (s : Seg 𝕜 nth nx m) : s.leg.GthSymm := by
  induction s with
  | one k => exact transpose_zero
  | cons k s ih => exact ⟨transpose_zero, ih⟩

/-- The condensed data is symmetric. -/
theorem condT_symm {mueq : 𝕜} {nx : ℕ} {L : Legs 𝕜 nth nx} (hs : L.join.Symm) (FL : LegFacs L)
    (hF : LegsOK mueq FL) : FL.condT.Symm := by
  induction FL with
  | last F => exact hF.2
  | cons F FL ih =>
    rename_i s L
    exact ⟨hF.1.2, rfl, FacsOK.Vtt_symm s.leg (s.leg_symm _ hs) s.leg_noGv s.leg_gthSymm F hF.1.1,
      rfl, ih (s.append_all _ _ hs) hF.2⟩

theorem condensedT_symm {mueq : 𝕜} {nc0 nx : ℕ} (G0 : Mat 𝕜 nc0 nx) {L : Legs 𝕜 nth nx}
    (hs : L.join.Symm) (FL : LegFacs L) (hF : LegsOK mueq FL) : (condensedT G0 0 FL).Symm := by
  refine ⟨?_, rfl, condT_symm hs FL hF⟩
  rw [neg_zero, zero_smul]
  exact transpose_zero

theorem condensed_KKT {mueq : 𝕜} {nc0 nx : ℕ} (G0 : Mat 𝕜 nc0 nx) (g0 : Vec 𝕜 nc0)
    {L : Legs 𝕜 nth nx} (hs : L.join.Symm) (FL : LegFacs L) (hF : LegsOK mueq FL)
    (lam0 : Vec 𝕜 nc0) (z : BV 𝕜 nx L.shape)
    (h : (condensedT G0 0 FL).mulFrom 0 (.cons lam0 z) = condensedR g0 FL) :
    KKT ⟨G0, g0, L.join⟩ mueq 0 lam0 (forwardLegs FL z) := by
  have h' : BV.cons (0 + (-(0 : 𝕜) • (1 : Mat 𝕜 nc0 nc0)) *ᵥ lam0 + G0 *ᵥ z.head)
      (FL.condT.mulFrom (G0ᵀ *ᵥ lam0) z) = BV.cons (-g0) FL.condR := h
  rw [BV.cons.injEq, neg_zero, zero_smul, zero_mulVec] at h'
  obtain ⟨h1, h2⟩ := h'
  refine ⟨?_, ?_⟩
  · show G0 *ᵥ (forwardLegs FL z).x0 + g0 = 0
    rw [forwardLegs_x0]
    linear_combination (norm := module) h1
  · exact condensed_tailKKT hs FL hF _ z h2

/-! ### Refinement -/

theorem BV.smul_smul (a b : 𝕜) {n : ℕ} {ns : List ℕ} (x : BV 𝕜 n ns) :
    (x.smul b).smul a = x.smul (a * b) := by
  induction x with
  | last v => simp [BV.smul, _root_.smul_smul]
  | cons v tl ih => simp [BV.smul, _root_.smul_smul, ih]

/-- Residual of the refinement loop in dense form. -/
theorem residual_flat {n : ℕ} {ns : List ℕ} (T : BT 𝕜 n ns) (sol err : BV 𝕜 n ns) :
    ((T.matMul sol err (-1)).smul (-1)).flat = err.flat - T.dense *ᵥ sol.flat := by
  rw [smul_flat, BT.matMul, add_flat, smul_flat, mulFrom_zero_flat]
  module

variable {n : ℕ} {ns : List ℕ} {T : BT 𝕜 n ns} {F : BFac 𝕜 n ns} (hF : FacOK T F)
  {rhs : BV 𝕜 n ns}
include hF

theorem dense_inj {x y : Idx n ns → 𝕜} (h : T.dense *ᵥ x = T.dense *ᵥ y) : x = y :=
  Matrix.mulVec_injective_of_isUnit ((Matrix.isUnit_iff_isUnit_det _).2 hF.isUnit) h

theorem refine_flat (r : BV 𝕜 n ns) : T.dense *ᵥ (F.refine r).flat = r.flat := by
  rw [← mulFrom_zero_flat, refine_solves T F hF]

/-- One refinement step that is not skipped makes the solution solve `T sol = err`. -/
theorem refine_step (sol err : BV 𝕜 n ns) :
    T.dense *ᵥ (sol.add (F.refine ((T.matMul sol err (-1)).smul (-1)))).flat = err.flat := by
  rw [add_flat, mulVec_add, refine_flat hF, residual_flat]
  abel

/-- From an exact solution with the right-hand side in the error buffer, further steps change nothing. -/
theorem refineLoop_exact (small : BV 𝕜 n ns → Bool) (steps : ℕ) (sol : BV 𝕜 n ns)
    (h : T.dense *ᵥ sol.flat = rhs.flat) :
    (refineLoop T F rhs small steps sol rhs).1 = sol := by
  induction steps generalizing sol with
  | zero => rfl
  | succ k ih =>
    simp only [refineLoop]
    split
    · rfl
    · have e := refine_step hF sol rhs
      rw [ih _ e]
      exact flat_injective (dense_inj hF (e.trans h.symm))

/-- The loop started at an exact solution with any content of the error buffer. -/
theorem refineLoop_any (small : BV 𝕜 n ns → Bool) (hsm : ∀ v, small (v.smul (-1)) = small v)
    (steps : ℕ) (hst : steps ≠ 1) (sol err : BV 𝕜 n ns) (h : T.dense *ᵥ sol.flat = rhs.flat) :
    (refineLoop T F rhs small steps sol err).1 = sol := by
  match steps, hst with
  | 0, _ => rfl
  | k + 2, _ =>
    rw [refineLoop]
    by_cases h1 : small ((T.matMul sol err (-1)).smul (-1)) = true
    · rw [if_pos h1]
    · rw [if_neg h1]
      have e := refine_step hF sol err
      set sol1 := sol.add (F.refine ((T.matMul sol err (-1)).smul (-1))) with hsol1
      -- the second residual is the opposite of the first one
      have e2 : (T.matMul sol1 rhs (-1)).smul (-1) =
          ((T.matMul sol err (-1)).smul (-1)).smul (-1) := by
        apply flat_injective
        rw [residual_flat, e, smul_flat, residual_flat, h]
        module
      rw [refineLoop]
      rw [if_neg (by rw [e2, hsm]; exact h1)]
      have e3 := refine_step hF sol1 rhs
      rw [refineLoop_exact hF small k _ e3]
      exact flat_injective (dense_inj hF (e3.trans h.symm))

/-- A single step replaces the solution by the solution for the old content of the error buffer. -/
theorem refineLoop_one (small : BV 𝕜 n ns → Bool) (sol err : BV 𝕜 n ns)
    (hn : small ((T.matMul sol err (-1)).smul (-1)) = false) :
    T.dense *ᵥ (refineLoop T F rhs small 1 sol err).1.flat = err.flat := by
  simp only [refineLoop, hn]
  exact refine_step hF sol err

end field

/-! ### Success on strictly convex problems -/

section order
variable {𝕜 : Type*} [Field 𝕜] [LinearOrder 𝕜] [IsStrictOrderedRing 𝕜] {nth : ℕ}

theorem FacsOK.Vtt_nsd {mueq : 𝕜} (hmu : 0 < mueq) {nx : ℕ} (ch : Chain 𝕜 nth nx) (hs : ch.Symm)
    (hc : ch.Convex) (hG : ch.NoGv) (hT : ch.All (fun k => k.Gth = 0)) (F : Facs ch)
    (hF : FacsOK mueq ch F) (θ : Vec 𝕜 nth) : θ ⬝ᵥ F.vm.Vtt *ᵥ θ ≤ 0 := by
  induction ch with
  | last k =>
    cases F with
    | last F =>
      show θ ⬝ᵥ F.vm.Vtt *ᵥ θ ≤ 0
      have hT' : k.Gth = 0 := hT
      have c1 := hc 0 (F.Kth *ᵥ θ)
      have c2 := mul_nonneg hmu.le (dot_self_nonneg (F.Zth *ᵥ θ))
      rw [TermEqs.Vtt_eq hF hs.2, hT']
      simp only [zero_sub, neg_mulVec, add_mulVec, smul_mulVec, ← mulVec_mulVec, dotProduct_neg,
        dotProduct_add, dotProduct_smul, smul_eq_mul, dot_tr, mulVec_zero, zero_dotProduct,
        mul_zero, zero_add] at c1 ⊢
      rw [dotProduct_comm (F.Kth *ᵥ θ)] at c1
      linarith
  | cons k tl ih =>
    cases F with
    | cons F Ft =>
      obtain ⟨hV, E, hFt⟩ := hF
      show θ ⬝ᵥ F.vm.Vtt *ᵥ θ ≤ 0
      have hT' : k.Gth = 0 := hT.1
      have c0 := ih hs.2 hc.2 hG.2 hT.2 Ft hFt
      have c1 := hc.1 0 (F.Kth *ᵥ θ)
      have c2 := mul_nonneg hmu.le (dot_self_nonneg (F.Zth *ᵥ θ))
      have c3 := FacsOK.psd hmu tl hc.2 Ft hFt (k.B *ᵥ F.Kth *ᵥ θ)
      rw [E.Vtt_eq hV hs.1.2 hG.1, hT']
      simp only [zero_add, sub_mulVec, add_mulVec, smul_mulVec, ← mulVec_mulVec, dotProduct_sub,
        mulVec_add,
        dotProduct_add, dotProduct_smul, smul_eq_mul, dot_tr, mulVec_zero, zero_dotProduct,
        mul_zero] at c1 ⊢
      rw [dotProduct_comm (F.Kth *ᵥ θ)] at c1
      rw [dotProduct_comm (k.Bᵀ *ᵥ _), dot_tr]
      rw [dotProduct_comm (k.B *ᵥ _)] at c3
      linarith

/-- The quadratic form of every knot is positive for non-zero states. -/
def Chain.StrictPos {nx : ℕ} (ch : Chain 𝕜 nth nx) : Prop :=
  ch.All (fun {nx nu _ _} k => ∀ (x : Vec 𝕜 nx) (u : Vec 𝕜 nu), x ≠ 0 →
    0 < x ⬝ᵥ k.Q *ᵥ x + 2 * (x ⬝ᵥ k.S *ᵥ u) + u ⬝ᵥ k.R *ᵥ u)

theorem Seg.leg_convex {nx m : ℕ} (s : Seg 𝕜 nth nx m) (ch : Chain 𝕜 nth m)
    (h : (s.append ch).Convex) : s.leg.Convex := by
  induction s with
  | one k => exact h.1
  | cons k s ih => exact ⟨h.1, ih ch h.2⟩

theorem Seg.leg_rpos {nx m : ℕ} (s : Seg 𝕜 nth nx m) (ch : Chain 𝕜 nth m)
    (h : (s.append ch).RPos) : s.leg.RPos := by
  induction s with
  | one k => exact h.1
  | cons k s ih => exact ⟨h.1, ih ch h.2⟩

theorem Seg.leg_headPos {nx m : ℕ} (s : Seg 𝕜 nth nx m) (ch : Chain 𝕜 nth m)
    (h : (s.append ch).StrictPos) (x : Vec 𝕜 nx) (hx : x ≠ 0) : s.leg.HeadPos x := by
  cases s with
  | one k => exact fun u => h.1 x u hx
  | cons k s => exact fun u => h.1 x u hx

theorem StrictPos.headPos {nx : ℕ} (ch : Chain 𝕜 nth nx) (h : ch.StrictPos) (x : Vec 𝕜 nx)
    (hx : x ≠ 0) : ch.HeadPos x := by
  cases ch with
  | last k => exact fun u => h x u hx
  | cons k s => exact fun u => h.1 x u hx

theorem Seg.leg_gth {nx m : ℕ} (s : Seg 𝕜 nth nx m) : s.leg.All (fun k => k.Gth = 0) := by
  induction s with
  | one k => rfl
  | cons k s ih => exact ⟨rfl, ih⟩

theorem isUnit_of_ker {n : ℕ} {ns : List ℕ} (T : BT 𝕜 n ns)
    (h : ∀ z, T.mulFrom 0 z = BV.zero n ns → z = BV.zero n ns) : IsUnit T.dense.det := by
  rw [isUnit_iff_ne_zero]
  intro h0
  obtain ⟨w, hw, hw0⟩ := Matrix.exists_mulVec_eq_zero_iff.2 h0
  obtain ⟨z, rfl⟩ := flat_surjective w
  apply hw
  have := h z (flat_injective (by rw [mulFrom_zero_flat, hw0, BV.zero_flat]))
  rw [this, BV.zero_flat]

theorem zero_head {n : ℕ} {ns : List ℕ} : (BV.zero n ns : BV 𝕜 n ns).head = 0 := by
  cases ns <;> rfl

theorem condT_form {mueq : 𝕜} (hmu : 0 < mueq) {nx : ℕ} {L : Legs 𝕜 nth nx} (hs : L.join.Symm)
    (hc : L.join.Convex) (hp : L.join.StrictPos) (FL : LegFacs L) (hF : LegsOK mueq FL)
    (p : Vec 𝕜 nx) (z : BV 𝕜 nx L.shape) (h : FL.condT.mulFrom p z = BV.zero _ _) :
    z.head ⬝ᵥ p ≤ 0 ∧ (z.head ⬝ᵥ p = 0 → z = BV.zero _ _ ∧ p = 0) := by
  induction FL with
  | @last nx ch F =>
    change BV 𝕜 nx [] at z
    cases z with
    | last x =>
      have h2 : BV.last (p + F.vm.Vxx *ᵥ x) = BV.last 0 := h
      have h3 := BV.last.inj h2
      have e : x ⬝ᵥ p = -(x ⬝ᵥ F.vm.Vxx *ᵥ x) := by
        have := congrArg (fun v => x ⬝ᵥ v) h3
        simp only [dotProduct_add, dotProduct_zero] at this
        linarith
      have pd : x ≠ 0 → 0 < x ⬝ᵥ F.vm.Vxx *ᵥ x := fun hx =>
        FacsOK.pd_of_head hmu ch hc F hF.1 x (StrictPos.headPos ch hp x hx)
      have psd := FacsOK.psd hmu ch hc F hF.1 x
      refine ⟨?_, fun h0 => ?_⟩
      · show x ⬝ᵥ p ≤ 0
        linarith
      · have hx : x = 0 := by
          by_contra hx
          have := pd hx
          have h0' : x ⬝ᵥ p = 0 := h0
          linarith
        subst hx
        rw [mulVec_zero, add_zero] at h3
        exact ⟨rfl, h3⟩
  | @cons nx m s L F FL ih =>
    change BV 𝕜 nx (m :: m :: L.shape) at z
    cases z with
    | cons x z =>
      cases z with
      | cons lam z =>
        have h' : BV.cons (p + F.vm.Vxx *ᵥ x + F.vm.Vxt *ᵥ lam)
            (.cons (F.vm.Vxtᵀ *ᵥ x + F.vm.Vtt *ᵥ lam + -(1 : Mat 𝕜 m m) *ᵥ z.head)
              (FL.condT.mulFrom ((-(1 : Mat 𝕜 m m))ᵀ *ᵥ lam) z)) =
            BV.cons 0 (.cons 0 (BV.zero _ _)) := h
        rw [BV.cons.injEq, BV.cons.injEq, neg_mulVec, one_mulVec, transpose_neg, transpose_one,
          neg_mulVec, one_mulVec] at h'
        obtain ⟨h1, h2, h3⟩ := h'
        obtain ⟨i1, i2⟩ := ih (s.append_all _ _ hs) (s.append_all _ _ hc) (s.append_all _ _ hp)
          hF.2 (-lam) z h3
        have q1 := congrArg (fun v => x ⬝ᵥ v) h1
        have q2 := congrArg (fun v => lam ⬝ᵥ v) h2
        simp only [dotProduct_add, dotProduct_zero, dotProduct_neg, dot_tr] at q1 q2 i1
        rw [dotProduct_comm lam (z.head)] at q2
        have pd : x ≠ 0 → 0 < x ⬝ᵥ F.vm.Vxx *ᵥ x := fun hx =>
          FacsOK.pd_of_head hmu s.leg (s.leg_convex _ hc) F hF.1.1 x (s.leg_headPos _ hp x hx)
        have psd := FacsOK.psd hmu s.leg (s.leg_convex _ hc) F hF.1.1 x
        have nsd := FacsOK.Vtt_nsd hmu s.leg (s.leg_symm _ hs) (s.leg_convex _ hc) s.leg_noGv
          s.leg_gth F hF.1.1 lam
        refine ⟨?_, fun h0 => ?_⟩
        · show x ⬝ᵥ p ≤ 0
          linarith
        · have h0' : x ⬝ᵥ p = 0 := h0
          have hx : x = 0 := by
            by_contra hx
            have := pd hx
            linarith
          obtain ⟨j1, j2⟩ := i2 (by rw [dotProduct_neg]; linarith)
          have hlam : lam = 0 := neg_eq_zero.1 j2
          subst hx hlam j1
          refine ⟨rfl, ?_⟩
          simpa using h1

theorem condT_trailing {mueq : 𝕜} (hmu : 0 < mueq) {nx : ℕ} {L : Legs 𝕜 nth nx} (hs : L.join.Symm)
    (hc : L.join.Convex) (hp : L.join.StrictPos) (FL : LegFacs L) (hF : LegsOK mueq FL) :
    FL.condT.TrailingInvertible := by
  have hker : IsUnit FL.condT.dense.det := isUnit_of_ker _ fun z hz =>
    ((condT_form hmu hs hc hp FL hF 0 z hz).2 (by rw [dotProduct_zero])).1
  induction FL with
  | @last nx ch F => exact hker
  | @cons nx m s L F FL ih =>
    have hs' := s.append_all _ _ hs
    have hc' : L.join.Convex := s.append_all _ _ hc
    have hp' : L.join.StrictPos := s.append_all _ _ hp
    refine ⟨hker, ?_, ih hs' hc' hp' hF.2 (isUnit_of_ker _ fun z hz =>
      ((condT_form hmu hs' hc' hp' FL hF.2 0 z hz).2 (by rw [dotProduct_zero])).1)⟩
    apply isUnit_of_ker
    intro z hz
    cases z with
    | cons lam z =>
      have h' : BV.cons (0 + F.vm.Vtt *ᵥ lam + -(1 : Mat 𝕜 m m) *ᵥ z.head)
            (FL.condT.mulFrom ((-(1 : Mat 𝕜 m m))ᵀ *ᵥ lam) z) =
          BV.cons 0 (BV.zero _ _) := hz
      rw [BV.cons.injEq, neg_mulVec, one_mulVec, transpose_neg, transpose_one,
          neg_mulVec, one_mulVec] at h'
      obtain ⟨h1, h2⟩ := h'
      obtain ⟨i1, i2⟩ := condT_form hmu hs' hc' hp' FL hF.2 (-lam) z h2
      have q := congrArg (fun v => lam ⬝ᵥ v) h1
      simp only [dotProduct_add, dotProduct_zero, dotProduct_neg, zero_add] at q i1
      rw [dotProduct_comm lam z.head] at q
      have nsd := FacsOK.Vtt_nsd hmu s.leg (s.leg_symm _ hs) (s.leg_convex _ hc) s.leg_noGv
          s.leg_gth F hF.1.1 lam
      obtain ⟨j1, j2⟩ := i2 (by rw [dotProduct_neg]; linarith)
      rw [neg_eq_zero.1 j2, j1]
      rfl

theorem condensedT_trailing {mueq : 𝕜} (hmu : 0 < mueq) {nc0 nx : ℕ} (G0 : Mat 𝕜 nc0 nx)
    {L : Legs 𝕜 nth nx} (hs : L.join.Symm)
    (hc : L.join.Convex) (hp : L.join.StrictPos) (hG : ∀ z, G0ᵀ *ᵥ z = 0 → z = 0)
    (FL : LegFacs L) (hF : LegsOK mueq FL) :
    (condensedT G0 0 FL).TrailingInvertible := by
  refine ⟨isUnit_of_ker _ fun z hz => ?_, condT_trailing hmu hs hc hp FL hF⟩
  cases z with
  | cons lam z =>
    have h' : BV.cons (0 + (-(0 : 𝕜) • (1 : Mat 𝕜 nc0 nc0)) *ᵥ lam + G0 *ᵥ z.head)
        (FL.condT.mulFrom (G0ᵀ *ᵥ lam) z) = BV.cons 0 (BV.zero _ _) := hz
    rw [BV.cons.injEq, neg_zero, zero_smul, zero_mulVec, zero_add, zero_add] at h'
    obtain ⟨h1, h2⟩ := h'
    obtain ⟨-, i2⟩ := condT_form hmu hs hc hp FL hF _ z h2
    obtain ⟨j1, j2⟩ := i2 (by rw [dot_tr, h1, dotProduct_zero])
    rw [hG lam j2, j1]
    rfl

theorem backwardLegs_success {ldl : LDL 𝕜} (hl : ldl.Exact) (hcm : ldl.Complete) {mueq : 𝕜}
    (hmu : 0 < mueq) {nx : ℕ} (L : Legs 𝕜 nth nx) (hs : L.join.Symm) (hc : L.join.Convex)
    (hR : L.join.RPos) : ∃ FL, backwardLegs ldl mueq L = .ok FL := by
  induction L with
  | last ch =>
    obtain ⟨F, h⟩ := backwardImpl_success hl hcm hmu ch hs hc hR
    exact ⟨.last F, by simp only [backwardLegs, h]⟩
  | cons s L ih =>
    obtain ⟨F, h⟩ := backwardImpl_success hl hcm hmu s.leg (s.leg_symm _ hs) (s.leg_convex _ hc)
      (s.leg_rpos _ hR)
    obtain ⟨FL, h'⟩ := ih (s.append_all _ _ hs) (s.append_all _ _ hc) (s.append_all _ _ hR)
    exact ⟨.cons F FL, by simp only [backwardLegs, h, h']⟩

end order
end Aligator.Gar
