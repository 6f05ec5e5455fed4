import Verif.Spec.BlockTridiag
import Verif.Lemmas.Riccati
import Mathlib.LinearAlgebra.Matrix.ToLinearEquiv

set_option linter.unusedSectionVars false

namespace Aligator.Gar

open Matrix

variable {𝕜 : Type*} [Field 𝕜] [DecidableEq 𝕜]

/-- What a successful elimination leaves. -/
def FacOK : {n : ℕ} → {ns : List ℕ} → BT 𝕜 n ns → BFac 𝕜 n ns → Prop
  | _, _, .last D, .last D' X => D' = D ∧ D * X = 1
  | _, _, .cons D B C tl, .cons D' X B' Ut Ft =>
      B' = B ∧ Ut = Ft.X * C ∧ D' = D - B * Ut ∧ D' * X = 1 ∧ FacOK tl Ft

@[simp] theorem BV.subHead_head {n : ℕ} {ns : List ℕ} (v : BV 𝕜 n ns) (w : Vec 𝕜 n) :
    (v.subHead w).head = v.head - w := by
  cases v <;> rfl

theorem BV.head_last {n : ℕ} (v : Vec 𝕜 n) : (BV.last v).head = v := rfl

theorem BV.head_cons {n m : ℕ} {ms : List ℕ} (v : Vec 𝕜 n) (t : BV 𝕜 m ms) :
    (BV.cons v t).head = v := rfl

theorem BV.subHead_last {n : ℕ} (v w : Vec 𝕜 n) : (BV.last v).subHead w = .last (v - w) := rfl

theorem BV.subHead_cons {n m : ℕ} {ms : List ℕ} (v w : Vec 𝕜 n) (t : BV 𝕜 m ms) :
    (BV.cons v t).subHead w = .cons (v - w) t := rfl

@[simp] theorem BV.subHead_zero {n : ℕ} {ns : List ℕ} (v : BV 𝕜 n ns) : v.subHead 0 = v := by
  cases v <;> simp [BV.subHead]

theorem sweep_head {n : ℕ} {ns : List ℕ} (F : BFac 𝕜 n ns) (v : BV 𝕜 n ns) :
    (F.sweep v).head = v.head := by
  cases F <;> cases v <;> rfl

theorem back_cons_subHead {n : ℕ} {ns : List ℕ} (T : BT 𝕜 n ns) (F : BFac 𝕜 n ns) (h : FacOK T F)
    (p : Vec 𝕜 n) (r : BV 𝕜 n ns) :
    T.mulFrom p (F.sweep ((F.back r).subHead (F.X *ᵥ p))) = r := by
  induction T with
  | last D =>
    cases F with
    | last D' X =>
      cases r with
      | last r =>
        obtain ⟨-, hX⟩ := h
        simp only [BFac.back, BV.subHead_last, BV.subHead_cons, BFac.sweep, BT.mulFrom, BFac.X]
        rw [mulVec_sub, mulVec_mulVec, mulVec_mulVec, hX, one_mulVec, one_mulVec]
        congr 1; abel
  | cons D B C tl ih =>
    cases F with
    | cons D' X B' Ut Ft =>
      cases r with
      | cons r rt =>
        obtain ⟨rfl, hU, hD, hX, hF⟩ := h
        simp only [BFac.back, BV.subHead_last, BV.subHead_cons, BFac.sweep, BT.mulFrom, BFac.X]
        have hU' : Ut *ᵥ (X *ᵥ (r - B' *ᵥ (Ft.back rt).head) - X *ᵥ p) =
            Ft.X *ᵥ (C *ᵥ (X *ᵥ (r - B' *ᵥ (Ft.back rt).head) - X *ᵥ p)) := by
          rw [hU, mulVec_mulVec]
        congr 1
        · rw [sweep_head, BV.subHead_head]
          have e : D' *ᵥ (X *ᵥ (r - B' *ᵥ (Ft.back rt).head) - X *ᵥ p) =
              r - B' *ᵥ (Ft.back rt).head - p := by
            rw [mulVec_sub, mulVec_mulVec, mulVec_mulVec, hX, one_mulVec, one_mulVec]
          rw [hD, sub_mulVec, ← mulVec_mulVec] at e
          rw [mulVec_sub B']
          linear_combination (norm := module) e
        · rw [hU']
          exact ih Ft hF _ rt

theorem refine_solves {n : ℕ} {ns : List ℕ} (T : BT 𝕜 n ns) (F : BFac 𝕜 n ns) (h : FacOK T F)
    (r : BV 𝕜 n ns) : T.mulFrom 0 (F.refine r) = r := by
  have := back_cons_subHead T F h 0 r
  rwa [mulVec_zero, BV.subHead_zero] at this

theorem eliminate_spec {ldl : LDL 𝕜} (hl : ldl.Exact) {n : ℕ} {ns : List ℕ} (T : BT 𝕜 n ns)
    (hs : T.Symm) (r : BV 𝕜 n ns) (F : BFac 𝕜 n ns) (r' : BV 𝕜 n ns)
    (h : T.eliminate ldl r = some (F, r')) : FacOK T F ∧ F.X.IsSymm ∧ r' = F.back r := by
  induction T with
  | last D =>
    cases r with
    | last r =>
      simp only [BT.eliminate] at h
      split at h
      · cases h
      · rename_i X hX
        simp only [Option.some.injEq, Prod.mk.injEq] at h
        obtain ⟨rfl, rfl⟩ := h
        have e := hl _ _ _ hX
        rw [symLower_of_isSymm hs] at e
        exact ⟨⟨rfl, e⟩, isSymm_inv hs e, rfl⟩
  | cons D B C tl ih =>
    cases r with
    | cons r rt =>
      obtain ⟨hD, rfl, ht⟩ := hs
      simp only [BT.eliminate] at h
      split at h
      · cases h
      · rename_i Ft rt' hFt
        obtain ⟨i1, i2, i3⟩ := ih ht _ _ _ hFt
        split at h
        · cases h
        · rename_i X hX
          simp only [Option.some.injEq, Prod.mk.injEq] at h
          obtain ⟨rfl, rfl⟩ := h
          have e := hl _ _ _ hX
          have hsy : (D - B * (Ft.X * Bᵀ)).IsSymm := by
            refine hD.sub ?_
            rw [Matrix.IsSymm, transpose_mul, transpose_mul, transpose_transpose, i2.eq,
              Matrix.mul_assoc]
          rw [symLower_of_isSymm hsy] at e
          refine ⟨⟨rfl, rfl, rfl, e, i1⟩, isSymm_inv hsy e, ?_⟩
          simp only [BFac.back, i3]
where
  isSymm_inv {n : ℕ} {M X : Mat 𝕜 n n} (h : M.IsSymm) (e : M * X = 1) : X.IsSymm := by
    have e' := congrArg transpose e
    rw [transpose_mul, h.eq, transpose_one] at e'
    -- Xᵀ = Xᵀ (M X) = X
    calc Xᵀ = Xᵀ * (M * X) := by rw [e, Matrix.mul_one]
      _ = X := by rw [← Matrix.mul_assoc, e', Matrix.one_mul]

/-- Vector with `p` in the first block. -/
def padVec {m : ℕ} : {ms : List ℕ} → Vec 𝕜 m → Idx m ms → 𝕜
  | [], p => p
  | _ :: _, p => Sum.elim p 0

theorem padDown_mulVec {n m : ℕ} {ms : List ℕ} (C : Mat 𝕜 m n) (v : Vec 𝕜 n) :
    (padDown C : Matrix (Idx m ms) _ 𝕜) *ᵥ v = padVec (C *ᵥ v) := by
  cases ms with
  | nil => rfl
  | cons a as =>
    refine (fromRows_mulVec C (0 : Matrix (Idx a as) (Fin n) 𝕜) v).trans ?_
    rw [zero_mulVec]; rfl

theorem padRight_mulVec {n m : ℕ} {ms : List ℕ} (B : Mat 𝕜 n m) (v : BV 𝕜 m ms) :
    (padRight B : Matrix _ (Idx m ms) 𝕜) *ᵥ v.flat = B *ᵥ v.head := by
  cases v with
  | last v => rfl
  | cons v tl =>
    refine (fromCols_mulVec_sumElim B (0 : Matrix (Fin n) (Idx _ _) 𝕜) v tl.flat).trans ?_
    rw [zero_mulVec, add_zero]; rfl

theorem mulFrom_flat {n : ℕ} {ns : List ℕ} (T : BT 𝕜 n ns) (p : Vec 𝕜 n) (x : BV 𝕜 n ns) :
    (T.mulFrom p x).flat = padVec p + T.dense *ᵥ x.flat := by
  induction T with
  | last D => cases x with | last x => rfl
  | cons D B C tl ih =>
    cases x with
    | cons x xt =>
      have e : (BT.cons D B C tl).dense *ᵥ (BV.cons x xt).flat =
          Sum.elim (D *ᵥ x + padRight B *ᵥ xt.flat) (padDown C *ᵥ x + tl.dense *ᵥ xt.flat) := by
        exact fromBlocks_mulVec _ _ _ _ _
      rw [e, padRight_mulVec, padDown_mulVec]
      funext i
      rcases i with i | i
      · show p i + (D *ᵥ x) i + (B *ᵥ xt.head) i = p i + ((D *ᵥ x) i + (B *ᵥ xt.head) i)
        ring
      · refine Eq.trans (congrFun (ih (C *ᵥ x) xt) i) (zero_add _).symm

theorem padVec_zero {m : ℕ} {ms : List ℕ} : (padVec (0 : Vec 𝕜 m) : Idx m ms → 𝕜) = 0 := by
  cases ms with
  | nil => rfl
  | cons a as =>
    funext i
    rcases i with i | i <;> rfl

theorem mulFrom_zero_flat {n : ℕ} {ns : List ℕ} (T : BT 𝕜 n ns) (x : BV 𝕜 n ns) :
    (T.mulFrom 0 x).flat = T.dense *ᵥ x.flat := by
  rw [mulFrom_flat, padVec_zero, zero_add]

theorem flat_injective {n : ℕ} {ns : List ℕ} : Function.Injective (BV.flat (𝕜 := 𝕜) (n := n) (ns := ns)) := by
  intro x y h
  induction x with
  | last v => cases y with | last w => exact congrArg _ h
  | cons v tl ih =>
    cases y with
    | cons w tl' =>
      have h1 : v = w := funext fun i => congrFun h (Sum.inl i)
      have h2 : tl = tl' := ih (funext fun i => congrFun h (Sum.inr i))
      rw [h1, h2]

theorem flat_surjective {n : ℕ} {ns : List ℕ} : Function.Surjective (BV.flat (𝕜 := 𝕜) (n := n) (ns := ns)) := by
  induction ns generalizing n with
  | nil => exact fun f => ⟨.last f, rfl⟩
  | cons m ms ih =>
    intro f
    obtain ⟨t, ht⟩ := ih (n := m) (fun i => f (Sum.inr i))
    refine ⟨.cons (fun i => f (Sum.inl i)) t, ?_⟩
    funext i
    rcases i with i | i
    · rfl
    · simp only [BV.flat, Sum.elim_inr, ht]

theorem add_flat {n : ℕ} {ns : List ℕ} (x y : BV 𝕜 n ns) : (x.add y).flat = x.flat + y.flat := by
  induction x with
  | last v => cases y with | last w => rfl
  | cons v tl ih =>
    cases y with
    | cons w tl' =>
      funext i
      rcases i with i | i
      · rfl
      · exact congrFun (ih tl') i

theorem smul_flat (a : 𝕜) {n : ℕ} {ns : List ℕ} (x : BV 𝕜 n ns) : (x.smul a).flat = a • x.flat := by
  induction x with
  | last v => rfl
  | cons v tl ih =>
    funext i
    rcases i with i | i
    · rfl
    · exact congrFun ih i

theorem FacOK.isUnit {n : ℕ} {ns : List ℕ} {T : BT 𝕜 n ns} {F : BFac 𝕜 n ns} (h : FacOK T F) :
    IsUnit T.dense.det := by
  rw [← Matrix.isUnit_iff_isUnit_det, ← Matrix.mulVec_surjective_iff_isUnit]
  intro b
  obtain ⟨r, rfl⟩ := flat_surjective b
  refine ⟨(F.refine r).flat, ?_⟩
  rw [← mulFrom_zero_flat, refine_solves T F h]

theorem FacOK.trailing {n : ℕ} {ns : List ℕ} {T : BT 𝕜 n ns} {F : BFac 𝕜 n ns} (h : FacOK T F) :
    T.TrailingInvertible := by
  induction T with
  | last D => exact h.isUnit
  | cons D B C tl ih =>
    refine ⟨h.isUnit, ?_⟩
    cases F with
    | cons D' X B' Ut Ft => exact ih h.2.2.2.2

/-- The zero block vector. -/
def BV.zero : (n : ℕ) → (ns : List ℕ) → BV 𝕜 n ns
  | _, [] => .last 0
  | _, m :: ms => .cons 0 (BV.zero m ms)

theorem BV.zero_flat (n : ℕ) (ns : List ℕ) : (BV.zero n ns : BV 𝕜 n ns).flat = 0 := by
  induction ns generalizing n with
  | nil => rfl
  | cons m ms ih =>
    funext i
    rcases i with i | i
    · rfl
    · simp only [BV.zero, BV.flat, Sum.elim_inr, ih]; rfl

theorem back_zero_head {n : ℕ} {ns : List ℕ} (F : BFac 𝕜 n ns) : F.back (BV.zero n ns) = BV.zero n ns := by
  induction F with
  | last D X => simp [BFac.back, BV.zero]
  | cons D X B Ut Ft ih =>
    simp only [BFac.back, BV.zero, ih]
    rename_i n m ms
    have : (BV.zero m ms : BV 𝕜 m ms).head = 0 := by cases ms <;> rfl
    rw [this]
    simp

theorem eliminate_complete {ldl : LDL 𝕜} (hl : ldl.Exact) (hc : ldl.Complete) {n : ℕ} {ns : List ℕ}
    (T : BT 𝕜 n ns) (hs : T.Symm) (r : BV 𝕜 n ns) (h : T.TrailingInvertible) :
    (T.eliminate ldl r).isSome := by
  induction T with
  | last D =>
    cases r with
    | last r =>
      rename_i n
      have h' : IsUnit D.det := by
        have : IsUnit (BT.last D).dense.det := h
        have e : (BT.last D).dense.det = D.det := by
          unfold BT.dense
          congr!
        rwa [e] at this
      have := hc n D (by rw [symLower_of_isSymm hs]; exact h')
      obtain ⟨X, hX⟩ := Option.isSome_iff_exists.1 this
      simp [BT.eliminate, hX]
  | cons D B C tl ih =>
    cases r with
    | cons r rt =>
      rename_i n m ms
      obtain ⟨hu, ht⟩ := h
      obtain ⟨⟨Ft, rt'⟩, hF⟩ := Option.isSome_iff_exists.1 (ih hs.2.2 rt ht)
      obtain ⟨i1, i2, i3⟩ := eliminate_spec hl tl hs.2.2 rt Ft rt' hF
      obtain ⟨hD, rfl, hts⟩ := hs
      have hsy : (D - B * (Ft.X * Bᵀ)).IsSymm := by
        refine hD.sub ?_
        rw [Matrix.IsSymm, transpose_mul, transpose_mul, transpose_transpose, i2.eq,
          Matrix.mul_assoc]
      have : (ldl.inv? n (D - B * (Ft.X * Bᵀ))).isSome := by
        apply hc
        rw [symLower_of_isSymm hsy, isUnit_iff_ne_zero]
        intro hdet
        obtain ⟨z, hz, hz0⟩ := Matrix.exists_mulVec_eq_zero_iff.2 hdet
        apply hz
        -- a kernel vector of the whole matrix
        set xt := Ft.sweep ((Ft.back (BV.zero m ms)).subHead (Ft.X *ᵥ (Bᵀ *ᵥ z))) with hxt
        have e1 := back_cons_subHead tl Ft i1 (Bᵀ *ᵥ z) (BV.zero m ms)
        have e2 : xt.head = -((Ft.X * Bᵀ) *ᵥ z) := by
          rw [hxt, sweep_head, BV.subHead_head, back_zero_head, mulVec_mulVec]
          have : (BV.zero m ms : BV 𝕜 m ms).head = 0 := by cases ms <;> rfl
          rw [this, zero_sub]
        have e3 : (BT.cons D B Bᵀ tl).mulFrom 0 (.cons z xt) = BV.zero n (m :: ms) := by
          simp only [BT.mulFrom, BV.zero]
          rw [e1, e2]
          congr 1
          rw [sub_mulVec, ← mulVec_mulVec] at hz0
          rw [mulVec_neg]
          linear_combination (norm := module) hz0
        have e4 := congrArg BV.flat e3
        rw [mulFrom_zero_flat, BV.zero_flat] at e4
        have e5 := Matrix.eq_zero_of_mulVec_eq_zero (isUnit_iff_ne_zero.1 hu) e4
        funext i
        exact congrFun e5 (Sum.inl i)
      obtain ⟨X, hX⟩ := Option.isSome_iff_exists.1 this
      simp [BT.eliminate, hF, hX]

theorem solveDown_spec {ldl : LDL 𝕜} (hl : ldl.Exact) {n : ℕ} {ns : List ℕ} (T : BT 𝕜 n ns)
    (hs : T.Symm) (Δ : Mat 𝕜 n n) (hΔ : Δ.IsSymm) (δ : Vec 𝕜 n) (r x : BV 𝕜 n ns)
    (h : T.solveDown ldl Δ δ r = some x) : T.mulFrom (δ - Δ *ᵥ x.head) x = r := by
  induction T with
  | last D =>
    cases r with
    | last r =>
      simp only [BT.solveDown] at h
      split at h
      · cases h
      · rename_i X hX
        simp only [Option.some.injEq] at h
        subst h
        have e := hl _ _ _ hX
        rw [symLower_of_isSymm (hs.sub hΔ)] at e
        have e' := congrArg (fun M => M *ᵥ (r - δ)) e
        simp only [← mulVec_mulVec, sub_mulVec, one_mulVec] at e'
        simp only [BT.mulFrom, BV.head_last, BV.head_cons]
        congr 1
        linear_combination (norm := module) e'
  | cons D B C tl ih =>
    cases r with
    | cons r rt =>
      obtain ⟨hD, rfl, ht⟩ := hs
      simp only [BT.solveDown] at h
      split at h
      · cases h
      · rename_i X hX
        have e := hl _ _ _ hX
        rw [symLower_of_isSymm (hD.sub hΔ)] at e
        have hXs := eliminate_spec.isSymm_inv (hD.sub hΔ) e
        split at h
        · cases h
        · rename_i xt hxt
          simp only [Option.some.injEq] at h
          subst h
          have i := ih ht (Bᵀ * (X * B)) (by
            rw [Matrix.IsSymm, transpose_mul, transpose_mul, transpose_transpose, hXs.eq,
              Matrix.mul_assoc]) _ _ _ hxt
          simp only [BT.mulFrom, BV.head_last, BV.head_cons]
          congr 1
          · have e' := congrArg (fun M => M *ᵥ (r - δ - B *ᵥ xt.head)) e
            simp only [← mulVec_mulVec, sub_mulVec, one_mulVec, mulVec_sub] at e' ⊢
            linear_combination (norm := module) e'
          · rw [← i, mulVec_sub]
            simp only [← mulVec_mulVec]

end Aligator.Gar
