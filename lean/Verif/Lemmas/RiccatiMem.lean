import Verif.Model.RiccatiMem
import Mathlib.Tactic.Abel

/-!
# Lemmas: the memory of the serial Riccati solver
-/

set_option linter.unusedSectionVars false

namespace Aligator.GarMem

open Matrix Gar

variable {𝕜 : Type*} [Field 𝕜] [DecidableEq 𝕜] {nth : ℕ}

/-- Off the diagonal the last block of the KKT matrix is zero. -/
def Buf.Clean {nx nu nc nx2 : ℕ} (d : Buf 𝕜 nth nx nu nc nx2) : Prop :=
  ∀ a b : Fin nc, a ≠ b → d.kktMat (finSumFinEquiv (Sum.inr a)) (finSumFinEquiv (Sum.inr b)) = 0

/-- ... at every knot, and the last knot has no next state. -/
def Bufs.Clean : {nx : ℕ} → {D : Dims nx} → Bufs 𝕜 nth D → Prop
  | _, .last _ _ _, b =>
    let b : Buf _ _ _ _ _ _ := b
    b.Clean ∧ b.F.yff = 0 ∧ b.F.Aff = 0 ∧ b.F.Yth = 0
  | _, .cons _ _ _, b => b.1.Clean ∧ Bufs.Clean b.2

theorem new_clean : {nx : ℕ} → {D : Dims nx} → (u : Bufs 𝕜 nth D) → u.new.Clean
  | _, .last _ _ _, _ => ⟨fun _ _ _ => rfl, rfl, rfl, rfl⟩
  | _, .cons _ _ _, u => ⟨fun _ _ _ => rfl, new_clean u.2⟩

theorem insert_clean {nu nc : ℕ} : {nx : ℕ} → (D : Dims nx) → (n : Buf 𝕜 nth D.lastNx nu nc D.lastNx) → (b : Bufs 𝕜 nth D) →
    n.Clean → b.Clean → (Bufs.insert D n b).Clean
  | _, .last _ _ _, _, _, hn, hb => ⟨hn, hb⟩
  | _, .cons _ _ tl, n, b, hn, hb => ⟨hb.1, insert_clean tl n b.2 hn hb.2⟩

theorem writeKkt_eq {nu nc : ℕ} (M : Mat 𝕜 (nu + nc) (nu + nc)) (R : Mat 𝕜 nu nu) (D : Mat 𝕜 nc nu) (mueq : 𝕜)
    (h : ∀ a b : Fin nc, a ≠ b → M (finSumFinEquiv (Sum.inr a)) (finSumFinEquiv (Sum.inr b)) = 0) :
    writeKkt M R D mueq = blk2 R Dᵀ D (-mueq • (1 : Mat 𝕜 nc nc)) := by
  unfold writeKkt
  congr 1
  funext a b
  by_cases e : a = b
  · simp [e, Matrix.smul_apply]
  · rw [if_neg e, h a b e]
    simp [Matrix.smul_apply, Matrix.one_apply_ne e]

theorem writeKkt_inr {nu nc : ℕ} (M : Mat 𝕜 (nu + nc) (nu + nc)) (R : Mat 𝕜 nu nu) (D : Mat 𝕜 nc nu) (mueq : 𝕜)
    (h : ∀ a b : Fin nc, a ≠ b → M (finSumFinEquiv (Sum.inr a)) (finSumFinEquiv (Sum.inr b)) = 0) (a b : Fin nc) (e : a ≠ b) :
    writeKkt M R D mueq (finSumFinEquiv (Sum.inr a)) (finSumFinEquiv (Sum.inr b)) = 0 := by
  rw [writeKkt_eq M R D mueq h]
  simp [blk2, Matrix.smul_apply, Matrix.one_apply_ne e]

theorem symLower_inr {nu nc : ℕ} (M : Mat 𝕜 (nu + nc) (nu + nc))
    (h : ∀ a b : Fin nc, a ≠ b → M (finSumFinEquiv (Sum.inr a)) (finSumFinEquiv (Sum.inr b)) = 0) (a b : Fin nc) (e : a ≠ b) :
    symLower M (finSumFinEquiv (Sum.inr a)) (finSumFinEquiv (Sum.inr b)) = 0 := by
  unfold symLower
  split
  · exact h a b e
  · exact h b a (Ne.symm e)

theorem mat_nth {m n : ℕ} (h : ¬ 0 < n) (A B : Mat 𝕜 m n) : A = B := by
  funext i j; exact absurd (lt_of_le_of_lt (Nat.zero_le _) j.2) h

theorem mat_rows {m n : ℕ} (h : m = 0) (A B : Mat 𝕜 m n) : A = B := by
  subst h; funext i; exact i.elim0

theorem vec_nil {m : ℕ} (h : ¬ 0 < m) (A B : Vec 𝕜 m) : A = B := by
  funext i; exact absurd (lt_of_le_of_lt (Nat.zero_le _) i.2) h

/-! ## One knot -/

section knot
variable {nx nu nc nx2 : ℕ}

theorem terminal_clean (L : LDLMem 𝕜) (m : Knot 𝕜 nth nx nu nc nx2) (mueq : 𝕜) (d : Buf 𝕜 nth nx nu nc nx2)
    (h : d.Clean ∧ d.F.yff = 0 ∧ d.F.Aff = 0 ∧ d.F.Yth = 0) :
    (terminalM L m mueq d).1.Clean ∧ (terminalM L m mueq d).1.F.yff = 0 ∧ (terminalM L m mueq d).1.F.Aff = 0 ∧
      (terminalM L m mueq d).1.F.Yth = 0 := by
  obtain ⟨h1, h2, h3, h4⟩ := h
  unfold terminalM terminalVm terminalGains
  by_cases hu : nu = 0
  · simp only [hu, if_true]
    exact ⟨h1, h2, h3, h4⟩
  · simp only [hu, if_false]
    split <;> exact ⟨writeKkt_inr _ _ _ _ h1, h2, h3, h4⟩

theorem terminal_run (L : LDLMem 𝕜) (m : Knot 𝕜 nth nx nu nc nx2) (mueq : 𝕜) (d : Buf 𝕜 nth nx nu nc nx2)
    (h : d.Clean ∧ d.F.yff = 0 ∧ d.F.Aff = 0 ∧ d.F.Yth = 0) :
    match terminalSolve L.toLDL m mueq with
    | .ok F => (terminalM L m mueq d).2 = false ∧ (terminalM L m mueq d).1.F = F
    | .error e => (terminalM L m mueq d).2 = true ∧ e ≠ .ldlFailed := by
  obtain ⟨h1, h2, h3, h4⟩ := h
  unfold terminalSolve terminalM
  by_cases hu : nu = 0
  · simp only [hu, if_true]
    by_cases hz : mueq = 0 ∧ nc ≠ 0
    · simp only [terminalGains, hz, hu, if_true, decide_true, ne_eq, not_false_eq_true, and_self]
      simp
    · rw [if_neg hz]
      refine ⟨by simp only [terminalGains, hu, if_true]; simpa using hz, ?_⟩
      simp only [terminalGains, terminalVm, hu, if_true, lt_irrefl, if_false]
      have e1 : d.F.K = 0 := mat_rows hu _ _
      have e2 : d.F.kff = 0 := vec_nil (by omega) _ _
      have e3 : d.F.Kth = 0 := mat_rows hu _ _
      have e4 : d.F.Yth = 0 := h4
      by_cases ht : 0 < nth
      · simp only [ht, if_true, e1, e2, e3, h2, h3, h4]
      · simp only [ht, if_false, e1, e2, e3, h2, h3, h4]
        congr 2
        · exact mat_nth ht _ _
        · exact mat_nth ht _ _
        · exact vec_nil ht _ _
  · have hup : 0 < nu := Nat.pos_of_ne_zero hu
    simp only [hu, if_false]
    have hk := writeKkt_eq d.kktMat m.R m.D mueq h1
    cases hX : L.inv? (nu + nc) (blk2 m.R m.Dᵀ m.D (-mueq • (1 : Mat 𝕜 nc nc))) with
    | none =>
      refine ⟨?_, by simp⟩
      simp only [terminalGains, hu, if_false, hk, LDLMem.factor, hX]
      split <;> rfl
    | some X =>
      refine ⟨?_, ?_⟩
      · simp only [terminalGains, hu, if_false, hk, LDLMem.factor, hX]
        split <;> rfl
      · simp only [terminalGains, terminalVm, hu, if_false, hk, LDLMem.factor, hX, hup, if_true]
        by_cases ht : 0 < nth
        · simp only [ht, if_true, h2, h3, h4]
        · simp only [ht, if_false, h2, h3, h4]
          congr 1
          · exact mat_nth ht _ _
          · exact mat_nth ht _ _
          · congr 1
            · exact mat_nth ht _ _
            · exact mat_nth ht _ _
            · exact vec_nil ht _ _

theorem stageFactor_clean (L : LDLMem 𝕜) (m : Knot 𝕜 nth nx nu nc nx2) (vn : CostToGo 𝕜 nth nx2) (mueq : 𝕜)
    (d : Buf 𝕜 nth nx nu nc nx2) (h : d.Clean) : (stageFactorM L m vn mueq d).Clean :=
  symLower_inr _ (writeKkt_inr _ _ _ _ h)

theorem stageGains_clean (m : Knot 𝕜 nth nx nu nc nx2) (vn : CostToGo 𝕜 nth nx2)
    (d : Buf 𝕜 nth nx nu nc nx2) (h : d.Clean) : (stageGainsM m vn d).Clean := by
  unfold stageGainsM
  split <;> exact h

theorem stage_run (L : LDLMem 𝕜) (m : Knot 𝕜 nth nx nu nc nx2) (vn : CostToGo 𝕜 nth nx2) (mueq : 𝕜)
    (d : Buf 𝕜 nth nx nu nc nx2) (h : d.Clean) :
    match stageKernelSolve L.toLDL m vn mueq with
    | .ok F => (stageFactorM L m vn mueq d).info = true ∧ (stageGainsM m vn (stageFactorM L m vn mueq d)).F = F
    | .error e => (stageFactorM L m vn mueq d).info = false ∧ e = .ldlFailed := by
  unfold stageKernelSolve
  have hk := fun R => writeKkt_eq d.kktMat R m.D mueq h
  cases hX : L.inv? (nu + nc) (symLower (blk2 (m.R + m.Bᵀ * vn.Vxx * m.B) m.Dᵀ m.D (-mueq • (1 : Mat 𝕜 nc nc)))) with
  | none => simp only [hX, stageFactorM, hk, LDLMem.factor, and_self]
  | some X =>
    simp only [hX]
    refine ⟨by simp only [stageFactorM, hk, LDLMem.factor, hX], ?_⟩
    simp only [stageFactorM, stageGainsM, hk, LDLMem.factor, hX]
    by_cases ht : 0 < nth
    · simp only [ht, if_true]
    · simp only [ht, if_false]
      congr 1
      · exact mat_nth ht _ _
      · exact mat_nth ht _ _
      · exact mat_nth ht _ _
      · congr 1
        · exact mat_nth ht _ _
        · exact mat_nth ht _ _
        · exact vec_nil ht _ _

end knot

/-! ## The chain -/

theorem symHead_clean : {nx : ℕ} → {D : Dims nx} → (b : Bufs 𝕜 nth D) → b.Clean → b.symHead.Clean
  | _, .last _ _ _, _, h => h
  | _, .cons _ _ _, _, h => h

theorem facs_vm : {nx : ℕ} → {D : Dims nx} → (k : Knots 𝕜 nth D) → (b : Bufs 𝕜 nth D) → (b.facs k).vm = b.vm
  | _, .last _ _ _, _, _ => rfl
  | _, .cons _ _ _, _, _ => rfl

theorem facs_symHead : {nx : ℕ} → {D : Dims nx} → (k : Knots 𝕜 nth D) → (b : Bufs 𝕜 nth D) →
    b.symHead.facs k = (b.facs k).symHead
  | _, .last _ _ _, _, _ => rfl
  | _, .cons _ _ _, _, _ => rfl

theorem impl_clean (L : LDLMem 𝕜) (mueq : 𝕜) : {nx : ℕ} → {D : Dims nx} → (k : Knots 𝕜 nth D) → (b : Bufs 𝕜 nth D) → b.Clean →
    (backwardImplM L mueq k b).1.Clean
  | _, .last _ _ _, k, b, h => terminal_clean L k mueq b h
  | _, .cons _ _ _, k, b, h => by
    have ih := impl_clean L mueq k.2 b.2 h.2
    unfold backwardImplM
    simp only
    split
    · exact ⟨h.1, ih⟩
    · split
      · exact ⟨stageGains_clean _ _ _ (stageFactor_clean _ _ _ _ _ h.1), symHead_clean _ ih⟩
      · exact ⟨stageFactor_clean _ _ _ _ _ h.1, symHead_clean _ ih⟩

theorem impl_run (L : LDLMem 𝕜) (mueq : 𝕜) : {nx : ℕ} → {D : Dims nx} → (k : Knots 𝕜 nth D) → (b : Bufs 𝕜 nth D) → b.Clean →
    match backwardImpl L.toLDL mueq k.chain with
    | .ok F => (backwardImplM L mueq k b).2 = ⟨false, false⟩ ∧ (backwardImplM L mueq k b).1.facs k = F
    | .error .ldlFailed => (backwardImplM L mueq k b).2 = ⟨true, false⟩
    | .error _ => (backwardImplM L mueq k b).2.bad = true
  | _, .last _ _ _, k, b, h => by
    have ht := terminal_run L k mueq b h
    simp only [Knots.chain, backwardImpl]
    cases hs : terminalSolve L.toLDL k mueq with
    | ok F =>
      rw [hs] at ht
      simp only [backwardImplM, Bufs.facs]
      exact ⟨by rw [ht.1], by rw [← ht.2]⟩
    | error e =>
      rw [hs] at ht
      cases e with
      | ldlFailed => exact absurd rfl ht.2
      | unchecked => exact ht.1
      | divByZero => exact ht.1
  | _, .cons _ _ _, k, b, h => by
    have ih := impl_run L mueq k.2 b.2 h.2
    have hc := impl_clean L mueq k.2 b.2 h.2
    simp only [Knots.chain, backwardImpl]
    cases hs : backwardImpl L.toLDL mueq (Knots.chain k.2) with
    | error e =>
      rw [hs] at ih
      cases e with
      | ldlFailed => simp only at ih ⊢; simp [backwardImplM, ih]
      | unchecked =>
        simp only at ih ⊢; unfold backwardImplM; simp only
        split
        · exact ih
        · split <;> exact ih
      | divByZero =>
        simp only at ih ⊢; unfold backwardImplM; simp only
        split
        · exact ih
        · split <;> exact ih
    | ok Ft =>
      rw [hs] at ih
      obtain ⟨i1, i2⟩ := ih
      have e1 : Ft.symHead.vm = (backwardImplM L mueq k.2 b.2).1.symHead.vm := by
        rw [← i2, ← facs_symHead, facs_vm]
      have st := stage_run L k.1 Ft.symHead.vm mueq b.1 h.1
      simp only
      cases hq : stageKernelSolve L.toLDL k.1 Ft.symHead.vm mueq with
      | error e =>
        rw [hq] at st
        obtain ⟨s1, rfl⟩ := st
        rw [e1] at s1
        simp only [backwardImplM, i1, s1]
        simp
      | ok F =>
        rw [hq] at st
        obtain ⟨s1, s2⟩ := st
        rw [e1] at s1 s2
        simp only [backwardImplM, i1, s1, Bool.false_eq_true, if_false, if_true, true_and]
        simp only [Bufs.facs]
        rw [facs_symHead, i2, s2]

/-! ## The solver -/

theorem backward_clean (L : LDLMem 𝕜) {nc0 nx : ℕ} {D : Dims nx} (G0 : Mat 𝕜 nc0 nx) (g0 : Vec 𝕜 nc0) (k : Knots 𝕜 nth D) (mueq : 𝕜)
    (s : St 𝕜 nth nc0 D) (h : s.datas.Clean) : (backwardM L G0 g0 k mueq s).1.datas.Clean := by
  have := impl_clean L mueq k s.datas h
  unfold backwardM
  simp only
  split <;> exact this

theorem reach_clean {L : LDLMem 𝕜} {nc0 nx : ℕ} {D : Dims nx} {s : St 𝕜 nth nc0 D} (h : Reach L nc0 D s) : s.datas.Clean := by
  induction h with
  | new u => exact new_clean u.datas
  | backward G0 g0 k mueq s _ ih => exact backward_clean L G0 g0 k mueq s ih
  | shift s u _ ih => exact insert_clean _ _ _ (fun _ _ _ => rfl) ih.2

theorem backward_run (L : LDLMem 𝕜) {nc0 nx : ℕ} {D : Dims nx} (G0 : Mat 𝕜 nc0 nx) (g0 : Vec 𝕜 nc0) (k : Knots 𝕜 nth D) (mueq : 𝕜)
    (s : St 𝕜 nth nc0 D) (h : s.datas.Clean) :
    match Gar.backward L.toLDL (⟨G0, g0, k.chain⟩ : Problem 𝕜 nth nc0 nx) mueq with
    | .ok S => (backwardM L G0 g0 k mueq s).2 = ⟨false, false⟩ ∧ (backwardM L G0 g0 k mueq s).1.solver G0 g0 k = S
    | .error .ldlFailed => (backwardM L G0 g0 k mueq s).2 = ⟨true, false⟩
    | .error _ => (backwardM L G0 g0 k mueq s).2.bad = true := by
  have ih := impl_run L mueq k s.datas h
  unfold Gar.backward
  simp only
  cases hs : backwardImpl L.toLDL mueq k.chain with
  | error e =>
    rw [hs] at ih
    cases e with
    | ldlFailed => simp only at ih ⊢; simp [backwardM, ih]
    | unchecked =>
      simp only at ih ⊢; unfold backwardM; simp only
      split
      · exact ih
      · simp [ih]
    | divByZero =>
      simp only at ih ⊢; unfold backwardM; simp only
      split
      · exact ih
      · simp [ih]
  | ok F =>
    rw [hs] at ih
    obtain ⟨i1, i2⟩ := ih
    have ev : F.vm = (backwardImplM L mueq k s.datas).1.vm := by rw [← i2, facs_vm]
    simp only
    cases hX : L.inv? (nx + nc0) (blk2 F.vm.Vxx G0ᵀ G0 0) with
    | none =>
      rw [ev] at hX
      simp [backwardM, i1, LDLMem.factor, hX]
    | some X =>
      rw [ev] at hX
      simp only [backwardM, i1, LDLMem.factor, hX, St.solver, ev]
      refine ⟨by simp, ?_⟩
      simp [i2]

theorem uM_eq {nx nu nc nx2 : ℕ} (θ : Option (Vec 𝕜 nth)) (F : Factor 𝕜 nth nx nu nc nx2) (x : Vec 𝕜 nx) (u : Vec 𝕜 nu) :
    uM θ F x u = F.kff + F.K *ᵥ x + F.Kth *ᵥ θ.getD 0 := by
  by_cases hu : 0 < nu
  · cases θ with
    | none => simp [uM, hu]
    | some θ =>
      by_cases ht : 0 < nth
      · simp [uM, hu, ht]
      · have : θ = 0 := vec_nil ht _ _
        simp [uM, hu, ht, this]
  · exact vec_nil hu _ _

theorem vM_eq {nx nu nc nx2 : ℕ} (θ : Option (Vec 𝕜 nth)) (F : Factor 𝕜 nth nx nu nc nx2) (x : Vec 𝕜 nx) :
    vM θ F x = F.zff + F.Z *ᵥ x + F.Zth *ᵥ θ.getD 0 := by
  cases θ with
  | none => simp [vM]
  | some θ =>
    by_cases ht : 0 < nth
    · simp [vM, ht]
    · have : θ = 0 := vec_nil ht _ _
      simp [vM, ht, this]

theorem xM_eq {nx nu nc nx2 : ℕ} (θ : Option (Vec 𝕜 nth)) (F : Factor 𝕜 nth nx nu nc nx2) (x : Vec 𝕜 nx) :
    xM θ F x = F.yff + F.Aff *ᵥ x + F.Yth *ᵥ θ.getD 0 := by
  cases θ with
  | none => simp [xM]
  | some θ =>
    by_cases ht : 0 < nth
    · simp [xM, ht]
    · have : θ = 0 := vec_nil ht _ _
      simp [xM, ht, this]

theorem lM_eq {nx : ℕ} (θ : Option (Vec 𝕜 nth)) (vn : CostToGo 𝕜 nth nx) (x : Vec 𝕜 nx) :
    lM θ vn x = vn.vx + vn.Vxx *ᵥ x + vn.Vxt *ᵥ θ.getD 0 := by
  cases θ with
  | none => simp [lM]
  | some θ =>
    by_cases ht : 0 < nth
    · simp [lM, ht]
    · have : θ = 0 := vec_nil ht _ _
      simp [lM, ht, this]

theorem forwardImpl_run (θ : Option (Vec 𝕜 nth)) : {nx : ℕ} → {D : Dims nx} → (k : Knots 𝕜 nth D) → (b : Bufs 𝕜 nth D) →
    (x : Vec 𝕜 nx) → (t : Traj k.chain) → forwardImplM θ k b x t = forwardImpl (θ.getD 0) (b.facs k) x
  | _, .last _ _ _, k, b, x, t => by
    simp only [forwardImplM, forwardImpl, Bufs.facs, uM_eq, vM_eq]
    rfl
  | _, .cons _ _ _, k, b, x, t => by
    simp only [forwardImplM, forwardImpl, Bufs.facs, uM_eq, vM_eq, xM_eq, lM_eq, facs_vm]
    rw [forwardImpl_run θ k.2 b.2]

/-! ## Two states -/

section det
variable {nx nu nc nx2 : ℕ}

theorem terminal_det (L : LDLMem 𝕜) (m : Knot 𝕜 nth nx nu nc nx2) (mueq : 𝕜) (d d' : Buf 𝕜 nth nx nu nc nx2)
    (h : d.Clean ∧ d.F.yff = 0 ∧ d.F.Aff = 0 ∧ d.F.Yth = 0) (h' : d'.Clean ∧ d'.F.yff = 0 ∧ d'.F.Aff = 0 ∧ d'.F.Yth = 0) :
    (terminalM L m mueq d).2 = (terminalM L m mueq d').2 ∧ (terminalM L m mueq d).1.F = (terminalM L m mueq d').1.F := by
  obtain ⟨h1, h2, h3, h4⟩ := h
  obtain ⟨h1', h2', h3', h4'⟩ := h'
  have k := writeKkt_eq d.kktMat m.R m.D mueq h1
  have k' := writeKkt_eq d'.kktMat m.R m.D mueq h1'
  unfold terminalM
  by_cases hu : nu = 0
  · have e1 : d.F.K = d'.F.K := mat_rows hu _ _
    have e2 : d.F.kff = d'.F.kff := vec_nil (by omega) _ _
    have e3 : d.F.Kth = d'.F.Kth := mat_rows hu _ _
    by_cases ht : 0 < nth
    · simp only [terminalGains, terminalVm, hu, if_true, lt_irrefl, if_false, ht, e1, e2, e3, h2, h3, h4, h2', h3', h4', and_self]
    · have e4 : d.F.vm.Vxt = d'.F.vm.Vxt := mat_nth ht _ _
      have e5 : d.F.vm.Vtt = d'.F.vm.Vtt := mat_nth ht _ _
      have e6 : d.F.vm.vt = d'.F.vm.vt := vec_nil ht _ _
      simp only [terminalGains, terminalVm, hu, if_true, lt_irrefl, if_false, ht, e1, e2, e3, e4, e5, e6, h2, h3, h4, h2', h3', h4',
        and_self]
  · by_cases ht : 0 < nth
    · simp only [terminalGains, terminalVm, hu, if_true, if_false, ht, k, k', h2, h3, h4, h2', h3', h4', and_self]
    · have e1 : d.F.Kth = d'.F.Kth := mat_nth ht _ _
      have e2 : d.F.Zth = d'.F.Zth := mat_nth ht _ _
      have e4 : d.F.vm.Vxt = d'.F.vm.Vxt := mat_nth ht _ _
      have e5 : d.F.vm.Vtt = d'.F.vm.Vtt := mat_nth ht _ _
      have e6 : d.F.vm.vt = d'.F.vm.vt := vec_nil ht _ _
      simp only [terminalGains, terminalVm, hu, if_false, ht, k, k', e1, e2, e4, e5, e6, h2, h3, h4, h2', h3', h4', and_self]

theorem stage_det (L : LDLMem 𝕜) (m : Knot 𝕜 nth nx nu nc nx2) (vn : CostToGo 𝕜 nth nx2) (mueq : 𝕜)
    (d d' : Buf 𝕜 nth nx nu nc nx2) (h : d.Clean) (h' : d'.Clean) :
    (stageFactorM L m vn mueq d).info = (stageFactorM L m vn mueq d').info ∧
      (stageGainsM m vn (stageFactorM L m vn mueq d)).F = (stageGainsM m vn (stageFactorM L m vn mueq d')).F := by
  have k := fun R => writeKkt_eq d.kktMat R m.D mueq h
  have k' := fun R => writeKkt_eq d'.kktMat R m.D mueq h'
  by_cases ht : 0 < nth
  · simp only [stageFactorM, stageGainsM, k, k', ht, if_true, and_self]
  · have e1 : d.F.Kth = d'.F.Kth := mat_nth ht _ _
    have e2 : d.F.Zth = d'.F.Zth := mat_nth ht _ _
    have e3 : d.F.Yth = d'.F.Yth := mat_nth ht _ _
    have e4 : d.F.vm.Vxt = d'.F.vm.Vxt := mat_nth ht _ _
    have e5 : d.F.vm.Vtt = d'.F.vm.Vtt := mat_nth ht _ _
    have e6 : d.F.vm.vt = d'.F.vm.vt := vec_nil ht _ _
    simp only [stageFactorM, stageGainsM, k, k', ht, if_false, e1, e2, e3, e4, e5, e6, and_self]

end det

theorem impl_det (L : LDLMem 𝕜) (mueq : 𝕜) : {nx : ℕ} → {D : Dims nx} → (k : Knots 𝕜 nth D) → (b b' : Bufs 𝕜 nth D) → b.Clean →
    b'.Clean → (backwardImplM L mueq k b).2 = (backwardImplM L mueq k b').2 ∧
      ((backwardImplM L mueq k b).2.threw = false →
        (backwardImplM L mueq k b).1.facs k = (backwardImplM L mueq k b').1.facs k)
  | _, .last _ _ _, k, b, b', h, h' => by
    have ht := terminal_det L k mueq b b' h h'
    simp only [backwardImplM, Bufs.facs]
    exact ⟨by rw [ht.1], fun _ => by rw [ht.2]⟩
  | _, .cons _ _ _, k, b, b', h, h' => by
    obtain ⟨i1, i2⟩ := impl_det L mueq k.2 b.2 b'.2 h.2 h'.2
    cases ht : (backwardImplM L mueq k.2 b.2).2.threw with
    | true =>
      have ht' := ht
      rw [i1] at ht'
      simp only [backwardImplM, ht, ht', if_true]
      exact ⟨i1, fun c => by simp at c⟩
    | false =>
      have ht' := ht
      rw [i1] at ht'
      have e : (backwardImplM L mueq k.2 b.2).1.symHead.vm = (backwardImplM L mueq k.2 b'.2).1.symHead.vm := by
        rw [← facs_vm k.2, facs_symHead, i2 ht, ← facs_symHead, facs_vm]
      obtain ⟨s1, s2⟩ := stage_det L k.1 (backwardImplM L mueq k.2 b'.2).1.symHead.vm mueq b.1 b'.1 h.1 h'.1
      simp only [backwardImplM, ht, ht', Bool.false_eq_true, if_false, e, s1]
      split
      · refine ⟨i1, fun _ => ?_⟩
        simp only [Bufs.facs]
        rw [s2, facs_symHead, facs_symHead, i2 ht]
      · exact ⟨by rw [i1], fun c => by simp at c⟩

theorem backward_det (L : LDLMem 𝕜) {nc0 nx : ℕ} {D : Dims nx} (G0 : Mat 𝕜 nc0 nx) (g0 : Vec 𝕜 nc0) (k : Knots 𝕜 nth D) (mueq : 𝕜)
    (s s' : St 𝕜 nth nc0 D) (h : s.datas.Clean) (h' : s'.datas.Clean) :
    (backwardM L G0 g0 k mueq s).2 = (backwardM L G0 g0 k mueq s').2 ∧
      ((backwardM L G0 g0 k mueq s).2.threw = false →
        (backwardM L G0 g0 k mueq s).1.solver G0 g0 k = (backwardM L G0 g0 k mueq s').1.solver G0 g0 k) := by
  obtain ⟨i1, i2⟩ := impl_det L mueq k s.datas s'.datas h h'
  cases ht : (backwardImplM L mueq k s.datas).2.threw with
  | true =>
    have ht' := ht
    rw [i1] at ht'
    simp only [backwardM, ht, ht', if_true]
    exact ⟨i1, fun c => by simp at c⟩
  | false =>
    have ht' := ht
    rw [i1] at ht'
    have e : (backwardImplM L mueq k s.datas).1.vm = (backwardImplM L mueq k s'.datas).1.vm := by
      rw [← facs_vm k, i2 ht, facs_vm]
    simp only [backwardM, ht, ht', Bool.false_eq_true, if_false, e, i1, true_and]
    intro _
    simp only [St.solver, i2 ht]

/-- After an exception the first factor holds the gains of before. -/
def Bufs.headF : {nx nx2 : ℕ} → {nu nc : ℕ} → {tl : Dims nx2} → Bufs 𝕜 nth (.cons (nx := nx) nu nc tl) → Factor 𝕜 nth nx nu nc nx2
  | _, _, _, _, _, b => b.1.F

theorem impl_threw (L : LDLMem 𝕜) (mueq : 𝕜) {nx nx2 nu nc : ℕ} {tl : Dims nx2} (k : Knots 𝕜 nth (.cons (nx := nx) nu nc tl))
    (b : Bufs 𝕜 nth (.cons (nx := nx) nu nc tl)) (h : (backwardImplM L mueq k b).2.threw = true) :
    (backwardImplM L mueq k b).1.headF = b.headF := by
  simp only [backwardImplM] at h ⊢
  split at h
  · simp only [*, if_true]; rfl
  · split at h
    · simp_all
    · simp only [*, if_false]; rfl

theorem threw_of_info (L : LDLMem 𝕜) (mueq : 𝕜) {nx nx2 nu nc : ℕ} {tl : Dims nx2} (k : Knots 𝕜 nth (.cons (nx := nx) nu nc tl))
    (b : Bufs 𝕜 nth (.cons (nx := nx) nu nc tl)) (h : ∀ vn, (stageFactorM L k.1 vn mueq b.1).info = false) :
    (backwardImplM L mueq k b).2.threw = true := by
  simp only [backwardImplM, h]
  split
  · assumption
  · rfl

theorem forward_run {nc0 nx : ℕ} {D : Dims nx} (G0 : Mat 𝕜 nc0 nx) (g0 : Vec 𝕜 nc0) (k : Knots 𝕜 nth D) (s : St 𝕜 nth nc0 D)
    (θ : Option (Vec 𝕜 nth)) (t : Traj k.chain) : forwardM k s θ t = Gar.forward (s.solver G0 g0 k) (θ.getD 0) := by
  cases θ with
  | none => simp [forwardM, Gar.forward, St.solver, forwardImpl_run]
  | some θ => simp [forwardM, Gar.forward, St.solver, forwardImpl_run]

end Aligator.GarMem
