import Verif.Lemmas.BunchKaufmanOneBlock

set_option linter.unusedSectionVars false

namespace Aligator.BK

variable {𝕜 : Type*} [Field 𝕜] [LinearOrder 𝕜] [IsStrictOrderedRing 𝕜]

open Finset

theorem dotRows_succ (k : ℕ) (a w : Arr 𝕜) (i j : ℕ) :
    dotRows (k + 1) a w i j = dotRows k a w i j + a i k * w j k := by
  unfold dotRows; rw [Finset.sum_range_succ]

/-- Columns below `k` after undoing one more block. -/
theorem undo_interchanged {piv piv' : ℕ → ℤ} {k r p : ℕ} {a a' : Arr 𝕜}
    (hp : ∀ l, l < k → piv' l = piv l) (ha : ∀ i j, j < k → a' i j = a (tau r p i) j) (i j : ℕ)
    (hj : j < k) : undo piv' k (swapRows k p r a') i j = undo piv k a i j := by
  refine undo_congr _ _ _ _ _ _ hp (fun i => ?_) i
  have : swapRows k p r a' i j = a' (tau r p i) j := by
    simp only [swapRows, if_pos hj, tau]
    grind
  rw [this, ha _ _ hj, tau_tau]

theorem blockStep_spec {alpha : 𝕜} (h0 : 0 < alpha) (h1 : alpha < 1) {n k : ℕ} {b : BSt 𝕜} {u : Arr 𝕜}
    (h : Inv n k b u) (hk : k < n) :
    match blockStep alpha n k b with
    | none => bkStep alpha n k ⟨u, b.piv⟩ = none
    | some (b', two) => ∃ u', bkStep alpha n k ⟨u, b.piv⟩ = some (⟨u', b'.piv⟩, two) ∧
        Inv n (if two then k + 2 else k + 1) b' u' := by
  have P := blockPivot_spec alpha h hk
  unfold blockStep
  rcases hbp : blockPivot alpha n k b.a (loadCol n k b.a b.w) with _ | ⟨two, kp, w'⟩
  · rw [hbp] at P
    dsimp only at P ⊢
    unfold bkStep
    rw [P]
  · rw [hbp] at P
    dsimp only at P ⊢
    obtain ⟨Pc, PW⟩ := P
    have ok := choosePivot_some h0 h1 hk Pc
    obtain ⟨s', hs'⟩ : ∃ s', bkStep alpha n k ⟨u, b.piv⟩ = some (s', two) := by
      unfold bkStep; rw [Pc]; exact ⟨_, rfl⟩
    have hpiv : s'.piv = setPivots k two kp b.piv := by
      unfold bkStep at hs'; rw [Pc] at hs'
      simp only [Option.some.injEq, Prod.mk.injEq, and_true] at hs'
      rw [← hs']
    have frame : ∀ i j, (j < k ∨ i < j ∨ n ≤ i) → s'.a i j = u i j := by
      obtain ⟨kp', -, -, -, fr, -, -⟩ := bkStep_some h0 h1 hk hs'
      exact fr
    have hpl : ∀ l, l < k → setPivots k two kp b.piv l = b.piv l :=
      fun l hl => setPivots_lt k two kp b.piv l hl
    refine ⟨s'.a, ?_, ?_⟩
    · rw [hs', ← hpiv]
    obtain ⟨I1, I2, I3⟩ := blockInterchange_spec b.a ok.ge ok.lt
    have W := fun i c hc => blockInterchangeW_spec (k := k) (two := two) (kp := kp) w' i c hc
    have hge := ok.ge
    have hlt := ok.lt
    cases two with
    | false =>
      simp only [kkOf, Bool.false_eq_true, if_false] at hge I1 I2 W ⊢
      have st : Step1 n k kp u s'.a := by
        have := step1 hk ok
        unfold bkStep at hs'; rw [Pc] at hs'
        simp only [Option.some.injEq, Prod.mk.injEq, and_true] at hs'
        rw [← hs']; exact this
      set A := blockInterchange n k false kp b.a with hA
      set w := blockInterchangeW k false kp w' with hw
      obtain ⟨S1, S2, S3, S4⟩ := blockStore1_spec hk A w
      set A' := blockStore1 n k A w with hA'
      have wP : ∀ i, k ≤ i → i < n → w i k = permuted u k kp i k := by
        intro i e1 e2
        rw [W i k le_rfl, PW.one rfl _ (tau_ge le_rfl hge e1) (tau_lt hk hlt e2), permuted]
        congr 1
        simp [tau]
      have wO : ∀ i c, c < k → w i c = b.w (tau k kp i) c := by
        intro i c hc
        rw [W i c hc.le, PW.old _ _ hc]
      have aO : ∀ i c, c < k → A' i c = b.a (tau k kp i) c := by
        intro i c hc
        rw [S1 i c (by omega), I1 i c hc]
      have dO : ∀ i j, dotRows k A' w i j = dotRows k b.a b.w (tau k kp i) (tau k kp j) :=
        fun i j => dotRows_congr (fun c hc => aO i c hc) (fun c hc => wO j c hc)
      have colK : ∀ i, k < i → i < n → A' i k = permuted u k kp i k * (1 / permuted u k kp k k) := by
        intro i e1 e2
        rw [S3 i e1 e2, wP i e1.le e2, wP k le_rfl hk]
      have colU : ∀ i, A' i k = s'.a i k := by
        intro i
        by_cases e1 : i < k ∨ n ≤ i
        · rw [S4 i e1, I3 i k le_rfl e1, h.rest i k le_rfl e1, frame i k (by omega)]
        · by_cases e : i = k
          · subst e; rw [S2, st.diag, wP i le_rfl hk]
          · rw [colK i (by omega) (by omega), st.col i (by omega) (by omega)]
      refine ⟨?_, ?_, ?_, ?_⟩
      · intro i j hj
        dsimp only
        have hpk : setPivots k false kp b.piv k = kp := by simp [setPivots]
        rw [undo, hpk, if_neg (by omega), pivIdx_nonneg]
        by_cases e : j = k
        · subst e
          rw [undo_ge _ _ _ _ _ le_rfl, swapRows_ge _ _ _ le_rfl]
          exact colU i
        · rw [undo_interchanged hpl aO i j (by omega), h.low i j (by omega), frame i j (by omega)]
      · intro i j e1 e2 e3
        dsimp only
        have := st.trail i j (by omega) e3 (by omega) (by omega)
        rw [sym_le _ e2] at this
        rw [this, dotRows_succ, dO, S1 i j (by omega), I2 i j (by omega) e2 e3,
          colK i (by omega) e3, wP j (by omega) (by omega)]
        have hs := h.sym_eq (tau k kp i) (tau k kp j) (tau_ge le_rfl hge (by omega)) (tau_lt hk hlt e3)
          (tau_ge le_rfl hge (by omega)) (tau_lt hk hlt (by omega))
        have hp2 : permuted u k kp i j = sym u (tau k kp i) (tau k kp j) := rfl
        rw [hp2, hs]
        ring
      · intro i j e1 e2 e3 e4
        dsimp only
        rw [dotRows_succ, dotRows_succ, dO, dO, colK i (by omega) e2, colK j (by omega) e4,
          wP i (by omega) e2, wP j (by omega) e4,
          h.symm (tau k kp i) (tau k kp j) (tau_ge le_rfl hge (by omega)) (tau_lt hk hlt e2)
          (tau_ge le_rfl hge (by omega)) (tau_lt hk hlt (by omega))]
        ring
      · intro i j e1 e2
        dsimp only
        rw [S1 i j (by omega), I3 i j (by omega) e2, h.rest i j (by omega) e2, frame i j (by omega)]
    | true =>
      simp only [kkOf, if_true] at hge I1 I2 W ⊢
      have st : Step2 n k kp u s'.a := by
        have := step2 ok
        unfold bkStep at hs'; rw [Pc] at hs'
        simp only [Option.some.injEq, Prod.mk.injEq, and_true] at hs'
        rw [← hs']; exact this
      have hk1 : k + 1 < n := by omega
      set A := blockInterchange n k true kp b.a with hA
      set w := blockInterchangeW k true kp w' with hw
      obtain ⟨S1, S11, S21, S22, S3, S4, S5⟩ := blockStore2_spec hk1 A w
      set A' := blockStore2 n k A w with hA'
      have tk : tau (k+1) kp k = k := by unfold tau; grind
      have wP : ∀ i, k ≤ i → i < n → w i k = permuted u (k+1) kp i k := by
        intro i e1 e2
        rw [W i k (by omega), (PW.two rfl _ (tau_ge (by omega) (by omega) e1) (tau_lt hk1 hlt e2)).1,
          permuted, tk]
      have wP1 : ∀ i, k ≤ i → i < n → w i (k+1) = permuted u (k+1) kp i (k+1) := by
        intro i e1 e2
        rw [W i (k+1) le_rfl, (PW.two rfl _ (tau_ge (by omega) (by omega) e1) (tau_lt hk1 hlt e2)).2,
          permuted]
        congr 1
        simp [tau]
      have wO : ∀ i c, c < k → w i c = b.w (tau (k+1) kp i) c := by
        intro i c hc
        rw [W i c (by omega), PW.old _ _ hc]
      have aO : ∀ i c, c < k → A' i c = b.a (tau (k+1) kp i) c := by
        intro i c hc
        rw [S1 i c (by omega) (by omega), I1 i c hc]
      have dO : ∀ i j, dotRows k A' w i j = dotRows k b.a b.w (tau (k+1) kp i) (tau (k+1) kp j) :=
        fun i j => dotRows_congr (fun c hc => aO i c hc) (fun c hc => wO j c hc)
      rw [wP k le_rfl hk, wP (k+1) (by omega) hk1, wP1 (k+1) (by omega) hk1] at S11 S21 S22 S3 S4
      rw [← st.v11] at S11 S3
      rw [← st.v21] at S21 S3 S4
      rw [← st.v22] at S22 S4
      have colK : ∀ i, k + 1 < i → i < n → A' i k = permuted u (k+1) kp i k * s'.a k k +
          permuted u (k+1) kp i (k+1) * s'.a (k+1) k := by
        intro i e1 e2
        rw [S3 i e1 e2, wP i (by omega) e2, wP1 i (by omega) e2]
      have colK1 : ∀ i, k + 1 < i → i < n → A' i (k+1) = permuted u (k+1) kp i k * s'.a (k+1) k +
          permuted u (k+1) kp i (k+1) * s'.a (k+1) (k+1) := by
        intro i e1 e2
        rw [S4 i e1 e2, wP i (by omega) e2, wP1 i (by omega) e2]
      have colU : ∀ i, A' i k = s'.a i k := by
        intro i
        by_cases e1 : i < k ∨ n ≤ i
        · rw [S5 i k le_rfl e1, I3 i k le_rfl e1, h.rest i k le_rfl e1, frame i k (by omega)]
        · by_cases e : i = k
          · subst e; exact S11
          · by_cases e' : i = k + 1
            · subst e'; exact S21
            · rw [colK i (by omega) (by omega), st.col i (by omega) (by omega)]
      have colU1 : ∀ i, A' i (k+1) = s'.a i (k+1) := by
        intro i
        by_cases e1 : i < k + 1 ∨ n ≤ i
        · rw [S5 i (k+1) (by omega) e1, I3 i (k+1) (by omega) e1, h.rest i (k+1) (by omega) e1,
            frame i (k+1) (by omega)]
        · by_cases e' : i = k + 1
          · subst e'; exact S22
          · rw [colK1 i (by omega) (by omega), st.col1 i (by omega) (by omega)]
      refine ⟨?_, ?_, ?_, ?_⟩
      · intro i j hj
        dsimp only
        have hpk : setPivots k true kp b.piv (k+1) = -1 - kp := by simp [setPivots]
        rw [undo, hpk, if_pos (by omega), pivIdx_neg, Nat.add_sub_cancel]
        by_cases e : j = k
        · subst e
          rw [undo_ge _ _ _ _ _ le_rfl, swapRows_ge _ _ _ le_rfl]
          exact colU i
        · by_cases e' : j = k + 1
          · subst e'
            rw [undo_ge _ _ _ _ _ (by omega), swapRows_ge _ _ _ (by omega)]
            exact colU1 i
          · rw [undo_interchanged hpl aO i j (by omega), h.low i j (by omega), frame i j (by omega)]
      · intro i j e1 e2 e3
        dsimp only
        have := st.trail i j (by omega) e3 (by omega) (by omega)
        rw [sym_le _ e2] at this
        have hs := h.sym_eq (tau (k+1) kp i) (tau (k+1) kp j) (tau_ge (by omega) (by omega) (by omega))
          (tau_lt hk1 hlt e3) (tau_ge (by omega) (by omega) (by omega)) (tau_lt hk1 hlt (by omega))
        have hp2 : permuted u (k+1) kp i j = sym u (tau (k+1) kp i) (tau (k+1) kp j) := rfl
        rw [this, dotRows_succ, dotRows_succ, dO, S1 i j (by omega) (by omega), I2 i j (by omega) e2 e3,
          colK i (by omega) e3, colK1 i (by omega) e3, wP j (by omega) (by omega),
          wP1 j (by omega) (by omega), hp2, hs, st.col j (by omega) (by omega),
          st.col1 j (by omega) (by omega)]
        ring
      · intro i j e1 e2 e3 e4
        dsimp only
        rw [dotRows_succ, dotRows_succ, dotRows_succ, dotRows_succ, dO, dO, colK i (by omega) e2,
          colK j (by omega) e4, colK1 i (by omega) e2, colK1 j (by omega) e4,
          wP i (by omega) e2, wP j (by omega) e4, wP1 i (by omega) e2, wP1 j (by omega) e4,
          h.symm (tau (k+1) kp i) (tau (k+1) kp j) (tau_ge (by omega) (by omega) (by omega))
          (tau_lt hk1 hlt e2) (tau_ge (by omega) (by omega) (by omega)) (tau_lt hk1 hlt (by omega))]
        ring
      · intro i j e1 e2
        dsimp only
        rw [S1 i j (by omega) (by omega), I3 i j (by omega) e2, h.rest i j (by omega) e2,
          frame i j (by omega)]

/-- A stretch of an elimination chain from `(k, u)` to `(k', u')`. -/
structure Stretch (n : ℕ) (piv' : ℕ → ℤ) (k : ℕ) (u : Arr 𝕜) (k' : ℕ) (u' : Arr 𝕜) : Prop where
  le : k ≤ k'
  le' : k' ≤ n
  fac : ∀ af piv, (∀ i j, k ≤ j → j < k' → j ≤ i → i < n → af i j = u' i j) →
    (∀ j, k ≤ j → j < k' → piv j = piv' j) → Fac n af piv k' u' → Fac n af piv k u
  sing : Sing n k' u' → Sing n k u
  frame : ∀ i j, (j < k ∨ i < j ∨ n ≤ i) → u' i j = u i j

theorem blockLoop_spec {alpha : 𝕜} (h0 : 0 < alpha) (h1 : alpha < 1) {n nb k : ℕ} (hkn : k ≤ n)
    {b : BSt 𝕜} {u : Arr 𝕜} (h : Inv n k b u) :
    match blockLoop alpha n nb k b with
    | none => Sing n k u
    | some (b', k') => ∃ u', Inv n k' b' u' ∧ Stretch n b'.piv k u k' u' ∧
        (∀ j, j < k → b'.piv j = b.piv j) ∧ (∀ j, k' ≤ j → b'.piv j = b.piv j) ∧
        (k < n → k + 1 < nb → k < k') := by
  induction hm : n - k using Nat.strong_induction_on generalizing k b u with
  | _ m ih =>
    rw [blockLoop]
    split_ifs with hc
    · have S := blockStep_spec h0 h1 h hc.1
      rcases hbs : blockStep alpha n k b with _ | ⟨b1, two⟩
      · rw [hbs] at S
        exact .here k u hc.1 (bkStep_none S)
      · rw [hbs] at S
        dsimp only at S ⊢
        obtain ⟨u1, hstep, hI⟩ := S
        obtain ⟨kp, g1, g2, g3, fr, g4, g5⟩ := bkStep_some h0 h1 hc.1 hstep
        have hb2 := kkOf_bounds k two
        have hnext : (if two = true then k + 2 else k + 1) = kkOf k two + 1 := by
          unfold kkOf; split <;> rfl
        rw [hnext] at hI ⊢
        have R := ih (n - (kkOf k two + 1)) (by omega) (by omega) hI rfl
        rcases hbl : blockLoop alpha n nb (kkOf k two + 1) b1 with _ | ⟨b2, k2⟩
        · rw [hbl] at R
          dsimp only at R ⊢
          cases two with
          | false => exact .one k kp _ _ hc.1 g1 g2 (g4 rfl) R
          | true => exact .two k kp _ _ g1 g2 (g5 rfl) R
        · rw [hbl] at R
          dsimp only at R ⊢
          obtain ⟨u2, J1, J2, J3, J5, J4⟩ := R
          have jle := J2.le
          refine ⟨u2, J1, ⟨by omega, J2.le', ?_, ?_, ?_⟩, ?_, ?_, fun _ _ => by omega⟩
          · intro af piv haf hpiv hF
            have F1 := J2.fac af piv (fun i j e1 => haf i j (by omega)) (fun j e1 => hpiv j (by omega)) hF
            dsimp only at g3
            cases two with
            | false =>
              simp only [kkOf, Bool.false_eq_true, if_false] at g1 F1 jle J2 J3
              refine .one k kp _ _ hc.1 g1 g2 ?_ (g4 rfl) ?_ F1
              · rw [hpiv k le_rfl (by omega), J3 k (by omega), g3]; simp [setPivots]
              · intro i e1 e2
                rw [haf i k le_rfl (by omega) e1 e2]
                exact J2.frame i k (by omega)
            | true =>
              simp only [kkOf, if_true] at g1 F1 jle J2 J3
              refine .two k kp _ _ g1 g2 ?_ ?_ (g5 rfl) ?_ ?_ F1
              · rw [hpiv k le_rfl (by omega), J3 k (by omega), g3]; simp [setPivots, Function.update]
              · rw [hpiv (k+1) (by omega) (by omega), J3 (k+1) (by omega), g3]; simp [setPivots]
              · intro i e1 e2
                rw [haf i k le_rfl (by omega) e1 e2]
                exact J2.frame i k (by omega)
              · intro i e1 e2
                rw [haf i (k+1) (by omega) (by omega) e1 e2]
                exact J2.frame i (k+1) (by omega)
          · intro hS
            have S1 := J2.sing hS
            cases two with
            | false => exact .one k kp _ _ hc.1 g1 g2 (g4 rfl) S1
            | true => exact .two k kp _ _ g1 g2 (g5 rfl) S1
          · intro i j hij
            rw [J2.frame i j (by omega)]
            exact fr i j hij
          · intro j hj
            dsimp only at g3
            rw [J3 j (by omega), g3, setPivots_lt _ _ _ _ _ hj]
          · intro j hj
            dsimp only at g3
            rw [J5 j hj, g3, setPivots_ge _ _ _ _ _ (by omega)]
    · refine ⟨u, h, ⟨le_rfl, hkn, fun _ _ _ _ h => h, fun h => h, fun _ _ _ => rfl⟩, fun _ _ => rfl,
        fun _ _ => rfl, fun e1 e2 => absurd ⟨e1, e2⟩ hc⟩

theorem oneBlock_spec {alpha : 𝕜} (h0 : 0 < alpha) (h1 : alpha < 1) {n nb : ℕ} (hn : 0 < n)
    (hnb : 1 < nb) (w : Arr 𝕜) (s : St 𝕜) :
    match oneBlock alpha n nb w s with
    | none => Sing n 0 s.a
    | some (b, kb) => 0 < kb ∧ Stretch n b.piv 0 s.a kb b.a ∧ (∀ j, kb ≤ j → b.piv j = s.piv j) := by
  have hI : Inv n 0 (⟨s.a, w, s.piv⟩ : BSt 𝕜) s.a := by
    refine ⟨fun i j hj => absurd hj (by omega), ?_, ?_, fun _ _ _ _ => rfl⟩
    · intro i j _ _ _; simp [dotRows]
    · intro i j _ _ _ _; simp [dotRows]
  have R := blockLoop_spec (nb := nb) h0 h1 (Nat.zero_le n) hI
  unfold oneBlock
  rcases hbl : blockLoop alpha n nb 0 ⟨s.a, w, s.piv⟩ with _ | ⟨b, k⟩
  · rw [hbl] at R; exact R
  · rw [hbl] at R
    dsimp only at R ⊢
    obtain ⟨u, J1, J2, -, J3, J4⟩ := R
    have hk := J4 hn (by omega)
    refine ⟨hk, ?_, J3⟩
    have e : undoSwaps b.piv (k - 1) (fun i j =>
        if k ≤ j ∧ j ≤ i ∧ i < n then b.a i j - dotRows k b.a b.w i j else b.a i j) = u := by
      rw [undoSwaps_eq, Nat.sub_add_cancel hk]
      funext i j
      by_cases hj : j < k
      · rw [← J1.low i j hj]
        refine undo_congr _ _ _ _ _ _ (fun _ _ => rfl) (fun i => ?_) i
        rw [if_neg (by omega)]
      · rw [undo_ge _ _ _ _ _ (by omega)]
        by_cases e : i < j ∨ n ≤ i
        · rw [if_neg (by omega), J1.rest i j (by omega) e]
        · rw [if_pos (by omega), J1.trail i j (by omega) (by omega) (by omega)]
    rw [e]
    exact J2

theorem unview_low (o : ℕ) (a b : Arr 𝕜) (i j : ℕ) (h : j < o) : unview o a b i j = a i j := by
  rw [unview, if_neg (by omega)]

theorem Step1.unshift {o n k kp : ℕ} {a a' : Arr 𝕜} (s : Step1 (n + o) (k + o) (kp + o) a a') :
    Step1 n k kp (view o a) (view o a') := by
  obtain ⟨h1, h2, h3, h4⟩ := s
  refine ⟨?_, ?_, ?_, ?_⟩ <;> simp only [permuted_view, sym_view]
  · exact h1
  · exact h2
  · intro i e1 e2; exact h3 _ (by omega) (by omega)
  · intro i j e1 e2 e3 e4; exact h4 _ _ (by omega) (by omega) (by omega) (by omega)

theorem Step2.unshift {o n k kp : ℕ} {a a' : Arr 𝕜} (s : Step2 (n + o) (k + o) (kp + o) a a') :
    Step2 n k kp (view o a) (view o a') := by
  obtain ⟨h1, h2, h3, h4, h5, h6, h7, h8, h9, h10⟩ := s
  have e : k + 1 + o = k + o + 1 := by omega
  refine ⟨?_, ?_, ?_, ?_, ?_, ?_, ?_, ?_, ?_, ?_⟩ <;> simp only [permuted_view, sym_view, view, e]
  · exact h1
  · exact h2
  · exact h3
  · exact h4
  · intro i e1 e2; exact h5 _ (by omega) (by omega)
  · intro i e1 e2; exact h6 _ (by omega) (by omega)
  · exact h7
  · exact h8
  · exact h9
  · intro i j e1 e2 e3 e4; exact h10 _ _ (by omega) (by omega) (by omega) (by omega)

theorem Sing.unshift {o N K : ℕ} {a : Arr 𝕜} (h : Sing N K a) :
    ∀ n k, N = n + o → K = k + o → Sing n k (view o a) := by
  induction h with
  | here K a hk hz =>
    rintro n k rfl rfl
    exact .here k _ (by omega) fun i e1 e2 => hz _ (by omega) (by omega)
  | one K kp a a' hk g1 g2 st t ih =>
    rintro n k rfl rfl
    obtain ⟨q, rfl⟩ : ∃ q, kp = q + o := ⟨kp - o, by omega⟩
    exact .one k q _ _ (by omega) (by omega) (by omega) st.unshift (ih n (k+1) rfl (by omega))
  | two K kp a a' g1 g2 st t ih =>
    rintro n k rfl rfl
    obtain ⟨q, rfl⟩ : ∃ q, kp = q + o := ⟨kp - o, by omega⟩
    exact .two k q _ _ (by omega) (by omega) st.unshift (ih n (k+2) rfl (by omega))

/-- Inverse of `absP`. -/
def relP (o : ℕ) (p : ℤ) : ℤ := if 0 ≤ p then p - o else p + o

theorem relP_absP (o : ℕ) (p : ℤ) : relP o (absP o p) = p := by
  unfold relP absP; split_ifs <;> omega

theorem absP_relP {o : ℕ} {p : ℤ} (h : (o : ℤ) ≤ p ∨ p ≤ -1 - o) : absP o (relP o p) = p := by
  unfold relP absP; split_ifs <;> omega

theorem Fac.unshift {o N K : ℕ} {a af : Arr 𝕜} {piv : ℕ → ℤ} (h : Fac N af piv K a) :
    ∀ n k, N = n + o → K = k + o →
      Fac n (view o af) (fun j => relP o (piv (j + o))) k (view o a) := by
  induction h with
  | stop a =>
    intro n k h1 h2
    have : k = n := by omega
    subst this
    exact .stop _
  | one K kp a a' hk g1 g2 hp st hc t ih =>
    rintro n k rfl rfl
    obtain ⟨q, rfl⟩ : ∃ q, kp = q + o := ⟨kp - o, by omega⟩
    refine .one k q _ _ (by omega) (by omega) (by omega) ?_ st.unshift ?_ (ih n (k+1) rfl (by omega))
    · rw [hp, relP, if_pos (by omega)]; push_cast; ring
    · intro i e1 e2; exact hc _ (by omega) (by omega)
  | two K kp a a' g1 g2 hp hp1 st hc hc1 t ih =>
    rintro n k rfl rfl
    obtain ⟨q, rfl⟩ : ∃ q, kp = q + o := ⟨kp - o, by omega⟩
    refine .two k q _ _ (by omega) (by omega) ?_ ?_ st.unshift ?_ ?_ (ih n (k+2) rfl (by omega))
    · rw [hp, relP, if_neg (by omega)]; push_cast; ring
    · rw [show k + 1 + o = k + o + 1 by omega, hp1, relP, if_neg (by omega)]; push_cast; ring
    · intro i e1 e2; exact hc _ (by omega) (by omega)
    · intro i e1 e2
      have := hc1 (i + o) (by omega) (by omega)
      rw [show k + o + 1 = k + 1 + o by omega] at this
      exact this

theorem Fac.piv_bounds {n k : ℕ} {a af : Arr 𝕜} {piv : ℕ → ℤ} (h : Fac n af piv k a) (j : ℕ)
    (hj : k ≤ j) (hj' : j < n) : (k : ℤ) ≤ piv j ∨ piv j ≤ -1 - k := by
  induction h with
  | stop a => omega
  | one K kp a a' hk g1 g2 hp st hc t ih =>
    by_cases e : j = K
    · subst e; left; rw [hp]; omega
    · have := ih (by omega); omega
  | two K kp a a' g1 g2 hp hp1 st hc hc1 t ih =>
    by_cases e : j = K
    · subst e; right; rw [hp]; omega
    · by_cases e' : j = K + 1
      · subst e'; right; rw [hp1]; omega
      · have := ih (by omega); omega

theorem absPivots_in (o kb : ℕ) (piv rel : ℕ → ℤ) (j : ℕ) (hj : j < kb) :
    absPivots o kb piv rel (j + o) = absP o (rel j) := by
  rw [absPivots, if_pos (by omega), Nat.add_sub_cancel]; rfl

theorem driver_spec {alpha : 𝕜} (h0 : 0 < alpha) (h1 : alpha < 1) {n bs k : ℕ} (hbs : bs ≠ 1)
    (hkn : k ≤ n) (w : Arr 𝕜) (s : St 𝕜) (hp : ∀ j, k ≤ j → s.piv j = 0) :
    match driver alpha n bs k w s with
    | none => Sing n k s.a
    | some sf => Fac n sf.a sf.piv k s.a ∧ (∀ i j, j < k → sf.a i j = s.a i j) ∧
        (∀ j, j < k → sf.piv j = s.piv j) := by
  induction hm : n - k using Nat.strong_induction_on generalizing k w s with
  | _ m ih =>
    rw [driver]
    by_cases hk : k < n
    · rw [dif_pos hk]
      have hnk : n = n - k + k := by omega
      by_cases hc : bs ≠ 0 ∧ bs < n - k
      · rw [if_pos hc]
        have R := oneBlock_spec h0 h1 (n := n - k) (nb := bs) (by omega) (by omega) w
          ⟨view k s.a, fun i => s.piv (i + k)⟩
        rcases hob : oneBlock alpha (n - k) bs w ⟨view k s.a, fun i => s.piv (i + k)⟩ with _ | ⟨b, kb⟩
        · rw [hob] at R
          dsimp only at R ⊢
          have := R.shift (o := k) s.a rfl
          rw [← hnk, Nat.zero_add] at this
          exact this
        · rw [hob] at R
          dsimp only at R ⊢
          obtain ⟨R1, R2, R3⟩ := R
          have R2le := R2.le'
          rw [dif_neg (by omega)]
          have hbp : ∀ j, k + kb ≤ j → absPivots k kb s.piv b.piv j = 0 := by
            intro j hj
            rw [absPivots, if_neg (by omega), hp j (by omega)]
          have IH := ih (n - (k + kb)) (by omega) (k := k + kb) (by omega) b.w
            ⟨unview k s.a b.a, absPivots k kb s.piv b.piv⟩ hbp rfl
          rcases hd : driver alpha n bs (k + kb) b.w ⟨unview k s.a b.a, absPivots k kb s.piv b.piv⟩
            with _ | sf
          · rw [hd] at IH
            dsimp only at IH ⊢
            have e : Sing (n - k) kb b.a := by
              have := IH.unshift (o := k) (n - k) kb hnk (by omega)
              rwa [view_unview] at this
            have := (R2.sing e).shift (o := k) s.a rfl
            rw [← hnk, Nat.zero_add] at this
            exact this
          · rw [hd] at IH
            dsimp only at IH ⊢
            obtain ⟨F, F1, F2⟩ := IH
            refine ⟨?_, ?_, ?_⟩
            · have U := F.unshift (o := k) (n - k) kb hnk (by omega)
              rw [view_unview] at U
              have V := R2.fac _ _ ?_ ?_ U
              · have := V.shift (o := k) (af := sf.a) (piv := sf.piv) ?_ ?_ s.a rfl
                · rw [← hnk, Nat.zero_add] at this
                  exact this
                · intro i j _ _ _; rfl
                · intro j _ hj
                  rw [absP_relP]
                  by_cases e : j < kb
                  · rw [F2 _ (by omega), absPivots_in _ _ _ _ _ e]
                    unfold absP; split_ifs <;> omega
                  · have := F.piv_bounds (j + k) (by omega) (by omega)
                    omega
              · intro i j e1 e2 e3 e4
                have := F1 (i + k) (j + k) (by omega)
                show sf.a (i + k) (j + k) = b.a i j
                rw [this]
                exact congrFun (congrFun (view_unview k s.a b.a) i) j
              · intro j e1 e2
                rw [F2 _ (by omega), absPivots_in _ _ _ _ _ e2, relP_absP]
            · intro i j hj
              rw [F1 i j (by omega), unview_low _ _ _ _ _ hj]
            · intro j hj
              rw [F2 j (by omega), absPivots, if_neg (by omega)]
      · rw [if_neg hc, unblocked_eq _ _ _ (by dsimp only; rw [hp _ (by omega)])]
        rcases hb : bkLoop alpha (n - k) 0 ⟨view k s.a, fun i => s.piv (i + k)⟩ with _ | b
        · dsimp only
          have := (bkLoop_sing h0 h1 hb).shift (o := k) s.a rfl
          rw [← hnk, Nat.zero_add] at this
          exact this
        · dsimp only
          refine ⟨?_, ?_, ?_⟩
          · have := (bkLoop_fac h0 h1 (Nat.zero_le _) hb).shift (o := k)
              (af := unview k s.a b.a) (piv := absPivots k (n - k) s.piv b.piv) ?_ ?_ s.a rfl
            · rw [← hnk, Nat.zero_add] at this
              exact this
            · intro i j _ _ _
              exact congrFun (congrFun (view_unview k s.a b.a) i) j
            · intro j _ hj
              exact absPivots_in _ _ _ _ _ hj
          · intro i j hj; exact unview_low _ _ _ _ _ hj
          · intro j hj; rw [absPivots, if_neg (by omega)]
    · rw [dif_neg hk]
      have : k = n := by omega
      subst this
      exact ⟨.stop _, fun _ _ _ => rfl, fun _ _ => rfl⟩

theorem compute_none {alpha : 𝕜} (h0 : 0 < alpha) (h1 : alpha < 1) {n : ℕ} {m : Arr 𝕜}
    (h : compute alpha n m = none) : Sing n 0 (initial m).a := by
  unfold compute at h
  have D := driver_spec h0 h1 (n := n) (bs := if n ≤ 32 then 0 else 32) (k := 0) (by split <;> omega)
    (Nat.zero_le n) (fun _ _ => 0) (initial m) (fun _ _ => rfl)
  rw [Option.map_eq_none_iff] at h
  rw [h] at D
  exact D

theorem compute_some {alpha : 𝕜} (h0 : 0 < alpha) (h1 : alpha < 1) {n : ℕ} {m : Arr 𝕜} {f : Factored 𝕜}
    (h : compute alpha n m = some f) (x : ℕ → 𝕜) (i : ℕ) (hi : i < n) :
    rowSum 0 n (sym (initial m).a) (solve n f x) i = x i := by
  unfold compute at h
  have D := driver_spec h0 h1 (n := n) (bs := if n ≤ 32 then 0 else 32) (k := 0) (by split <;> omega)
    (Nat.zero_le n) (fun _ _ => 0) (initial m) (fun _ _ => rfl)
  rw [Option.map_eq_some_iff] at h
  obtain ⟨sf, hs, rfl⟩ := h
  rw [hs] at D
  exact solve_correct D.1 x i hi

end Aligator.BK
