import Mathlib.Tactic.Ring
import Verif.Lemmas.QViews
import Mathlib.Tactic.IntervalCases

/-!
# C71: Q-functions and cost data are values with named blocks
-/

namespace Aligator.QView

open Spec

variable {K : Type}

/-- No buffer is shared between two objects. -/
def Apart (o p : QFun K) : Prop :=
  o.grad.addr ≠ p.grad.addr ∧ o.grad.addr ≠ p.hess.addr ∧ o.hess.addr ≠ p.grad.addr ∧ o.hess.addr ≠ p.hess.addr

/-- The invariant of the refinement. -/
structure Inv (s : St K) (A : ℕ → Option (QVal K)) : Prop where
  rep : ∀ a o, s.objs a = some o → ∃ v, A a = some v ∧ Rep s.mem o v
  gone : ∀ a, s.objs a = none → A a = none
  apart : ∀ a b o p, s.objs a = some o → s.objs b = some p → a ≠ b → Apart o p

theorem Inv.agrees {s : St K} {A : ℕ → Option (QVal K)} (I : Inv s A) : Agrees s A := by
  intro a
  cases ho : s.objs a with
  | none => rw [I.gone a ho]; trivial
  | some o =>
    obtain ⟨v, hv, R⟩ := I.rep a o ho
    rw [hv]
    exact R.shows

theorem Inv.get {s : St K} {A : ℕ → Option (QVal K)} (I : Inv s A) {a : ℕ} {v : QVal K} (hv : A a = some v) :
    ∃ o, s.objs a = some o ∧ Rep s.mem o v := by
  cases ho : s.objs a with
  | none => rw [I.gone a ho] at hv; cases hv
  | some o =>
    obtain ⟨v', hv', R⟩ := I.rep a o ho
    rw [hv] at hv'
    cases hv'
    exact ⟨o, rfl, R⟩

theorem Inv.get_none {s : St K} {A : ℕ → Option (QVal K)} (I : Inv s A) {a : ℕ} (hv : A a = none) :
    s.objs a = none := by
  cases ho : s.objs a with
  | none => rfl
  | some o =>
    obtain ⟨v', hv', -⟩ := I.rep a o ho
    rw [hv] at hv'
    cases hv'

/-- One object is replaced or added, the buffers of the others are untouched. -/
theorem Inv.put {s : St K} {A : ℕ → Option (QVal K)} (I : Inv s A) {a : ℕ} {o : QFun K} {v : QVal K} {h : Mem K}
    (R : Rep h o v) (hn : s.mem.next ≤ h.next)
    (hf : ∀ b p, b ≠ a → s.objs b = some p →
      h.cell p.grad.addr = s.mem.cell p.grad.addr ∧ h.cell p.hess.addr = s.mem.cell p.hess.addr ∧ Apart o p) :
    Inv ⟨h, Function.update s.objs a (some o)⟩ (fun n => if n = a then some v else A n) := by
  refine ⟨?_, ?_, ?_⟩
  · intro b p hb
    dsimp only at hb ⊢
    by_cases e : b = a
    · subst e
      rw [Function.update_self] at hb
      cases hb
      exact ⟨v, if_pos rfl, R⟩
    · rw [Function.update_of_ne e] at hb
      obtain ⟨w, hw, Rw⟩ := I.rep b p hb
      obtain ⟨f1, f2, -⟩ := hf b p e hb
      exact ⟨w, (if_neg e).trans hw, Rw.frame hn f1 f2⟩
  · intro b hb
    dsimp only at hb ⊢
    by_cases e : b = a
    · subst e
      rw [Function.update_self] at hb
      cases hb
    · rw [Function.update_of_ne e] at hb
      rw [if_neg e]
      exact I.gone b hb
  · intro b c p q hb hc hbc
    dsimp only at hb hc
    by_cases e : b = a
    · subst e
      rw [Function.update_self] at hb
      cases hb
      rw [Function.update_of_ne hbc.symm] at hc
      exact (hf c q hbc.symm hc).2.2
    · rw [Function.update_of_ne e] at hb
      by_cases e' : c = a
      · subst e'
        rw [Function.update_self] at hc
        cases hc
        obtain ⟨q1, q2, q3, q4⟩ := (hf b p hbc hb).2.2
        exact ⟨q1.symm, q3.symm, q2.symm, q4.symm⟩
      · rw [Function.update_of_ne e'] at hc
        exact I.apart b c p q hb hc hbc

/-- What one operation has to do. -/
def StepOk [Zero K] (j : ℕ → ℕ → K) (s : St K) (A : ℕ → Option (QVal K)) (op : Op K) : Prop :=
  match astep A op with
  | none => s.step j op = none
  | some A' => ∃ s', s.step j op = some s' ∧ Inv s' A'

theorem step_new [Zero K] (j : ℕ → ℕ → K) {s : St K} {A : ℕ → Option (QVal K)} (I : Inv s A) (a ndx nu ndy : ℕ) :
    StepOk j s A (.new a ndx nu ndy) := by
  unfold StepOk
  cases ha : A a with
  | some v =>
    obtain ⟨o, ho, -⟩ := I.get ha
    simp only [astep, ha, St.step, ho]
  | none =>
    have ho := I.get_none ha
    obtain ⟨o, h', e, R, hn, g1, g2, hf⟩ := new_spec j s.mem ndx nu ndy
    simp only [astep, ha, St.step, ho, e, Option.map_some]
    refine ⟨_, rfl, I.put R hn ?_⟩
    intro b p _ hb
    obtain ⟨w, _, Rw⟩ := I.rep b p hb
    have := Rw.gnext
    have := Rw.hnext
    exact ⟨hf _ Rw.gnext, hf _ Rw.hnext, by omega, by omega, by omega, by omega⟩

theorem step_copy [Zero K] (j : ℕ → ℕ → K) {s : St K} {A : ℕ → Option (QVal K)} (I : Inv s A) (a b : ℕ) :
    StepOk j s A (.copy a b) := by
  unfold StepOk
  cases ha : A a with
  | some v =>
    obtain ⟨o, ho, -⟩ := I.get ha
    simp only [astep, ha, St.step, ho]
  | none =>
    have ho := I.get_none ha
    cases hb : A b with
    | none =>
      have hp := I.get_none hb
      simp only [astep, ha, hb, St.step, ho, hp]
    | some w =>
      obtain ⟨p, hp, Rp⟩ := I.get hb
      obtain ⟨o, h1, e, R, hn, g1, g2, hf⟩ := new_spec j s.mem p.ndx p.nu p.ndy
      have := Rp.gnext
      have := Rp.hnext
      obtain ⟨o', h2, e', R', hn', a1, a2, hf'⟩ := assign_spec j R (Rp.frame hn (hf _ Rp.gnext) (hf _ Rp.hnext))
        (Or.inr ⟨by omega, by omega, by omega, by omega⟩)
      have e2 : QFun.copy j s.mem p = some (o', h2) := by
        unfold QFun.copy
        rw [e]
        exact e'
      simp only [astep, ha, hb, St.step, ho, hp, e2, Option.map_some]
      refine ⟨_, rfl, I.put R' (le_trans hn hn') ?_⟩
      intro c q _ hc
      obtain ⟨w, _, Rw⟩ := I.rep c q hc
      have := Rw.gnext
      have := Rw.hnext
      exact ⟨(hf' _ (by omega) (by omega) (by omega)).trans (hf _ Rw.gnext),
        (hf' _ (by omega) (by omega) (by omega)).trans (hf _ Rw.hnext), by omega, by omega, by omega, by omega⟩

theorem step_assign [Zero K] (j : ℕ → ℕ → K) {s : St K} {A : ℕ → Option (QVal K)} (I : Inv s A) (a b : ℕ) :
    StepOk j s A (.assign a b) := by
  unfold StepOk
  cases ha : A a with
  | none =>
    have ho := I.get_none ha
    simp only [astep, ha, St.step, ho]
  | some v =>
    obtain ⟨o, ho, Ro⟩ := I.get ha
    cases hb : A b with
    | none =>
      have hp := I.get_none hb
      simp only [astep, ha, hb, St.step, ho, hp]
    | some w =>
      obtain ⟨p, hp, Rp⟩ := I.get hb
      have hop : o = p ∧ v = w ∨ Apart o p := by
        by_cases e : a = b
        · subst e
          rw [ho] at hp
          rw [ha] at hb
          cases hp
          cases hb
          exact Or.inl ⟨rfl, rfl⟩
        · exact Or.inr (I.apart a b o p ho hp e)
      obtain ⟨o', h', e, R, hn, a1, a2, hf⟩ := assign_spec j Ro Rp hop
      simp only [astep, ha, hb, St.step, ho, hp, e, Option.map_some]
      refine ⟨_, rfl, I.put R hn ?_⟩
      intro c q hca hc
      obtain ⟨x, _, Rq⟩ := I.rep c q hc
      have := Rq.gnext
      have := Rq.hnext
      obtain ⟨q1, q2, q3, q4⟩ := I.apart a c o q ho hc (Ne.symm hca)
      refine ⟨hf _ Rq.gnext (Ne.symm q1) (Ne.symm q3), hf _ Rq.hnext (Ne.symm q2) (Ne.symm q4), ?_, ?_, ?_, ?_⟩ <;> omega

/-- `swap` on the state. -/
theorem swap_ok {s : St K} {A : ℕ → Option (QVal K)} (I : Inv s A) {a b : ℕ} {v w : QVal K} (ha : A a = some v)
    (hb : A b = some w) :
    ∃ s', s.swap a b = some s' ∧
      Inv s' (fun n => if n = b then some v else if n = a then some w else A n) := by
  obtain ⟨o, ho, Ro⟩ := I.get ha
  obtain ⟨p, hp, Rp⟩ := I.get hb
  by_cases e : a = b
  · subst e
    rw [ha] at hb
    cases hb
    obtain ⟨o', e1, R', c1, c2⟩ := redef_rep Ro
    have e2 : s.swap a a = some { s with objs := Function.update s.objs a (some o') } := by
      unfold St.swap
      rw [ho]
      dsimp only
      rw [if_pos rfl, e1]
      rfl
    refine ⟨_, e2, ?_⟩
    have I2 := I.put (a := a) R' (le_refl _) (by
      intro c q hca hc
      refine ⟨rfl, rfl, ?_⟩
      have := I.apart a c o q ho hc (Ne.symm hca)
      unfold Apart at this ⊢
      rw [c1, c2]
      exact this)
    have e3 : (fun n => if n = a then some v else if n = a then some v else A n) =
        fun n => if n = a then some v else A n := by
      funext n
      by_cases h : n = a
      · rw [if_pos h, if_pos h]
      · rw [if_neg h, if_neg h]
    rw [e3]
    exact I2
  · obtain ⟨o', p', e1, R1, R2, c1, c2, d1, d2⟩ := swap_spec Ro Rp
    have e2 : s.swap a b = some { s with objs := Function.update (Function.update s.objs a (some o')) b (some p') } := by
      unfold St.swap
      rw [ho, hp]
      dsimp only
      rw [if_neg e, e1]
      rfl
    refine ⟨_, e2, ?_⟩
    have hab := I.apart a b o p ho hp e
    have key : ∀ c q, Function.update (Function.update s.objs a (some o')) b (some p') c = some q →
        (c = b ∧ q = p') ∨ (c = a ∧ q = o') ∨ (c ≠ a ∧ c ≠ b ∧ s.objs c = some q) := by
      intro c q hc
      by_cases h1 : c = b
      · subst h1
        rw [Function.update_self] at hc
        cases hc
        exact Or.inl ⟨rfl, rfl⟩
      · rw [Function.update_of_ne h1] at hc
        by_cases h2 : c = a
        · subst h2
          rw [Function.update_self] at hc
          cases hc
          exact Or.inr (Or.inl ⟨rfl, rfl⟩)
        · rw [Function.update_of_ne h2] at hc
          exact Or.inr (Or.inr ⟨h2, h1, hc⟩)
    have sym : ∀ {x y : QFun K}, Apart x y → Apart y x := fun h => ⟨h.1.symm, h.2.2.1.symm, h.2.1.symm, h.2.2.2.symm⟩
    have ap1 : ∀ {q}, Apart o q → Apart p' q := fun h => by unfold Apart at h ⊢; rw [d1, d2]; exact h
    have ap2 : ∀ {q}, Apart p q → Apart o' q := fun h => by unfold Apart at h ⊢; rw [c1, c2]; exact h
    refine ⟨?_, ?_, ?_⟩
    · intro c q hc
      dsimp only at hc ⊢
      rcases key c q hc with ⟨h1, rfl⟩ | ⟨h1, rfl⟩ | ⟨h1, h2, h3⟩
      · exact ⟨v, by rw [if_pos h1], R2⟩
      · exact ⟨w, by rw [if_neg (by omega), if_pos h1], R1⟩
      · obtain ⟨x, hx, Rx⟩ := I.rep c q h3
        exact ⟨x, by rw [if_neg h2, if_neg h1]; exact hx, Rx⟩
    · intro c hc
      dsimp only at hc ⊢
      by_cases h1 : c = b
      · subst h1
        rw [Function.update_self] at hc
        cases hc
      · rw [Function.update_of_ne h1] at hc
        by_cases h2 : c = a
        · subst h2
          rw [Function.update_self] at hc
          cases hc
        · rw [Function.update_of_ne h2] at hc
          rw [if_neg h1, if_neg h2]
          exact I.gone c hc
    · intro c d x y hc hd hcd
      dsimp only at hc hd
      rcases key c x hc with ⟨h1, rfl⟩ | ⟨h1, rfl⟩ | ⟨h1, h2, h3⟩ <;>
        rcases key d y hd with ⟨k1, rfl⟩ | ⟨k1, rfl⟩ | ⟨k1, k2, k3⟩
      · omega
      · exact ap1 (sym (ap2 (sym hab)))
      · exact ap1 (I.apart a d o y ho k3 (Ne.symm k1))
      · exact ap2 (sym (ap1 hab))
      · omega
      · exact ap2 (I.apart b d p y hp k3 (Ne.symm k2))
      · exact sym (ap1 (I.apart a c o x ho h3 (Ne.symm h1)))
      · exact sym (ap2 (I.apart b c p x hp h3 (Ne.symm h2)))
      · exact I.apart c d x y h3 k3 hcd

theorem swap_none {s : St K} {A : ℕ → Option (QVal K)} (I : Inv s A) {a b : ℕ}
    (hn : A a = none ∨ A b = none) : s.swap a b = none := by
  unfold St.swap
  rcases hn with h | h
  · rw [I.get_none h]
  · rw [I.get_none h]
    cases s.objs a <;> rfl

theorem step_swap [Zero K] (j : ℕ → ℕ → K) {s : St K} {A : ℕ → Option (QVal K)} (I : Inv s A) (a b : ℕ) :
    StepOk j s A (.swap a b) ∧ StepOk j s A (.moveAssign a b) := by
  unfold StepOk
  cases ha : A a with
  | none => simp only [astep, ha, St.step]; exact ⟨swap_none I (Or.inl ha), swap_none I (Or.inl ha)⟩
  | some v =>
    cases hb : A b with
    | none => simp only [astep, ha, hb, St.step]; exact ⟨swap_none I (Or.inr hb), swap_none I (Or.inr hb)⟩
    | some w => simp only [astep, ha, hb, St.step]; exact ⟨swap_ok I ha hb, swap_ok I ha hb⟩

theorem step_move [Zero K] (j : ℕ → ℕ → K) {s : St K} {A : ℕ → Option (QVal K)} (I : Inv s A) (a b : ℕ) :
    StepOk j s A (.move a b) := by
  unfold StepOk
  cases ha : A a with
  | some v =>
    obtain ⟨o, ho, -⟩ := I.get ha
    simp only [astep, ha, St.step, ho]
  | none =>
    have ho := I.get_none ha
    cases hb : A b with
    | none =>
      have hp := I.get_none hb
      simp only [astep, ha, hb, St.step, ho, hp]
    | some w =>
      obtain ⟨p, hp, Rp⟩ := I.get hb
      have hab : a ≠ b := by
        rintro rfl
        rw [ha] at hb
        cases hb
      -- the empty object under the new name, then the exchange
      obtain ⟨o, h1, e, R, hn, g1, g2, hf⟩ := new_spec j s.mem 0 0 0
      have I1 : Inv ⟨h1, Function.update s.objs a (some o)⟩
          (fun n => if n = a then some (zeroVal 0 0 0) else A n) := I.put R hn (by
        intro c q _ hc
        obtain ⟨x, _, Rq⟩ := I.rep c q hc
        have := Rq.gnext
        have := Rq.hnext
        exact ⟨hf _ Rq.gnext, hf _ Rq.hnext, by omega, by omega, by omega, by omega⟩)
      obtain ⟨o2, p2, e2, -⟩ := swap_spec R (Rp.frame hn (hf _ Rp.gnext) (hf _ Rp.hnext))
      obtain ⟨s', e3, I3⟩ := swap_ok I1 (a := a) (b := b) (v := zeroVal 0 0 0) (w := w) (if_pos rfl)
        ((if_neg (Ne.symm hab)).trans hb)
      have e4 : (⟨h1, Function.update s.objs a (some o)⟩ : St K).swap a b =
          some ⟨h1, Function.update (Function.update (Function.update s.objs a (some o)) a (some o2)) b (some p2)⟩ := by
        unfold St.swap
        dsimp only
        rw [Function.update_self, Function.update_of_ne (Ne.symm hab), hp]
        dsimp only
        rw [if_neg hab, e2]
        rfl
      have e5 : QFun.move j s.mem p = some (o2, p2, h1) := by
        unfold QFun.move
        rw [e]
        dsimp only [Option.bind_eq_bind, Option.bind_some]
        rw [e2]
        rfl
      simp only [astep, ha, hb, St.step, ho, hp, e5, Option.map_some]
      rw [e4] at e3
      cases e3
      refine ⟨_, rfl, ?_⟩
      rw [Function.update_idem] at I3
      have e6 : (fun n => if n = b then some (zeroVal (K := K) 0 0 0) else if n = a then some w else
          if n = a then some (zeroVal 0 0 0) else A n) =
          fun n => if n = b then some (zeroVal 0 0 0) else if n = a then some w else A n := by
        funext n
        by_cases h : n = a
        · simp [h]
        · simp [h]
      rw [e6] at I3
      exact I3

theorem step_del [Zero K] (j : ℕ → ℕ → K) {s : St K} {A : ℕ → Option (QVal K)} (I : Inv s A) (a : ℕ) :
    StepOk j s A (.del a) := by
  unfold StepOk
  cases ha : A a with
  | none =>
    have ho := I.get_none ha
    simp only [astep, ha, St.step, ho]
  | some v =>
    obtain ⟨o, ho, Ro⟩ := I.get ha
    simp only [astep, ha, St.step, ho]
    refine ⟨_, rfl, ?_, ?_, ?_⟩
    · intro b p hb
      dsimp only at hb ⊢
      by_cases e : b = a
      · subst e
        rw [Function.update_self] at hb
        cases hb
      · rw [Function.update_of_ne e] at hb
        obtain ⟨w, hw, Rw⟩ := I.rep b p hb
        obtain ⟨q1, q2, q3, q4⟩ := I.apart a b o p ho hb (Ne.symm e)
        refine ⟨w, (if_neg e).trans hw, Rw.frame (le_refl _) ?_ ?_⟩ <;> dsimp only [Mem.free]
        · rw [Function.update_of_ne (Ne.symm q3), Function.update_of_ne (Ne.symm q1)]
        · rw [Function.update_of_ne (Ne.symm q4), Function.update_of_ne (Ne.symm q2)]
    · intro b hb
      dsimp only at hb ⊢
      by_cases e : b = a
      · rw [if_pos e]
      · rw [Function.update_of_ne e] at hb
        rw [if_neg e]
        exact I.gone b hb
    · intro b c p q hb hc hbc
      dsimp only at hb hc
      have h1 : b ≠ a := by
        rintro rfl
        rw [Function.update_self] at hb
        cases hb
      have h2 : c ≠ a := by
        rintro rfl
        rw [Function.update_self] at hc
        cases hc
      rw [Function.update_of_ne h1] at hb
      rw [Function.update_of_ne h2] at hc
      exact I.apart b c p q hb hc hbc

theorem step_setQ [Zero K] (j : ℕ → ℕ → K) {s : St K} {A : ℕ → Option (QVal K)} (I : Inv s A) (a : ℕ) (x : K) :
    StepOk j s A (.setQ a x) := by
  unfold StepOk
  cases ha : A a with
  | none =>
    have ho := I.get_none ha
    simp only [astep, ha, St.step, ho]
  | some v =>
    obtain ⟨o, ho, Ro⟩ := I.get ha
    simp only [astep, ha, St.step, ho]
    have R' : Rep s.mem { o with q := x } { v with q := x } :=
      ⟨⟨Ro.dims.1, Ro.dims.2.1, Ro.dims.2.2.1, rfl⟩, Ro.grad, Ro.hess, Ro.views, Ro.gnext, Ro.hnext, Ro.sep⟩
    exact ⟨_, rfl, I.put R' (le_refl _) (fun c q hca hc => ⟨rfl, rfl, I.apart a c o q ho hc (Ne.symm hca)⟩)⟩

/-- A write into the gradient of one object. -/
theorem write_grad {s : St K} {A : ℕ → Option (QVal K)} (I : Inv s A) {a : ℕ} {o : QFun K} {v : QVal K}
    (ho : s.objs a = some o) (Ro : Rep s.mem o v) {i : ℕ} (hi : i < v.ndx + v.nu) (x : K) :
    ∃ h', s.mem.store o.grad.addr i x = some h' ∧
      Inv { s with mem := h' } (fun n => if n = a then some (v.putG i x) else A n) := by
  obtain ⟨h', e, hn, Hg, hf⟩ := Ro.grad.store hi Nat.one_pos x
  rw [Nat.zero_mul, Nat.add_zero] at e
  refine ⟨h', e, ?_⟩
  have hn' : s.mem.next ≤ h'.next := le_of_eq hn.symm
  have R' : Rep h' o (v.putG i x) := by
    refine ⟨Ro.dims, ?_, Ro.hess.frame (hf _ Ro.sep.symm), Ro.views, lt_of_lt_of_le Ro.gnext hn', lt_of_lt_of_le Ro.hnext hn', Ro.sep⟩
    obtain ⟨g1, g2, l, g3, g4, g5⟩ := Hg
    refine ⟨g1, g2, l, g3, g4, ?_⟩
    intro r hr c hc
    refine (g5 r hr c hc).trans ?_
    obtain rfl : c = 0 := by omega
    unfold QVal.putG
    by_cases hk : r = i
    · simp [hk]
    · simp [hk]
  have := I.put (a := a) R' hn' (by
    intro c q hca hc
    obtain ⟨q1, q2, q3, q4⟩ := I.apart a c o q ho hc (Ne.symm hca)
    exact ⟨hf _ (Ne.symm q1), hf _ (Ne.symm q2), q1, q2, q3, q4⟩)
  rw [← ho, Function.update_eq_self] at this
  exact this

/-- A write into the Hessian of one object. -/
theorem write_hess {s : St K} {A : ℕ → Option (QVal K)} (I : Inv s A) {a : ℕ} {o : QFun K} {v : QVal K}
    (ho : s.objs a = some o) (Ro : Rep s.mem o v) {r c : ℕ} (hr : r < v.ndx + v.nu + v.ndy)
    (hc : c < v.ndx + v.nu + v.ndy) (x : K) :
    ∃ h', s.mem.store o.hess.addr (r + c * (v.ndx + v.nu + v.ndy)) x = some h' ∧
      Inv { s with mem := h' } (fun n => if n = a then some (v.putH r c x) else A n) := by
  obtain ⟨h', e, hn, Hh, hf⟩ := Ro.hess.store hr hc x
  refine ⟨h', e, ?_⟩
  have hn' : s.mem.next ≤ h'.next := le_of_eq hn.symm
  have R' : Rep h' o (v.putH r c x) :=
    ⟨Ro.dims, Ro.grad.frame (hf _ Ro.sep), Hh, Ro.views, lt_of_lt_of_le Ro.gnext hn', lt_of_lt_of_le Ro.hnext hn', Ro.sep⟩
  have := I.put (a := a) R' hn' (by
    intro c q hca hc
    obtain ⟨q1, q2, q3, q4⟩ := I.apart a c o q ho hc (Ne.symm hca)
    exact ⟨hf _ (Ne.symm q3), hf _ (Ne.symm q4), q1, q2, q3, q4⟩)
  rw [← ho, Function.update_eq_self] at this
  exact this

theorem step_setGrad [Zero K] (j : ℕ → ℕ → K) {s : St K} {A : ℕ → Option (QVal K)} (I : Inv s A) (a i : ℕ) (x : K) :
    StepOk j s A (.setGrad a i x) := by
  unfold StepOk
  cases ha : A a with
  | none =>
    have ho := I.get_none ha
    simp only [astep, ha, St.step, ho]
  | some v =>
    obtain ⟨o, ho, Ro⟩ := I.get ha
    by_cases hi : i < v.ndx + v.nu
    · obtain ⟨h', e, I'⟩ := write_grad I ho Ro hi x
      have e2 : o.grad.store s.mem i 0 x = some h' := by
        unfold Dense.store
        rw [if_pos ⟨by rw [Ro.grad.1]; exact hi, by rw [Ro.grad.2.1]; exact Nat.one_pos⟩, Nat.zero_mul, Nat.add_zero]
        exact e
      simp only [astep, ha, St.step, ho, e2, Option.map_some, if_pos hi]
      exact ⟨_, rfl, I'⟩
    · have e2 : o.grad.store s.mem i 0 x = none := by
        unfold Dense.store
        rw [if_neg (fun h => hi (by rw [Ro.grad.1] at h; exact h.1))]
      simp only [astep, ha, St.step, ho, e2, Option.map_none, if_neg hi]

theorem step_setHess [Zero K] (j : ℕ → ℕ → K) {s : St K} {A : ℕ → Option (QVal K)} (I : Inv s A) (a r c : ℕ) (x : K) :
    StepOk j s A (.setHess a r c x) := by
  unfold StepOk
  cases ha : A a with
  | none =>
    have ho := I.get_none ha
    simp only [astep, ha, St.step, ho]
  | some v =>
    obtain ⟨o, ho, Ro⟩ := I.get ha
    by_cases hi : r < v.ndx + v.nu + v.ndy ∧ c < v.ndx + v.nu + v.ndy
    · obtain ⟨h', e, I'⟩ := write_hess I ho Ro hi.1 hi.2 x
      have e2 : o.hess.store s.mem r c x = some h' := by
        unfold Dense.store
        rw [if_pos ⟨by rw [Ro.hess.1]; exact hi.1, by rw [Ro.hess.2.1]; exact hi.2⟩, Ro.hess.1]
        exact e
      simp only [astep, ha, St.step, ho, e2, Option.map_some, if_pos hi]
      exact ⟨_, rfl, I'⟩
    · have e2 : o.hess.store s.mem r c x = none := by
        unfold Dense.store
        rw [if_neg (fun h => hi (by rw [Ro.hess.1, Ro.hess.2.1] at h; exact h))]
      simp only [astep, ha, St.step, ho, e2, Option.map_none, if_neg hi]

/-- Where a view points, in terms of the value. -/
theorem view_place {h : Mem K} {o : QFun K} {v : QVal K} (R : Rep h o v) (b : Blk) :
    (o.view b).rows = v.dim (rowVar b) ∧ (o.view b).cols = v.width b ∧
    match colVar b with
    | none => (o.view b).addr = o.grad.addr ∧ (o.view b).off = v.start (rowVar b) ∧
        v.start (rowVar b) + v.dim (rowVar b) ≤ v.ndx + v.nu
    | some p => (o.view b).addr = o.hess.addr ∧ (o.view b).stride = v.ndx + v.nu + v.ndy ∧
        (o.view b).off = v.start (rowVar b) + v.start p * (v.ndx + v.nu + v.ndy) ∧
        v.start (rowVar b) + v.dim (rowVar b) ≤ v.ndx + v.nu + v.ndy ∧ v.start p + v.dim p ≤ v.ndx + v.nu + v.ndy := by
  obtain ⟨d1, d2, d3, -⟩ := R.dims
  obtain ⟨v1, v2, v3, v4, v5, v6, v7, v8⟩ := R.views
  have hhr : o.hess.rows = v.ndx + v.nu + v.ndy := R.hess.1
  cases b <;> dsimp only [QFun.view, rowVar, colVar, QVal.dim, QVal.width, QVal.start]
  · rw [v1]; exact ⟨d1, rfl, rfl, rfl, by omega⟩
  · rw [v2]; exact ⟨d2, rfl, rfl, d1, by omega⟩
  · rw [v3]; exact ⟨d1, d1, rfl, hhr, by ring, by omega, by omega⟩
  · rw [v4]; exact ⟨d1, d2, rfl, hhr, by dsimp only; rw [hhr, d1]; ring, by omega, by omega⟩
  · rw [v5]; exact ⟨d1, d3, rfl, hhr, by dsimp only; rw [hhr, d1, d2]; ring, by omega, by omega⟩
  · rw [v6]; exact ⟨d2, d2, rfl, hhr, by dsimp only; rw [hhr, d1], by omega, by omega⟩
  · rw [v7]; exact ⟨d2, d3, rfl, hhr, by dsimp only; rw [hhr, d1, d2], by omega, by omega⟩
  · rw [v8]; exact ⟨d3, d3, rfl, hhr, by dsimp only; rw [hhr, d1, d2], by omega, by omega⟩

theorem step_setView [Zero K] (j : ℕ → ℕ → K) {s : St K} {A : ℕ → Option (QVal K)} (I : Inv s A) (a : ℕ) (b : Blk)
    (r c : ℕ) (x : K) : StepOk j s A (.setView a b r c x) := by
  unfold StepOk
  cases ha : A a with
  | none =>
    have ho := I.get_none ha
    simp only [astep, ha, St.step, ho]
  | some v =>
    obtain ⟨o, ho, Ro⟩ := I.get ha
    obtain ⟨hR, hC, hp⟩ := view_place Ro b
    by_cases hi : r < v.dim (rowVar b) ∧ c < v.width b
    · have e0 : (o.view b).store s.mem r c x =
          s.mem.store (o.view b).addr ((o.view b).off + r + c * (o.view b).stride) x := by
        unfold View.store
        rw [if_pos ⟨by rw [hR]; exact hi.1, by rw [hC]; exact hi.2⟩]
      cases hb : colVar b with
      | none =>
        rw [hb] at hp
        obtain ⟨p1, p2, p3⟩ := hp
        have hc : c = 0 := by
          have := hi.2
          unfold QVal.width at this
          rw [hb] at this
          dsimp only at this
          omega
        obtain ⟨h', e, I'⟩ := write_grad I ho Ro (i := v.start (rowVar b) + r) (by have := hi.1; omega) x
        rw [p1, p2, hc, Nat.zero_mul, Nat.add_zero, e] at e0
        simp only [astep, ha, St.step, ho, hc ▸ e0, Option.map_some, if_pos hi, QVal.put, hb]
        exact ⟨_, rfl, I'⟩
      | some p =>
        rw [hb] at hp
        obtain ⟨p1, p2, p3, p4, p5⟩ := hp
        have hw : c < v.dim p := by
          have := hi.2
          unfold QVal.width at this
          rw [hb] at this
          exact this
        obtain ⟨h', e, I'⟩ := write_hess I ho Ro (r := v.start (rowVar b) + r) (c := v.start p + c)
          (by have := hi.1; omega) (by omega) x
        have e3 : v.start (rowVar b) + v.start p * (v.ndx + v.nu + v.ndy) + r + c * (v.ndx + v.nu + v.ndy) =
            v.start (rowVar b) + r + (v.start p + c) * (v.ndx + v.nu + v.ndy) := by ring
        rw [p1, p2, p3, e3, e] at e0
        simp only [astep, ha, St.step, ho, e0, Option.map_some, if_pos hi, QVal.put, hb]
        exact ⟨_, rfl, I'⟩
    · have e2 : (o.view b).store s.mem r c x = none := by
        unfold View.store
        rw [if_neg (fun h => hi (by rw [hR, hC] at h; exact h))]
      simp only [astep, ha, St.step, ho, e2, Option.map_none, if_neg hi]

theorem step_ok [Zero K] (j : ℕ → ℕ → K) {s : St K} {A : ℕ → Option (QVal K)} (I : Inv s A) (op : Op K) :
    StepOk j s A op := by
  cases op with
  | new a ndx nu ndy => exact step_new j I a ndx nu ndy
  | copy a b => exact step_copy j I a b
  | move a b => exact step_move j I a b
  | assign a b => exact step_assign j I a b
  | moveAssign a b => exact (step_swap j I a b).2
  | swap a b => exact (step_swap j I a b).1
  | del a => exact step_del j I a
  | setQ a x => exact step_setQ j I a x
  | setGrad a i x => exact step_setGrad j I a i x
  | setHess a r c x => exact step_setHess j I a r c x
  | setView a b r c x => exact step_setView j I a b r c x

theorem run_inv [Zero K] (j : ℕ → ℕ → K) (ops : List (Op K)) : ∀ {s : St K} {A : ℕ → Option (QVal K)}, Inv s A →
    match arun A ops with
    | none => s.run j ops = none
    | some A' => ∃ s', s.run j ops = some s' ∧ Inv s' A' := by
  induction ops with
  | nil => intro s A I; exact ⟨s, rfl, I⟩
  | cons op ops ih =>
    intro s A I
    have h := step_ok j I op
    unfold StepOk at h
    unfold arun St.run
    cases ha : astep A op with
    | none =>
      rw [ha] at h
      dsimp only at h ⊢
      rw [h]
    | some A' =>
      rw [ha] at h
      obtain ⟨s', e, I'⟩ := h
      dsimp only
      rw [e]
      exact ih I'

theorem inv_init : Inv (St.init : St K) (fun _ => none) :=
  ⟨fun _ _ h => (Option.some_ne_none _ h.symm).elim, fun _ _ => rfl, fun _ _ _ _ h => (Option.some_ne_none _ h.symm).elim⟩

/-- **C71.** A program that constructs, copies, moves, assigns, swaps (also an object with itself), destroys and
writes Q-functions behaves as the same program on values, whatever fresh memory holds: it is undefined exactly when the
program on values is wrong, and otherwise the dimensions, the gradient, the Hessian and every named block of every
object are those of its value. -/
theorem C71_value_semantics [Zero K] (j : ℕ → ℕ → K) (ops : List (Op K)) :
    match arun (fun _ => none) ops with
    | none => (St.init : St K).run j ops = none
    | some A => ∃ s, (St.init : St K).run j ops = some s ∧ Agrees s A := by
  have h := run_inv j ops (inv_init (K := K))
  cases ha : arun (fun _ => none) ops with
  | none => rw [ha] at h; exact h
  | some A =>
    rw [ha] at h
    obtain ⟨s, e, I⟩ := h
    exact ⟨s, e, I.agrees⟩

/-- **C71.** After any such program the number `ntot` an object reports is the number of rows and columns of the Hessian it
holds: the entries that can be read are those below it. -/
theorem C71_total_size [Zero K] (j : ℕ → ℕ → K) (ops : List (Op K)) (s : St K) (h : (St.init : St K).run j ops = some s)
    (a : ℕ) (o : QFun K) (ho : s.objs a = some o) (r c : ℕ) :
    (o.hess.load s.mem r c).isSome ↔ r < o.ntot ∧ c < o.ntot := by
  have hv := C71_value_semantics j ops
  cases hA : arun (fun _ => none) ops with
  | none => rw [hA] at hv; simp only at hv; rw [h] at hv; cases hv
  | some A =>
    rw [hA] at hv
    obtain ⟨s', e, hs⟩ := hv
    rw [h] at e
    cases e
    have := hs a
    rw [ho] at this
    cases hv : A a with
    | none => rw [hv] at this; exact this.elim
    | some v =>
      rw [hv] at this
      obtain ⟨⟨h1, h2, h3, -⟩, -, -, h4, -, -, h5, -⟩ := this
      have hn : o.ntot = v.ndx + v.nu + v.ndy := by rw [QFun.ntot, h1, h2, h3]
      rw [hn]
      by_cases hb : r < v.ndx + v.nu + v.ndy ∧ c < v.ndx + v.nu + v.ndy
      · simp [h4 r hb.1 c hb.2, hb]
      · simp only [h5 r c hb, Option.isSome_none, Bool.false_eq_true, false_iff]
        exact hb

/-! ### A concrete program -/

/-- Two Q-functions (`2 × 1 × 1` and `1 × 1 × 0`), writes through two blocks, a copy, a move assignment, a
self-assignment and the destruction of the source of the copy. -/
def demo : List (Op ℤ) :=
  [.new 0 2 1 1, .new 1 1 1 0, .setView 0 .Quy 0 0 7, .setView 1 .Qu 0 0 5, .copy 2 0, .setView 0 .Quy 0 0 8,
    .moveAssign 0 1, .assign 2 2, .del 1, .move 3 0]

/-- The program is right, and its last objects are those expected: object 2 keeps the 7 that object 0 held when it was
copied, object 3 has taken the value that object 0 had received from object 1, object 0 is left empty. -/
example : ∃ s : St ℤ, (St.init : St ℤ).run (fun _ _ => 99) demo = some s ∧
    ((s.objs 2).map fun o => o.Quy.load s.mem 0 0) = some (some 7) ∧
    ((s.objs 2).map fun o => o.hess.load s.mem 2 3) = some (some 7) ∧
    ((s.objs 3).map fun o => o.Qu.load s.mem 0 0) = some (some 5) ∧
    ((s.objs 0).map fun o => o.ntot) = some 0 ∧ (s.objs 1).isNone := by
  refine ⟨_, rfl, ?_⟩
  decide

/-! ### Rotation -/

/-- The values `0 .. n - 1` moved one place down, the first one at the end. -/
def rotated (A : ℕ → Option (QVal K)) (n : ℕ) (i : ℕ) : Option (QVal K) :=
  if i + 1 < n then A (i + 1) else if i + 1 = n then A 0 else A i

theorem arun_append [Zero K] (ops ops' : List (Op K)) : ∀ A : ℕ → Option (QVal K),
    arun A (ops ++ ops') = (arun A ops).bind fun A' => arun A' ops' := by
  induction ops with
  | nil => intro A; rfl
  | cons op ops ih =>
    intro A
    simp only [List.cons_append, arun]
    cases astep A op with
    | none => rfl
    | some A' => exact ih A'

theorem arun_rotate [Zero K] (A : ℕ → Option (QVal K)) : ∀ n, (∀ i < n, A i ≠ none) →
    arun A (rotateOps K n) = some (rotated A n)
  | 0, _ => by
    show some A = _
    congr 1
  | 1, _ => by
    show some A = _
    congr 1
    funext i
    unfold rotated
    by_cases h : i = 0
    · simp [h]
    · rw [if_neg (by omega), if_neg (by omega)]
  | n + 2, hA => by
    have ih := arun_rotate A (n + 1) (fun i hi => hA i (by omega))
    show arun A (rotateOps K (n + 1) ++ [.swap n (n + 1)]) = _
    rw [arun_append, ih]
    obtain ⟨v, hv⟩ := Option.ne_none_iff_exists'.1 (hA 0 (by omega))
    obtain ⟨w, hw⟩ := Option.ne_none_iff_exists'.1 (hA (n + 1) (by omega))
    have e1 : rotated A (n + 1) n = some v := by
      unfold rotated
      rw [if_neg (by omega), if_pos rfl, hv]
    have e2 : rotated A (n + 1) (n + 1) = some w := by
      unfold rotated
      rw [if_neg (by omega), if_neg (by omega), hw]
    simp only [Option.bind_some, arun, astep, e1, e2]
    congr 1
    funext i
    unfold rotated
    by_cases h1 : i = n + 1
    · subst h1
      simp [hv]
    · by_cases h2 : i = n
      · subst h2
        simp [hw]
      · rw [if_neg h1, if_neg h2]
        by_cases h3 : i < n
        · rw [if_pos (by omega), if_pos (by omega)]
        · rw [if_neg (by omega), if_neg (by omega), if_neg (by omega), if_neg (by omega)]

/-- **C71.** Rotating the first `n` Q-functions of any program one place to the left, as the shift of the FDDP workspace
does: object `i` then shows, in its dimensions, its matrices and its named blocks, the value of object `i + 1`, and the
last one that of the first; the objects after them are unchanged. -/
theorem C71_rotation [Zero K] (j : ℕ → ℕ → K) (ops : List (Op K)) (n : ℕ) {A : ℕ → Option (QVal K)}
    (hA : arun (fun _ => none) ops = some A) (hn : ∀ i < n, A i ≠ none) :
    ∃ s, (St.init : St K).run j (ops ++ rotateOps K n) = some s ∧ Agrees s (rotated A n) := by
  have h := C71_value_semantics j (ops ++ rotateOps K n)
  rw [arun_append, hA] at h
  simp only [Option.bind_some] at h
  rw [arun_rotate A n hn] at h
  exact h

/-- Three Q-functions of different dimensions. -/
example : ∃ A, arun (fun _ => none) ([.new 0 2 1 0, .new 1 1 3 0, .setQ 1 4, .new 2 5 2 0] : List (Op ℤ)) = some A ∧
    (∀ i < 3, A i ≠ none) ∧ (rotated A 3 0).map (·.q) = some 4 ∧ (rotated A 3 2).map (·.ndx) = some 2 := by
  refine ⟨_, rfl, ?_, by decide, by decide⟩
  intro i hi
  interval_cases i <;> simp [zeroVal]

/-! ### Cost data -/

/-- **C71.** A copy of a cost data object (its copy constructor is the implicit one) has its own gradient, but its block
`Lx_` still is the block of the original: a write through it changes the gradient of the original and not that of the
copy. -/
theorem C71_cost_data_copy_shares_blocks [Zero K] (j : ℕ → ℕ → K) (h : Mem K) (ndx nu : ℕ) (hx : 0 < ndx) (x : K) :
    ∃ o h1 o' h2 h3, CostData.new j h ndx nu = some (o, h1) ∧ CostData.copy j h1 o = some (o', h2) ∧
      o'.grad.load h2 0 0 = some 0 ∧ o'.Lx.store h2 0 0 x = some h3 ∧
      o.grad.load h3 0 0 = some x ∧ o'.grad.load h3 0 0 = some 0 := by
  have hne : h.next ≠ h.next + 1 := by omega
  have hpos : 0 < ndx + nu := by omega
  let l0 : List K := List.replicate (ndx + nu) 0
  let m1 : Mem K := ⟨h.next + 1, Function.update (Function.update h.cell h.next
    (some ((List.range (ndx + nu)).map (j h.next)))) h.next (some l0)⟩
  let o : CostData K := ⟨ndx, nu, 0, ⟨h.next, ndx + nu, 1⟩, ⟨h.next, 0, ndx, 1, ndx + nu⟩, ⟨h.next, ndx, nu, 1, ndx + nu⟩⟩
  have hnew : CostData.new j h ndx nu = some (o, m1) := by
    unfold CostData.new Dense.block Mem.alloc
    dsimp only
    rw [if_pos ⟨by omega, by omega⟩, if_pos ⟨by omega, by omega⟩]
    simp only [Option.bind_eq_bind, Option.bind_some]
    unfold Mem.fill
    dsimp only
    rw [Function.update_self]
    dsimp only
    rw [if_pos (by simp)]
    simp only [Option.bind_some, o, m1, l0]
    simp
  let m2 : Mem K := ⟨h.next + 2, Function.update (Function.update m1.cell (h.next + 1)
    (some ((List.range ((ndx + nu) * 1)).map (j (h.next + 1))))) (h.next + 1) (some l0)⟩
  let o' : CostData K := { o with grad := ⟨h.next + 1, ndx + nu, 1⟩ }
  have hcell : m1.cell h.next = some l0 := Function.update_self ..
  have hcopy : CostData.copy j m1 o = some (o', m2) := by
    unfold CostData.copy Mem.alloc
    dsimp only [o]
    rw [show m1.next = h.next + 1 from rfl, Function.update_of_ne hne, hcell]
    dsimp only
    unfold Mem.fill
    dsimp only
    rw [Function.update_self]
    dsimp only
    rw [if_pos (by simp [l0])]
    rfl
  have hc2 : m2.cell (h.next + 1) = some l0 := Function.update_self ..
  have hc2' : m2.cell h.next = some l0 := by
    show Function.update (Function.update m1.cell (h.next + 1) _) (h.next + 1) _ h.next = _
    rw [Function.update_of_ne hne, Function.update_of_ne hne, hcell]
  refine ⟨o, m1, o', m2, ⟨m2.next, Function.update m2.cell h.next (some (l0.set 0 x))⟩, hnew, hcopy, ?_, ?_, ?_, ?_⟩
  · unfold Dense.load
    rw [if_pos ⟨hpos, Nat.one_pos⟩]
    unfold Mem.load
    rw [show o'.grad.addr = h.next + 1 from rfl, hc2]
    simp [l0, hpos]
  · unfold View.store
    rw [if_pos ⟨hx, Nat.one_pos⟩]
    unfold Mem.store
    rw [show o'.Lx.addr = h.next from rfl, hc2']
    dsimp only
    rw [show o'.Lx.off + 0 + 0 * o'.Lx.stride = 0 by simp [o', o], if_pos (by simpa [l0] using hpos)]
  · unfold Dense.load
    rw [if_pos ⟨hpos, Nat.one_pos⟩]
    unfold Mem.load
    rw [show o.grad.addr = h.next from rfl]
    dsimp only
    rw [Function.update_self]
    simp [l0, hpos]
  · unfold Dense.load
    rw [if_pos ⟨hpos, Nat.one_pos⟩]
    unfold Mem.load
    rw [show o'.grad.addr = h.next + 1 from rfl]
    dsimp only
    rw [Function.update_of_ne hne.symm, hc2]
    simp [l0, hpos]

/-- **C71.** Once the original is destroyed, the block of the copy is a block of freed memory. -/
theorem C71_cost_data_copy_dangles [Zero K] (j : ℕ → ℕ → K) (h : Mem K) (ndx nu : ℕ) {o o' : CostData K} {h1 h2 : Mem K}
    (hn : CostData.new j h ndx nu = some (o, h1)) (hc : CostData.copy j h1 o = some (o', h2)) (r c : ℕ) :
    o'.Lx.load (h2.free o.grad.addr) r c = none := by
  have hL : o.Lx.addr = o.grad.addr := by
    unfold CostData.new Dense.block at hn
    simp only [Option.bind_eq_bind, Option.bind_eq_some_iff] at hn
    obtain ⟨a, ha, b, hb, m, hm, e⟩ := hn
    cases e
    split at ha
    · cases ha; rfl
    · cases ha
  have hL' : o'.Lx = o.Lx := by
    unfold CostData.copy at hc
    dsimp only at hc
    split at hc
    · cases hc
    · obtain ⟨m, hm, e⟩ := Option.map_eq_some_iff.1 hc
      cases e
      rfl
  unfold View.load
  split
  · unfold Mem.load Mem.free
    rw [hL', hL]
    dsimp only
    rw [Function.update_self]
  · rfl

/-- **C71.** A block of a matrix is taken exactly when it lies inside; reading it reads the matrix at the shifted place,
for all places of the block. -/
theorem C71_block (m : Dense) (r0 c0 nr nc : ℕ) :
    ((∃ v, m.block r0 c0 nr nc = some v) ↔ r0 + nr ≤ m.rows ∧ c0 + nc ≤ m.cols) ∧
    ∀ v, m.block r0 c0 nr nc = some v → ∀ (h : Mem K) r c, v.load h r c = if r < nr ∧ c < nc then m.load h (r0 + r) (c0 + c) else none := by
  unfold Dense.block
  constructor
  · constructor
    · rintro ⟨v, hv⟩
      split at hv
      · assumption
      · cases hv
    · intro h
      exact ⟨_, if_pos h⟩
  · intro v hv h r c
    split at hv
    · rename_i hb
      cases hv
      unfold View.load Dense.load
      dsimp only
      by_cases hrc : r < nr ∧ c < nc
      · rw [if_pos hrc, if_pos hrc, if_pos ⟨by omega, by omega⟩]
        congr 1
        ring
      · rw [if_neg hrc, if_neg hrc]
    · cases hv

example : ∃ v, (⟨0, 3, 2⟩ : Dense).block 1 1 2 1 = some v ∧
    v.load (⟨1, fun _ => some [1, 2, 3, 4, 5, 6]⟩ : Mem ℕ) 1 0 = some 6 := ⟨_, rfl, rfl⟩

end Aligator.QView
