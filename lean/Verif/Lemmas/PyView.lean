import Verif.Spec.PyView

/-!
# Lemmas: reference counts and programs over memory that is never released
-/

namespace Aligator.PyView

open Spec

variable {α : Type}

/-- Number of names that hold a reference to an object. -/
def cnt (vars : List (Option Ref)) (o : ℕ) : ℕ := vars.countP fun r => decide (r.bind Ref.holds = some o)

theorem cnt_pos {vars : List (Option Ref)} {o : ℕ} : 0 < cnt vars o ↔ Held vars o := by
  unfold cnt Held
  rw [List.countP_pos_iff]
  constructor
  · rintro ⟨r, hr, e⟩
    rcases r with _ | (o' | ⟨o', pos, _ | _⟩)
    · simp at e
    · simp [Ref.holds] at e; subst e; exact Or.inl hr
    · simp [Ref.holds] at e
    · simp [Ref.holds] at e; subst e; exact Or.inr ⟨pos, hr⟩
  · rintro (h | ⟨pos, h⟩)
    · exact ⟨_, h, by simp [Ref.holds]⟩
    · exact ⟨_, h, by simp [Ref.holds]⟩

theorem cnt_set {vars : List (Option Ref)} {x : ℕ} (hx : x < vars.length) (r : Option Ref) (o : ℕ) :
    cnt (vars.set x r) o + (if ((vars[x]?).join).bind Ref.holds = some o then 1 else 0) =
      cnt vars o + if r.bind Ref.holds = some o then 1 else 0 := by
  unfold cnt
  rw [List.countP_set hx]
  have hj : (vars[x]?).join = vars[x] := by rw [List.getElem?_eq_getElem hx]; rfl
  rw [hj]
  by_cases h1 : (vars[x]).bind Ref.holds = some o
  · have : 0 < vars.countP fun r => decide (r.bind Ref.holds = some o) :=
      List.countP_pos_iff.2 ⟨vars[x], List.getElem_mem hx, by simp [h1]⟩
    simp only [h1, decide_true, if_true, decide_eq_true_eq]
    omega
  · simp only [h1, decide_false, if_false, decide_eq_true_eq, Bool.false_eq_true]
    omega

/-- The counts are those of the names; an object is alive exactly while it is held. -/
structure Inv (s : State α) : Prop where
  dead : ∀ o, s.heap o = none → cnt s.vars o = 0
  live : ∀ o b, s.heap o = some b → b.refs = cnt s.vars o ∧ 0 < cnt s.vars o
  fresh : ∀ o, s.next ≤ o → s.heap o = none

theorem Inv.init (n : ℕ) : Inv (State.init n : State α) := by
  refine ⟨fun o _ => ?_, fun o b h => by simp [State.init] at h, fun o _ => rfl⟩
  simp [State.init, cnt, List.countP_replicate]

theorem store_spec (s : State α) (x : ℕ) (r : Option Ref) (hx : x < s.vars.length)
    (hd : ∀ o, s.heap o = none → cnt s.vars o = 0)
    (hl : ∀ o b, s.heap o = some b → b.refs = cnt s.vars o ∧ (0 < cnt s.vars o ∨ r.bind Ref.holds = some o))
    (hf : ∀ o, s.next ≤ o → s.heap o = none) (hr : ∀ o, r.bind Ref.holds = some o → s.heap o ≠ none) :
    ∃ h, s.store x r = some { s with heap := h, vars := s.vars.set x r } ∧
      Inv { s with heap := h, vars := s.vars.set x r } ∧
      ∀ o b, h o = some b → ∃ b', s.heap o = some b' ∧ b'.buf = b.buf := by
  -- the new reference
  obtain ⟨h1, e1, a1, b1⟩ : ∃ h1, inc s.heap r = some h1 ∧ (∀ o, h1 o = none ↔ s.heap o = none) ∧
      ∀ o b, h1 o = some b → b.refs = cnt s.vars o + (if r.bind Ref.holds = some o then 1 else 0) ∧
        ∃ b', s.heap o = some b' ∧ b'.buf = b.buf := by
    unfold inc
    cases hh : r.bind Ref.holds with
    | none => exact ⟨_, rfl, fun _ => Iff.rfl, fun o b hb => ⟨by simpa using (hl o b hb).1, b, hb, rfl⟩⟩
    | some o =>
      cases ho : s.heap o with
      | none => exact absurd ho (hr o hh)
      | some b =>
        refine ⟨Function.update s.heap o (some { b with refs := b.refs + 1 }), by simp only [ho], fun o' => ?_,
          fun o' b' hb' => ?_⟩
        · by_cases e : o' = o
          · subst e; simp [ho]
          · simp [Function.update_of_ne e]
        · by_cases e : o' = o
          · subst e
            simp only [Function.update_self, Option.some.injEq] at hb'
            subst hb'
            exact ⟨by simp [(hl o' b ho).1], b, ho, rfl⟩
          · rw [Function.update_of_ne e] at hb'
            exact ⟨by simp [(hl o' b' hb').1, Ne.symm e], b', hb', rfl⟩
  -- the old reference
  have hset := cnt_set hx r
  obtain ⟨h2, e2, a2, b2, c2⟩ : ∃ h2, dec h1 (s.var x) = some h2 ∧
      (∀ o, h2 o = none → cnt (s.vars.set x r) o = 0) ∧
      (∀ o b, h2 o = some b → b.refs = cnt (s.vars.set x r) o ∧ 0 < cnt (s.vars.set x r) o ∧
        ∃ b', s.heap o = some b' ∧ b'.buf = b.buf) ∧ ∀ o, s.heap o = none → h2 o = none := by
    have hpos : ∀ o b, h1 o = some b → 0 < b.refs := fun o b hb => by
      obtain ⟨g1, b', g2, -⟩ := b1 o b hb
      rcases (hl o b' g2).2 with g | g
      · omega
      · rw [if_pos g] at g1; omega
    unfold dec State.var
    cases hv : ((s.vars[x]?).join).bind Ref.holds with
    | none =>
      refine ⟨_, rfl, fun o ho => ?_, fun o b hb => ?_, fun o ho => (a1 o).2 ho⟩
      · have g := hset o
        have g1 := hd o ((a1 o).1 ho)
        have g2 : ¬ r.bind Ref.holds = some o := fun e => hr o e ((a1 o).1 ho)
        rw [hv, if_neg (by simp), if_neg g2] at g
        omega
      · have g := hset o
        rw [hv, if_neg (by simp)] at g
        obtain ⟨g1, g2⟩ := b1 o b hb
        have g3 := hpos o b hb
        exact ⟨by omega, by omega, g2⟩
    | some o =>
      have hc : 0 < cnt s.vars o := by
        unfold cnt
        refine List.countP_pos_iff.2 ⟨s.vars[x], List.getElem_mem hx, ?_⟩
        rw [List.getElem?_eq_getElem hx] at hv
        simpa using hv
      cases ho : h1 o with
      | none => exact absurd (hd o ((a1 o).1 ho)) (by omega)
      | some b =>
        obtain ⟨g1, g2⟩ := b1 o b ho
        have g3 := hset o
        rw [hv, if_pos rfl] at g3
        have other : ∀ o', o' ≠ o → cnt (s.vars.set x r) o' =
            cnt s.vars o' + if r.bind Ref.holds = some o' then 1 else 0 := fun o' hne => by
          have g := hset o'
          rw [hv, if_neg (by simpa using Ne.symm hne)] at g
          omega
        by_cases hb : b.refs ≤ 1
        · refine ⟨Function.update h1 o none, by simp only [ho, if_pos hb], fun o' ho' => ?_, fun o' b' hb' => ?_, fun o' ho' => ?_⟩
          · by_cases e : o' = o
            · subst e; omega
            · rw [Function.update_of_ne e] at ho'
              have := other o' e
              have g4 := hd o' ((a1 o').1 ho')
              have g5 : ¬ r.bind Ref.holds = some o' := fun e' => hr o' e' ((a1 o').1 ho')
              rw [if_neg g5] at this
              omega
          · by_cases e : o' = o
            · subst e; simp at hb'
            · rw [Function.update_of_ne e] at hb'
              have := other o' e
              obtain ⟨k1, k2⟩ := b1 o' b' hb'
              have := hpos o' b' hb'
              exact ⟨by omega, by omega, k2⟩
          · by_cases e : o' = o
            · subst e; simp
            · rw [Function.update_of_ne e]; exact (a1 o').2 ho'
        · refine ⟨Function.update h1 o (some { b with refs := b.refs - 1 }), by simp only [ho, if_neg hb], fun o' ho' => ?_,
            fun o' b' hb' => ?_, fun o' ho' => ?_⟩
          · by_cases e : o' = o
            · subst e; simp at ho'
            · rw [Function.update_of_ne e] at ho'
              have := other o' e
              have g4 := hd o' ((a1 o').1 ho')
              have g5 : ¬ r.bind Ref.holds = some o' := fun e' => hr o' e' ((a1 o').1 ho')
              rw [if_neg g5] at this
              omega
          · by_cases e : o' = o
            · subst e
              simp only [Function.update_self, Option.some.injEq] at hb'
              subst hb'
              exact ⟨by show b.refs - 1 = _; omega, by omega, g2⟩
            · rw [Function.update_of_ne e] at hb'
              have := other o' e
              obtain ⟨k1, k2⟩ := b1 o' b' hb'
              have := hpos o' b' hb'
              exact ⟨by omega, by omega, k2⟩
          · by_cases e : o' = o
            · subst e
              exact absurd ((a1 o').2 ho') (by simp [ho])
            · rw [Function.update_of_ne e]; exact (a1 o').2 ho'
  refine ⟨h2, by simp [State.store, e1, e2], ⟨a2, fun o b hb => ⟨(b2 o b hb).1, (b2 o b hb).2.1⟩, fun o ho => c2 o (hf o ho)⟩,
    fun o b hb => (b2 o b hb).2.2⟩

/-- The state and the memory that is never released show the same. -/
structure Rel (s : State α) (i : Ideal α) : Prop where
  vars : s.vars = i.vars
  next : s.next = i.next
  mem : ∀ o b, s.heap o = some b → b.buf = i.mem o

theorem Rel.var {s : State α} {i : Ideal α} (h : Rel s i) (y : ℕ) : s.var y = i.var y := by
  rw [State.var, Ideal.var, h.vars]

theorem Inv.alive {s : State α} (h : Inv s) {o : ℕ} : s.heap o ≠ none ↔ Held s.vars o := by
  rw [← cnt_pos]
  constructor
  · intro e
    obtain ⟨b, hb⟩ := Option.ne_none_iff_exists'.1 e
    exact (h.live o b hb).2
  · intro e e'
    exact absurd (h.dead o e') (by omega)

theorem held_of_var {vars : List (Option Ref)} {y : ℕ} {r : Ref} {o : ℕ} (h : (vars[y]?).join = some r)
    (hr : r.holds = some o) : 0 < cnt vars o := by
  unfold cnt
  refine List.countP_pos_iff.2 ⟨some r, ?_, by simpa using hr⟩
  obtain ⟨v, hv⟩ : ∃ v, vars[y]? = some v := by
    cases e : vars[y]? with
    | none => rw [e] at h; simp at h
    | some v => exact ⟨v, rfl⟩
  rw [hv] at h
  have : v = some r := h
  subst this
  exact List.mem_of_getElem? hv

theorem bindTo_spec {s : State α} {i : Ideal α} (hI : Inv s) (hR : Rel s i) (x : ℕ) (r : Option Ref)
    (hr : ∀ o, r.bind Ref.holds = some o → s.heap o ≠ none) :
    ∃ s', s.bindTo x r = some (s', (i.bindTo x r).2) ∧ Inv s' ∧ Rel s' (i.bindTo x r).1 := by
  unfold State.bindTo Ideal.bindTo
  rw [← hR.vars]
  by_cases hx : x < s.vars.length
  · obtain ⟨h, e, k1, k2⟩ := store_spec s x r hx hI.dead (fun o b hb => ⟨(hI.live o b hb).1, Or.inl (hI.live o b hb).2⟩)
      hI.fresh hr
    rw [if_pos hx, if_pos hx, e]
    refine ⟨_, rfl, k1, rfl, hR.next, fun o b hb => ?_⟩
    obtain ⟨b', hb', e'⟩ := k2 o b hb
    rw [← e']
    exact hR.mem o b' hb'
  · rw [if_neg hx, if_neg hx]
    exact ⟨s, rfl, hI, hR⟩

theorem create_spec {s : State α} {i : Ideal α} (hI : Inv s) (hR : Rel s i) (x : ℕ) (buf : ℕ → α) (r : ℕ → Ref)
    (hr : ∀ o, (r o).holds = some o) :
    ∃ s', s.create x buf r = some (s', (i.create x buf r).2) ∧ Inv s' ∧ Rel s' (i.create x buf r).1 := by
  unfold State.create Ideal.create
  rw [← hR.vars, ← hR.next]
  by_cases hx : x < s.vars.length
  · have hn := hI.fresh s.next (Nat.le_refl _)
    obtain ⟨h, e, k1, k2⟩ := store_spec
      { s with heap := Function.update s.heap s.next (some ⟨buf, 0⟩), next := s.next + 1 } x (some (r s.next)) hx
      (fun o ho => by
        by_cases e : o = s.next
        · subst e; simp at ho
        · exact hI.dead o (by simpa [Function.update_of_ne e] using ho))
      (fun o b hb => by
        by_cases e : o = s.next
        · subst e
          simp only [Function.update_self, Option.some.injEq] at hb
          subst hb
          exact ⟨(hI.dead _ hn).symm, Or.inr (by simp [hr])⟩
        · have hb' : s.heap o = some b := by simpa [Function.update_of_ne e] using hb
          exact ⟨(hI.live o b hb').1, Or.inl (hI.live o b hb').2⟩)
      (fun o ho => by
        have e : o ≠ s.next := by simp only at ho; omega
        simp only [Function.update_of_ne e]
        exact hI.fresh o (by simp only at ho; omega))
      (fun o ho => by
        simp only [Option.bind_some, hr, Option.some.injEq] at ho
        subst ho
        simp)
    rw [if_pos hx, if_pos hx, e]
    refine ⟨_, rfl, k1, rfl, rfl, fun o b hb => ?_⟩
    obtain ⟨b', hb', e'⟩ := k2 o b hb
    rw [← e']
    by_cases e : o = s.next
    · subst e
      simp only [Function.update_self, Option.some.injEq] at hb' ⊢
      rw [← hb']
    · simp only [Function.update_of_ne e] at hb' ⊢
      exact hR.mem o b' hb'
  · rw [if_neg hx, if_neg hx]
    exact ⟨s, rfl, hI, hR⟩

theorem write_spec {s : State α} {i : Ideal α} (hI : Inv s) (hR : Rel s i) {o : ℕ} {b : Obj α} (hb : s.heap o = some b)
    (m : ℕ → α) (mem : ℕ → ℕ → α) (h1 : mem o = m) (h2 : ∀ o', o' ≠ o → mem o' = i.mem o') :
    Inv { s with heap := Function.update s.heap o (some { b with buf := m }) } ∧
    Rel { s with heap := Function.update s.heap o (some { b with buf := m }) } { i with mem := mem } := by
  refine ⟨⟨fun o' ho' => ?_, fun o' b' hb' => ?_, fun o' ho' => ?_⟩, hR.vars, hR.next, fun o' b' hb' => ?_⟩
  · by_cases e : o' = o
    · subst e; simp at ho'
    · exact hI.dead o' (by simpa [Function.update_of_ne e] using ho')
  · by_cases e : o' = o
    · subst e
      simp only [Function.update_self, Option.some.injEq] at hb'
      subst hb'
      exact hI.live o' b hb
    · exact hI.live o' b' (by simpa [Function.update_of_ne e] using hb')
  · have e : o' ≠ o := fun e => by
      subst e
      exact absurd (hI.fresh o' ho') (by simp [hb])
    simp only [Function.update_of_ne e]
    exact hI.fresh o' ho'
  · by_cases e : o' = o
    · subst e
      simp only [Function.update_self, Option.some.injEq] at hb'
      subst hb'
      exact h1.symm
    · simp only [h2 o' e]
      exact hR.mem o' b' (by simpa [Function.update_of_ne e] using hb')

/-- One statement: the same as with memory that is never released if the object looked at is held, undefined if not. -/
theorem step_spec {s : State α} {i : Ideal α} (hI : Inv s) (hR : Rel s i) (op : Op α) :
    ((∀ o, i.touched op = some o → Held i.vars o) →
      ∃ s', step s op = some (s', (i.step op).2) ∧ Inv s' ∧ Rel s' (i.step op).1) ∧
    (¬ (∀ o, i.touched op = some o → Held i.vars o) → step s op = none) := by
  have alive : ∀ {y r o}, i.var y = some r → r.holds = some o → s.heap o ≠ none := fun {y r o} hy hr => by
    rw [hI.alive, ← cnt_pos, hR.vars]
    exact held_of_var hy hr
  have look : ∀ {o}, Held i.vars o → ∃ b, s.heap o = some b := fun {o} h =>
    Option.ne_none_iff_exists'.1 (hI.alive.2 (hR.vars ▸ h))
  have gone : ∀ {o}, ¬ Held i.vars o → s.heap o = none := fun {o} h => by
    by_contra e
    exact h (hR.vars ▸ hI.alive.1 e)
  have same : ∃ s', some (s, (Seen.raised : Seen α)) = some (s', Seen.raised) ∧ Inv s' ∧ Rel s' i := ⟨s, rfl, hI, hR⟩
  cases op with
  | new x buf =>
    refine ⟨fun _ => create_spec hI hR x buf Ref.obj fun _ => rfl, fun h => absurd ?_ h⟩
    intro o ho; simp [Ideal.touched] at ho
  | assign x y =>
    refine ⟨fun _ => ?_, fun h => absurd (fun o ho => by simp [Ideal.touched] at ho) h⟩
    simp only [step, Ideal.step, hR.var]
    cases hy : i.var y with
    | none => exact same
    | some r => exact bindTo_spec hI hR x (some r) fun o ho => alive hy ho
  | get x y a pos =>
    refine ⟨fun _ => ?_, fun h => absurd (fun o ho => by simp [Ideal.touched] at ho) h⟩
    simp only [step, Ideal.step, hR.var]
    rcases hy : i.var y with _ | (o | ⟨o, pos', k⟩)
    · exact same
    · refine bindTo_spec hI hR x _ fun o' ho' => ?_
      have : o' = o := by
        cases hk : a.keep <;> simp [hk, Ref.holds] at ho'
        exact ho'.symm
      subst this
      exact alive hy rfl
    · exact same
  | slice x y f =>
    refine ⟨fun _ => ?_, fun h => absurd (fun o ho => by simp [Ideal.touched] at ho) h⟩
    simp only [step, Ideal.step, hR.var]
    rcases hy : i.var y with _ | (o | ⟨o, pos, k⟩)
    · exact same
    · exact same
    · refine bindTo_spec hI hR x _ fun o' ho' => ?_
      refine alive hy (o := o') ?_
      cases k with
      | false => simp [Ref.holds] at ho'
      | true => simpa [Ref.holds] using ho'
  | copy x y =>
    simp only [step, Ideal.step, Ideal.touched, hR.var]
    rcases hy : i.var y with _ | (o | ⟨o, pos, k⟩) <;> simp only [viewOwner]
    · exact ⟨fun _ => same, fun h => absurd (fun o ho => by simp at ho) h⟩
    · exact ⟨fun _ => same, fun h => absurd (fun o ho => by simp at ho) h⟩
    · refine ⟨fun h => ?_, fun h => ?_⟩
      · obtain ⟨b, hb⟩ := look (h o rfl)
        simp only [hb]
        have : (fun p => i.mem o (pos p)) = b.buf ∘ pos := by rw [hR.mem o b hb]; rfl
        rw [this]
        exact create_spec hI hR x (b.buf ∘ pos) (fun o => .view o id true) fun _ => rfl
      · simp only [Option.some.injEq, forall_eq'] at h
        simp only [gone h]
  | read y p =>
    simp only [step, Ideal.step, Ideal.touched, hR.var]
    rcases hy : i.var y with _ | (o | ⟨o, pos, k⟩) <;> simp only [viewOwner]
    · exact ⟨fun _ => same, fun h => absurd (fun o ho => by simp at ho) h⟩
    · exact ⟨fun _ => same, fun h => absurd (fun o ho => by simp at ho) h⟩
    · refine ⟨fun h => ?_, fun h => ?_⟩
      · obtain ⟨b, hb⟩ := look (h o rfl)
        simp only [hb, hR.mem o b hb]
        exact ⟨s, rfl, hI, hR⟩
      · simp only [Option.some.injEq, forall_eq'] at h
        simp only [gone h]
  | write y p a =>
    simp only [step, Ideal.step, Ideal.touched, hR.var]
    rcases hy : i.var y with _ | (o | ⟨o, pos, k⟩) <;> simp only [viewOwner]
    · exact ⟨fun _ => same, fun h => absurd (fun o ho => by simp at ho) h⟩
    · exact ⟨fun _ => same, fun h => absurd (fun o ho => by simp at ho) h⟩
    · refine ⟨fun h => ?_, fun h => ?_⟩
      · obtain ⟨b, hb⟩ := look (h o rfl)
        simp only [hb]
        obtain ⟨k1, k2⟩ := write_spec hI hR hb (Function.update b.buf (pos p) a)
          (fun o' q => if o' = o ∧ q = pos p then a else i.mem o' q)
          (by
            funext q
            rw [hR.mem o b hb]
            by_cases e : q = pos p
            · subst e; simp
            · simp [e])
          (fun o' e => by funext q; simp [e])
        exact ⟨_, rfl, k1, k2⟩
      · simp only [Option.some.injEq, forall_eq'] at h
        simp only [gone h]
  | call y f =>
    refine ⟨fun _ => ?_, fun h => absurd (fun o ho => by simp [Ideal.touched] at ho) h⟩
    simp only [step, Ideal.step, hR.var]
    rcases hy : i.var y with _ | (o | ⟨o, pos, k⟩)
    · exact same
    · obtain ⟨b, hb⟩ := Option.ne_none_iff_exists'.1 (alive hy rfl)
      simp only [hb]
      obtain ⟨k1, k2⟩ := write_spec hI hR hb (f b.buf) (fun o' => if o' = o then f (i.mem o) else i.mem o')
        (by simp [hR.mem o b hb]) (fun o' e => by simp [e])
      exact ⟨_, rfl, k1, k2⟩
    · exact same
  | del x =>
    refine ⟨fun _ => ?_, fun h => absurd (fun o ho => by simp [Ideal.touched] at ho) h⟩
    simp only [step, Ideal.step, hR.var]
    cases hy : i.var x with
    | none => exact same
    | some r => exact bindTo_spec hI hR x none fun o ho => by simp at ho

/-- A program. -/
theorem run_spec (ops : List (Op α)) : ∀ {s : State α} {i : Ideal α}, Inv s → Rel s i →
    (i.Safe ops → ∃ s', run s ops = some (s', i.run ops) ∧ Inv s') ∧ (¬ i.Safe ops → run s ops = none) := by
  induction ops with
  | nil => exact fun hI _ => ⟨fun _ => ⟨_, rfl, hI⟩, fun h => absurd trivial h⟩
  | cons op ops ih =>
    intro s i hI hR
    obtain ⟨h1, h2⟩ := step_spec hI hR op
    refine ⟨fun h => ?_, fun h => ?_⟩
    · obtain ⟨s', e, k1, k2⟩ := h1 h.1
      obtain ⟨s'', e', k3⟩ := (ih k1 k2).1 h.2
      exact ⟨s'', by simp only [run, e, e', Option.map_some, Ideal.run], k3⟩
    · by_cases g : ∀ o, i.touched op = some o → Held i.vars o
      · obtain ⟨s', e, k1, k2⟩ := h1 g
        have e' := (ih k1 k2).2 fun g' => h ⟨g, g'⟩
        simp only [run, e, e', Option.map_none]
      · simp only [run, h2 g]

/-- Arrays that hold their object. -/
def AllKept (vars : List (Option Ref)) : Prop := ∀ (o : ℕ) (pos : ℕ → ℕ), some (Ref.view o pos false) ∉ vars

theorem AllKept.set {vars : List (Option Ref)} (h : AllKept vars) (x : ℕ) (r : Option Ref)
    (hr : ∀ o pos, r ≠ some (.view o pos false)) : AllKept (vars.set x r) := by
  intro o pos hm
  rcases List.mem_or_eq_of_mem_set hm with g | g
  · exact h o pos g
  · exact hr o pos g.symm

theorem mem_of_var {vars : List (Option Ref)} {y : ℕ} {r : Ref} (h : (vars[y]?).join = some r) : some r ∈ vars := by
  cases e : vars[y]? with
  | none => rw [e] at h; simp at h
  | some v =>
    rw [e] at h
    have : v = some r := h
    subst this
    exact List.mem_of_getElem? e

theorem AllKept.bindTo {i : Ideal α} (h : AllKept i.vars) (x : ℕ) (r : Option Ref)
    (hr : ∀ o pos, r ≠ some (.view o pos false)) : AllKept (i.bindTo x r).1.vars := by
  unfold Ideal.bindTo
  split
  · exact h.set x r hr
  · exact h

theorem AllKept.create {i : Ideal α} (h : AllKept i.vars) (x : ℕ) (buf : ℕ → α) (r : ℕ → Ref)
    (hr : ∀ o' o pos, r o' ≠ .view o pos false) : AllKept (i.create x buf r).1.vars := by
  unfold Ideal.create
  split
  · exact h.set x _ fun o pos e => hr _ o pos (Option.some.inj e)
  · exact h

theorem AllKept.step {i : Ideal α} (h : AllKept i.vars) (op : Op α) (hop : Only (fun a => a.keep = true) op) :
    AllKept (i.step op).1.vars := by
  cases op with
  | new x buf => exact h.create x buf Ref.obj fun _ _ _ e => by simp at e
  | assign x y =>
    simp only [Ideal.step]
    cases hy : i.var y with
    | none => exact h
    | some r => exact h.bindTo x (some r) fun o pos e => h o pos (e ▸ mem_of_var hy)
  | get x y a pos =>
    have ha : a.keep = true := hop
    simp only [Ideal.step]
    rcases hy : i.var y with _ | (o | ⟨o, pos', k⟩)
    · exact h
    · exact h.bindTo x _ fun o pos e => by simp [ha] at e
    · exact h
  | slice x y f =>
    simp only [Ideal.step]
    rcases hy : i.var y with _ | (o | ⟨o, pos', k⟩)
    · exact h
    · exact h
    · cases k with
      | false => exact absurd (mem_of_var hy) (h o pos')
      | true => exact h.bindTo x _ fun o pos e => by simp at e
  | copy x y =>
    simp only [Ideal.step]
    rcases hy : i.var y with _ | (o | ⟨o, pos', k⟩)
    · exact h
    · exact h
    · exact h.create x _ _ fun _ _ _ e => by simp at e
  | read y p =>
    simp only [Ideal.step]
    rcases hy : i.var y with _ | (o | ⟨o, pos', k⟩) <;> exact h
  | write y p a =>
    simp only [Ideal.step]
    rcases hy : i.var y with _ | (o | ⟨o, pos', k⟩) <;> exact h
  | call y f =>
    simp only [Ideal.step]
    rcases hy : i.var y with _ | (o | ⟨o, pos', k⟩) <;> exact h
  | del x =>
    simp only [Ideal.step]
    cases hy : i.var x with
    | none => exact h
    | some r => exact h.bindTo x none fun o pos e => by simp at e

theorem AllKept.safe (ops : List (Op α)) : ∀ {i : Ideal α}, AllKept i.vars → (∀ op ∈ ops, Only (fun a => a.keep = true) op) →
    i.Safe ops := by
  induction ops with
  | nil => intros; trivial
  | cons op ops ih =>
    intro i h hops
    refine ⟨fun o ho => ?_, ih (h.step op (hops op (by simp))) fun op' h' => hops op' (by simp [h'])⟩
    have key : ∀ y, viewOwner (i.var y) = some o → Held i.vars o := by
      intro y hy
      rcases e : i.var y with _ | (o' | ⟨o', pos', k⟩) <;> rw [e] at hy <;> simp [viewOwner] at hy
      subst hy
      have hm := mem_of_var e
      cases k with
      | false => exact absurd hm (h o' pos')
      | true => exact Or.inr ⟨pos', hm⟩
    cases op <;> first
      | exact key _ ho
      | simp [Ideal.touched] at ho

/-- The name `x` refers to the object `o`, and the arrays that hold no reference are over `o`. -/
def KeptBut (x o : ℕ) (vars : List (Option Ref)) : Prop :=
  (vars[x]?).join = some (.obj o) ∧ ∀ o' pos, some (Ref.view o' pos false) ∈ vars → o' = o

theorem KeptBut.set {x o : ℕ} {vars : List (Option Ref)} (h : KeptBut x o vars) {x' : ℕ} (hx : x' ≠ x) (r : Option Ref)
    (hr : ∀ o' pos, r = some (.view o' pos false) → o' = o) : KeptBut x o (vars.set x' r) := by
  refine ⟨by rw [List.getElem?_set_ne hx]; exact h.1, fun o' pos hm => ?_⟩
  rcases List.mem_or_eq_of_mem_set hm with g | g
  · exact h.2 o' pos g
  · exact hr o' pos g.symm

theorem KeptBut.bindTo {x o : ℕ} {i : Ideal α} (h : KeptBut x o i.vars) {x' : ℕ} (hx : x' ≠ x) (r : Option Ref)
    (hr : ∀ o' pos, r = some (.view o' pos false) → o' = o) : KeptBut x o (i.bindTo x' r).1.vars := by
  unfold Ideal.bindTo
  split
  · exact h.set hx r hr
  · exact h

theorem KeptBut.create {x o : ℕ} {i : Ideal α} (h : KeptBut x o i.vars) {x' : ℕ} (hx : x' ≠ x) (buf : ℕ → α)
    (r : ℕ → Ref) (hr : ∀ o' o pos, r o' ≠ .view o pos false) : KeptBut x o (i.create x' buf r).1.vars := by
  unfold Ideal.create
  split
  · exact h.set hx _ fun o' pos e => absurd (Option.some.inj e) (hr _ o' pos)
  · exact h

theorem KeptBut.step {x o : ℕ} {i : Ideal α} (h : KeptBut x o i.vars) (op : Op α) (hop : Guarded x op) :
    KeptBut x o (i.step op).1.vars := by
  have hx : ∀ x', target op = some x' → x' ≠ x := fun x' e e' => hop.1 (e' ▸ e)
  cases op with
  | new x' buf => exact h.create (hx x' rfl) buf Ref.obj fun _ _ _ e => by simp at e
  | assign x' y =>
    simp only [Ideal.step]
    cases hy : i.var y with
    | none => exact h
    | some r => exact h.bindTo (hx x' rfl) (some r) fun o' pos e => h.2 o' pos (e ▸ mem_of_var hy)
  | get x' y a pos =>
    simp only [Ideal.step]
    rcases hy : i.var y with _ | (o' | ⟨o', pos', k⟩)
    · exact h
    · refine h.bindTo (hx x' rfl) _ fun o'' pos'' e => ?_
      simp only [Option.some.injEq, Ref.view.injEq] at e
      rcases hop.2 x' y a pos rfl with g | g
      · rw [g] at e; simp at e
      · subst g
        have e' : i.var y = some (.obj o) := h.1
        rw [hy] at e'
        simp only [Option.some.injEq, Ref.obj.injEq] at e'
        omega
    · exact h
  | slice x' y f =>
    simp only [Ideal.step]
    rcases hy : i.var y with _ | (o' | ⟨o', pos', k⟩)
    · exact h
    · exact h
    · refine h.bindTo (hx x' rfl) _ fun o'' pos'' e => ?_
      simp only [Option.some.injEq, Ref.view.injEq] at e
      obtain ⟨e1, -, e2⟩ := e
      subst e1 e2
      exact h.2 o' pos' (mem_of_var hy)
  | copy x' y =>
    simp only [Ideal.step]
    rcases hy : i.var y with _ | (o' | ⟨o', pos', k⟩)
    · exact h
    · exact h
    · exact h.create (hx x' rfl) _ _ fun _ _ _ e => by simp at e
  | read y p =>
    simp only [Ideal.step]
    rcases hy : i.var y with _ | (o' | ⟨o', pos', k⟩) <;> exact h
  | write y p a =>
    simp only [Ideal.step]
    rcases hy : i.var y with _ | (o' | ⟨o', pos', k⟩) <;> exact h
  | call y f =>
    simp only [Ideal.step]
    rcases hy : i.var y with _ | (o' | ⟨o', pos', k⟩) <;> exact h
  | del x' =>
    simp only [Ideal.step]
    cases hy : i.var x' with
    | none => exact h
    | some r => exact h.bindTo (hx x' rfl) none fun o pos e => by simp at e

theorem KeptBut.safe {x o : ℕ} (ops : List (Op α)) : ∀ {i : Ideal α}, KeptBut x o i.vars → (∀ op ∈ ops, Guarded x op) →
    i.Safe ops := by
  induction ops with
  | nil => intros; trivial
  | cons op ops ih =>
    intro i h hops
    refine ⟨fun o' ho => ?_, ih (h.step op (hops op (by simp))) fun op' h' => hops op' (by simp [h'])⟩
    have key : ∀ y, viewOwner (i.var y) = some o' → Held i.vars o' := by
      intro y hy
      rcases e : i.var y with _ | (o'' | ⟨o'', pos', k⟩) <;> rw [e] at hy <;> simp [viewOwner] at hy
      subst hy
      have hm := mem_of_var e
      cases k with
      | false => rw [h.2 o'' pos' hm]; exact Or.inl (mem_of_var h.1)
      | true => exact Or.inr ⟨pos', hm⟩
    cases op <;> first
      | exact key _ ho
      | simp [Ideal.touched] at ho

end Aligator.PyView
