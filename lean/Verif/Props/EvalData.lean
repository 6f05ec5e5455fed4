import Verif.Lemmas.EvalData

/-!
# C85: data objects of costs, functions and dynamics are values with named blocks

Evaluation code writes derivatives through members that are references into the object's own matrices.  Here: in every program
that makes and destroys data objects and writes through any of their members, every name shows exactly its rows and columns of
its own object; the names of a Jacobian or gradient tile it.  Copies (which the classes allow) are not values.
-/

namespace Aligator.EvalData

open QView (Mem Dense View Holds index_inj index_lt holds_replicate)
open Spec

variable {K : Type}

/-- Every object has a value, and no two share a cell. -/
def Inv (s : St K) (A : ℕ → Option (Val K)) : Prop :=
  ∃ own : ℕ → Option (ℕ × ℕ), ∀ a, match s.objs a, A a with
    | none, none => True
    | some o, some v => Rep s.mem own a o v
    | _, _ => False

theorem Inv.agrees {s : St K} {A : ℕ → Option (Val K)} (I : Inv s A) : Agrees s A := by
  obtain ⟨own, I⟩ := I
  intro a
  have := I a
  revert this
  cases s.objs a <;> cases A a <;> simp only [imp_self]
  exact fun h => h.shows

/-- A new object. -/
theorem new_rep [Zero K] (j : ℕ → ℕ → K) (h : Mem K) (k : Kind) (own : ℕ → Option (ℕ × ℕ)) (a : ℕ) :
    ∃ o h', Obj.new j h k = some (o, h') ∧ h.next ≤ h'.next ∧ (∀ e < h.next, h'.cell e = h.cell e) ∧
      Rep h' (fun e => if h.next ≤ e then some (a, e - h.next) else own e) a o ⟨k, fun _ _ _ => 0⟩ := by
  obtain ⟨h1, h2, h3, h4⟩ := allocAll_spec j k.layout.bufs h
  have hB := layout_bufs k
  have hS := layout_subs k
  have hin : ∀ s ∈ k.layout.subs, ∃ d, (allocAll j h k.layout.bufs).1[s.buf]? = some d ∧ s.r0 + s.nr ≤ d.rows ∧
      s.c0 + s.nc ≤ d.cols := by
    intro s hs
    rw [hS, List.mem_map] at hs
    obtain ⟨t, ht, rfl⟩ := hs
    obtain ⟨R, C, e, i1, i2⟩ := names_inside k t ht
    rw [← hB] at e
    exact ⟨_, (h3 _ _ e).1, i1, i2⟩
  obtain ⟨vs, e1, l1, hv⟩ := bindAll_spec (allocAll j h k.layout.bufs).1 k.layout.subs hin
  have hcells : ∀ d ∈ (allocAll j h k.layout.bufs).1, ∃ (i : ℕ) (p : ℕ × ℕ), (sizes k)[i]? = some p ∧ d = ⟨h.next + i, p.1, p.2⟩ ∧
      ∃ l, (allocAll j h k.layout.bufs).2.cell d.addr = some l ∧ l.length = d.rows * d.cols := by
    intro d hd
    obtain ⟨i, hi, e⟩ := List.mem_iff_getElem.1 hd
    rw [h1] at hi
    have hp : k.layout.bufs[i]? = some k.layout.bufs[i] := List.getElem?_eq_getElem hi
    obtain ⟨q1, l, q2, q3⟩ := h3 i _ hp
    rw [List.getElem?_eq_getElem (by rw [h1]; exact hi), e] at q1
    cases q1
    exact ⟨i, k.layout.bufs[i], by rw [← hB]; exact hp, rfl, l, q2, q3⟩
  obtain ⟨h', e2, hn, hz, ho⟩ := zeroAll_spec (allocAll j h k.layout.bufs).1 (allocAll j h k.layout.bufs).2
    fun d hd => (hcells d hd).choose_spec.choose_spec.2.2
  have hlt : ∀ e, e < h.next → h'.cell e = h.cell e := by
    intro e he
    rw [ho e ?_, h4 e he]
    intro d hd hde
    obtain ⟨i, p, -, rfl, -⟩ := hcells d hd
    simp only at hde
    omega
  refine ⟨⟨(allocAll j h k.layout.bufs).1, vs⟩, h', ?_, by rw [hn, h2]; omega, hlt, ?_⟩
  · simp only [Obj.new, e1, e2, Option.bind_eq_bind, Option.bind_some]
  · refine ⟨by rw [← hB]; exact h1, by simp only [l1, hS, List.length_map], ?_, ?_⟩
    · intro b d hd
      have hd' := hd
      have hb : b < k.layout.bufs.length := by
        rw [← h1]
        exact (List.getElem?_eq_some_iff.1 hd).1
      have hp : k.layout.bufs[b]? = some k.layout.bufs[b] := List.getElem?_eq_getElem hb
      obtain ⟨q1, -⟩ := h3 b _ hp
      simp only [q1, Option.some.injEq] at hd
      subst hd
      refine ⟨by simp, by simp only [hn, h2]; omega, k.layout.bufs[b].1, k.layout.bufs[b].2, by rw [← hB]; exact hp, ?_⟩
      exact holds_replicate rfl rfl (hz _ (List.mem_of_getElem? hd'))
    · intro n t ht
      have : k.layout.subs[n]? = some ⟨t.1, t.2.1.first k, t.2.2.first k, t.2.1.size k, t.2.2.size k⟩ := by
        rw [hS, List.getElem?_map]
        simp only at ht
        rw [ht]
        rfl
      exact hv n _ this

/-- The invariant after something happened to object `a`. -/
theorem Inv.put {s : St K} {A : ℕ → Option (Val K)} {own own' : ℕ → Option (ℕ × ℕ)} {h' : Mem K}
    (I : ∀ a, match s.objs a, A a with
      | none, none => True
      | some o, some v => Rep s.mem own a o v
      | _, _ => False)
    (a : ℕ) (o' : Option Obj) (v' : Option (Val K)) (hn : s.mem.next ≤ h'.next)
    (hc : ∀ e a' b, a' ≠ a → e < s.mem.next → own e = some (a', b) → h'.cell e = s.mem.cell e ∧ own' e = own e)
    (hR : match o', v' with
      | none, none => True
      | some o, some v => Rep h' own' a o v
      | _, _ => False) :
    Inv ⟨h', Function.update s.objs a o'⟩ (Function.update A a v') := by
  refine ⟨own', fun b => ?_⟩
  by_cases e : b = a
  · subst e
    simp only [Function.update_self]
    exact hR
  · simp only [Function.update_of_ne e]
    have := I b
    revert this
    cases s.objs b <;> cases A b <;> simp only [imp_self]
    exact fun R => R.frame hn fun x c hx ho => hc x b c e hx ho

/-- A write of one coefficient of one object. -/
theorem Inv.store {s : St K} {A : ℕ → Option (Val K)} {own : ℕ → Option (ℕ × ℕ)}
    (I : ∀ a, match s.objs a, A a with
      | none, none => True
      | some o, some v => Rep s.mem own a o v
      | _, _ => False)
    {a b : ℕ} {o : Obj} {v : Val K} (ho : s.objs a = some o) (R : Rep s.mem own a o v) {d : Dense} (hd : o.bufs[b]? = some d)
    {RR CC r c : ℕ} (hs : (sizes v.kind)[b]? = some (RR, CC)) (hr : r < RR) (hc : c < CC) (x : K) :
    ∃ h', s.mem.store d.addr (r + c * RR) x = some h' ∧ Inv ⟨h', s.objs⟩ (Function.update A a (some (v.put b r c x))) := by
  obtain ⟨h1, h2, R', C', hs', H⟩ := R.bufs b d hd
  rw [hs] at hs'
  cases hs'
  obtain ⟨h', e, hn, hh, hf⟩ := H.store hr hc x
  refine ⟨h', e, ?_⟩
  have e2 : s.objs = Function.update s.objs a (some o) := by rw [← ho, Function.update_eq_self]
  rw [e2]
  refine Inv.put I a (some o) (some (v.put b r c x)) (own' := own) hn.ge ?_ (R.put hd hs hn hh hf)
  intro e a' b' ha _ hown
  refine ⟨hf e fun ee => ?_, rfl⟩
  rw [ee, h1] at hown
  cases hown
  exact ha rfl

theorem step_ok [Zero K] (j : ℕ → ℕ → K) {s : St K} {A : ℕ → Option (Val K)} (I : Inv s A) (op : Op K) :
    match s.step j op, astep A op with
    | none, none => True
    | some s', some A' => Inv s' A'
    | _, _ => False := by
  obtain ⟨own, I⟩ := I
  cases op with
  | new a k =>
    have Ia := I a
    simp only [St.step, astep]
    revert Ia
    cases ho : s.objs a <;> cases hv : A a <;> simp only [imp_self, false_imp_iff, imp_true_iff, forall_const]
    obtain ⟨o, h', e, hn, hc, R⟩ := new_rep j s.mem k own a
    rw [e]
    refine Inv.put I a (some o) (some ⟨k, fun _ _ _ => 0⟩) hn (fun e a' b _ he _ => ⟨hc e he, if_neg (by omega)⟩) R
  | del a =>
    have Ia := I a
    simp only [St.step, astep]
    revert Ia
    cases ho : s.objs a <;> cases hv : A a <;> simp only [imp_self, false_imp_iff]
    rename_i o v
    intro R
    obtain ⟨h1, h2⟩ := freeAll_spec o.bufs s.mem
    refine Inv.put I a none none (own' := own) h1.ge (fun e a' b ha _ hown => ⟨h2 e fun d hd he => ?_, rfl⟩) trivial
    obtain ⟨i, hi, e'⟩ := List.mem_iff_getElem.1 hd
    have := (R.bufs i d (by rw [List.getElem?_eq_getElem hi, e'])).1
    rw [he, hown] at this
    cases this
    exact ha rfl
  | setBuf a b r c x =>
    have Ia := I a
    simp only [St.step, astep]
    revert Ia
    cases ho : s.objs a <;> cases hv : A a <;> simp only [imp_self, false_imp_iff]
    rename_i o v
    intro R
    cases hd : o.bufs[b]? with
    | none =>
      have : (sizes v.kind)[b]? = none := by
        rw [List.getElem?_eq_none_iff] at hd ⊢
        rw [← R.nb]
        exact hd
      rw [this]
      trivial
    | some d =>
      obtain ⟨-, -, RR, CC, hs, H⟩ := R.bufs b d hd
      simp only [hs, Dense.store, H.1, H.2.1]
      by_cases hrc : r < RR ∧ c < CC
      · rw [if_pos hrc, if_pos hrc]
        obtain ⟨h', e, J⟩ := Inv.store I ho R hd hs hrc.1 hrc.2 x
        rw [e]
        exact J
      · rw [if_neg hrc, if_neg hrc]
        trivial
  | setView a n r c x =>
    have Ia := I a
    simp only [St.step, astep]
    revert Ia
    cases ho : s.objs a <;> cases hv : A a <;> simp only [imp_self, false_imp_iff]
    rename_i o v
    intro R
    cases hn : (names v.kind)[n]? with
    | none =>
      have : o.views[n]? = none := by
        rw [List.getElem?_eq_none_iff] at hn ⊢
        rw [R.nv]
        exact hn
      rw [this]
      trivial
    | some t =>
      obtain ⟨b, p, q⟩ := t
      obtain ⟨d, RR, CC, hd, hs, e1, e2, i1, i2, H, hw⟩ := R.view_index hn
      simp only [hw, View.store]
      by_cases hrc : r < p.size v.kind ∧ c < q.size v.kind
      · rw [if_pos hrc, if_pos hrc]
        obtain ⟨h', e, J⟩ := Inv.store I ho R hd hs (r := p.first v.kind + r) (c := q.first v.kind + c)
          (by simp only at i1; omega) (by simp only at i2; omega) x
        have ei : p.first v.kind + q.first v.kind * RR + r + c * RR = p.first v.kind + r + (q.first v.kind + c) * RR := by ring
        rw [ei, e]
        exact J
      · rw [if_neg hrc, if_neg hrc]
        trivial

/-- **C85** In every program that makes and destroys data objects and writes through their members, the objects are values with
named blocks: the program is defined exactly when all indices are in range, and afterwards every matrix and every named block of
every object shows what was written there last, or zero, whatever was in fresh memory. -/
theorem C85_value_semantics [Zero K] (j : ℕ → ℕ → K) (ops : List (Op K)) :
    match St.init.run j ops, arun (fun _ => none) ops with
    | none, none => True
    | some s, some A => Agrees s A
    | _, _ => False := by
  have key : ∀ (ops : List (Op K)) (s : St K) (A : ℕ → Option (Val K)), Inv s A →
      match s.run j ops, arun A ops with
      | none, none => True
      | some s, some A => Inv s A
      | _, _ => False := by
    intro ops
    induction ops with
    | nil => intro s A I; exact I
    | cons op ops ih =>
      intro s A I
      have := step_ok j I op
      simp only [St.run, arun]
      revert this
      cases s.step j op <;> cases astep A op <;> simp only [imp_self, false_imp_iff]
      exact fun J => ih _ _ J
  have := key ops St.init (fun _ => none) ⟨fun _ => none, fun _ => trivial⟩
  revert this
  cases St.init.run j ops <;> cases arun (fun _ => none) ops <;> simp only [imp_self]
  exact Inv.agrees

/-- A program: function data and dynamics data, writes through `Ju`, `Jy` and the Jacobian, one object destroyed and made
again. -/
def demo : List (Op ℤ) :=
  [.new 0 (.fn 2 1 3), .new 1 (.dyn 2 1 2), .setView 0 2 2 0 7, .setView 1 3 1 0 5, .setBuf 0 1 0 2 9, .del 0, .new 0 (.cost 2 1),
    .setView 0 4 0 1 4]

/-- Non-vacuity of C85: the program is defined; afterwards coefficient (2, 1) of the Hessian of the cost data is 4, and
coefficient (1, 3) of the Jacobian of the dynamics data is 5. -/
example (j : ℕ → ℕ → ℤ) : ∃ s A v w, St.init.run j demo = some s ∧ arun (fun _ => none) demo = some A ∧ Agrees s A ∧
    A 0 = some v ∧ v.f 1 2 1 = 4 ∧ A 1 = some w ∧ w.f 1 1 3 = 5 := by
  have h := C85_value_semantics j demo
  obtain ⟨A, hA, v, w, h1, h2, h3, h4⟩ : ∃ A, arun (fun _ => none) demo = some A ∧ ∃ v w, A 0 = some v ∧ v.f 1 2 1 = 4 ∧
      A 1 = some w ∧ w.f 1 1 3 = 5 := ⟨_, rfl, _, _, rfl, rfl, rfl, rfl⟩
  rw [hA] at h
  cases hs : St.init.run j demo with
  | none => rw [hs] at h; exact h.elim
  | some s => rw [hs] at h; exact ⟨s, A, v, w, rfl, hA, h, h1, h2, h3, h4⟩

/-- The other outcome: a row that the block does not have. -/
example (j : ℕ → ℕ → ℤ) : St.init.run j [.new 0 (.fn 2 1 3), .setView 0 2 3 0 7] = none := by
  have h := C85_value_semantics j [.new 0 (.fn 2 1 3), .setView 0 2 3 0 7]
  rw [show arun (fun _ => none) [Op.new 0 (.fn 2 1 3), .setView 0 2 3 0 (7 : ℤ)] = none from rfl] at h
  cases hs : St.init.run j [.new 0 (.fn 2 1 3), .setView 0 2 3 0 7] with
  | none => rfl
  | some s => rw [hs] at h; exact h.elim

/-! ## The names of a matrix tile it -/

/-- A block has the coefficient `(r, c)` of matrix `b`. -/
def Sub.has (s : Sub) (b r c : ℕ) : Prop := s.buf = b ∧ s.r0 ≤ r ∧ r < s.r0 + s.nr ∧ s.c0 ≤ c ∧ c < s.c0 + s.nc

theorem pairwise_unique {l : List Sub} {b r c : ℕ} (hp : l.Pairwise fun s t => ¬ (s.has b r c ∧ t.has b r c)) {n m : ℕ} {s t : Sub}
    (hn : l[n]? = some s) (hm : l[m]? = some t) (hs : s.has b r c) (ht : t.has b r c) : n = m := by
  rw [List.pairwise_iff_getElem] at hp
  obtain ⟨hn1, hn2⟩ := List.getElem?_eq_some_iff.1 hn
  obtain ⟨hm1, hm2⟩ := List.getElem?_eq_some_iff.1 hm
  rcases lt_trichotomy n m with h | h | h
  · exact absurd ⟨hn2 ▸ hs, hm2 ▸ ht⟩ (hp n m hn1 hm1 h)
  · exact h
  · exact absurd ⟨hm2 ▸ ht, hn2 ▸ hs⟩ (hp m n hm1 hn1 h)

/-- **C85** No coefficient has two names. -/
theorem C85_names_disjoint (k : Kind) (b r c n m : ℕ) (s t : Sub) (hn : k.layout.subs[n]? = some s) (hm : k.layout.subs[m]? = some t)
    (hs : s.has b r c) (ht : t.has b r c) : n = m := by
  refine pairwise_unique ?_ hn hm hs ht
  cases k <;> simp [Kind.layout, costLayout, fnLayout, dynLayout, corner, Sub.has] <;> omega

/-- **C85** Gradient, Hessian, value and Jacobian have no coefficients without a name: a function that fills its blocks fills
them.  In the second derivatives of a stage function exactly the rows of the control and columns of the state have none. -/
theorem C85_names_cover (k : Kind) (b R C r c : ℕ) (hb : k.layout.bufs[b]? = some (R, C)) (hr : r < R) (hc : c < C) :
    (∃ s ∈ k.layout.subs, s.has b r c) ↔
      match k with
      | .cost _ _ => True
      | .fn ndx _ _ => b < 2 ∨ ¬ (ndx ≤ r ∧ c < ndx)
      | .dyn _ _ _ => b < 2 := by
  cases k with
  | cost ndx nu =>
    simp only [Kind.layout, costLayout, corner, Sub.has] at hb ⊢
    rcases b with _ | _ | b
    · simp at hb
      simp
      omega
    · simp at hb
      simp
      omega
    · simp at hb
  | fn ndx nu nr =>
    simp only [Kind.layout, fnLayout, corner, Sub.has] at hb ⊢
    rcases b with _ | _ | _ | b
    · simp at hb
      simp
      omega
    · simp at hb
      simp
      omega
    · simp at hb
      simp
      omega
    · simp at hb
  | dyn ndx nu ndx2 =>
    simp only [Kind.layout, dynLayout, corner, Sub.has] at hb ⊢
    rcases b with _ | _ | b
    · simp at hb
      simp
      omega
    · simp at hb
      simp
      omega
    · simp

/-- Non-vacuity: coefficient (2, 1) of a 3 by 3 Hessian of a cost of two states and one control is in `Lux` and nowhere else. -/
example : ∃ s, (Kind.cost 2 1).layout.subs[4]? = some s ∧ s.has 1 2 1 ∧ (Kind.cost 2 1).layout.bufs[1]? = some (3, 3) :=
  ⟨_, rfl, by unfold Sub.has; decide, rfl⟩

/-! ## Copies -/

theorem copyAll_spec (j : ℕ → ℕ → K) : ∀ (ds : List Dense) (h : Mem K),
    (∀ d ∈ ds, d.addr < h.next ∧ ∃ l, h.cell d.addr = some l ∧ l.length = d.rows * d.cols) →
    ∃ ds' h', copyAll j h ds = some (ds', h') ∧ h.next ≤ h'.next ∧ (∀ e < h.next, h'.cell e = h.cell e) ∧
      ∀ (i : ℕ) (d : Dense), ds[i]? = some d → ∃ e, h.next ≤ e ∧ e < h'.next ∧ ds'[i]? = some ⟨e, d.rows, d.cols⟩ ∧
        h'.cell e = h.cell d.addr := by
  intro ds
  induction ds with
  | nil => intro h _; exact ⟨[], h, rfl, le_rfl, fun _ _ => rfl, by simp⟩
  | cons d ds ih =>
    intro h H
    obtain ⟨ha, l, hl, hn⟩ := H d List.mem_cons_self
    let h1 : Mem K := ⟨h.next + 1, Function.update (h.alloc j (d.rows * d.cols)).2.cell h.next (some l)⟩
    have k1 : ∀ e, e < h.next → h1.cell e = h.cell e := by
      intro e he
      show Function.update (Function.update h.cell h.next _) h.next _ e = _
      rw [Function.update_of_ne (by omega), Function.update_of_ne (by omega)]
    have e0 : (h.alloc j (d.rows * d.cols)).2.cell d.addr = some l := by
      rw [← hl]
      exact Function.update_of_ne (by omega) _ _
    have e1 : (h.alloc j (d.rows * d.cols)).2.fill (h.alloc j (d.rows * d.cols)).1 l = some h1 := by
      unfold Mem.fill Mem.alloc
      simp only [Function.update_self, List.length_map, List.length_range, hn, if_true]
      rfl
    obtain ⟨ds', h', e2, hx, hf, hi⟩ := ih h1 (by
      intro d' hd'
      obtain ⟨q1, l', q2, q3⟩ := H d' (List.mem_cons_of_mem _ hd')
      exact ⟨Nat.lt_succ_of_lt q1, l', by rw [k1 _ q1]; exact q2, q3⟩)
    have hx' : h.next + 1 ≤ h'.next := hx
    refine ⟨⟨h.next, d.rows, d.cols⟩ :: ds', h', ?_, by omega, fun e he => ?_, ?_⟩
    · simp only [copyAll, e0, e1, e2]
      rfl
    · rw [hf e (Nat.lt_succ_of_lt he), k1 e he]
    · intro i d' hd'
      rcases i with _ | i
      · simp only [List.getElem?_cons_zero, Option.some.injEq] at hd'
        subst hd'
        refine ⟨h.next, le_rfl, hx', rfl, ?_⟩
        rw [hf _ (Nat.lt_succ_self _), hl]
        exact Function.update_self ..
      · rw [List.getElem?_cons_succ] at hd'
        obtain ⟨e, q1, q2, q3, q4⟩ := hi i d' hd'
        refine ⟨e, le_of_lt q1, q2, by simpa using q3, ?_⟩
        rw [q4]
        exact k1 _ (H d' (List.mem_cons_of_mem _ (List.mem_of_getElem? hd'))).1

/-- **C85 (negation)** A copy of a data object of any of the three classes (the copy constructors are the implicit ones) has its
own matrices, but its named blocks are those of the original: a write through any of them changes the original and not the
copy. -/
theorem C85_copy_shares_blocks [Zero K] (j : ℕ → ℕ → K) (h : Mem K) (k : Kind) (n b : ℕ) (p q : Ax)
    (hn : (names k)[n]? = some (b, p, q)) (r c : ℕ) (hr : r < p.size k) (hc : c < q.size k) (x : K) :
    ∃ o h1 o' h2 h3 d d' w, Obj.new j h k = some (o, h1) ∧ Obj.copy j h1 o = some (o', h2) ∧ o.bufs[b]? = some d ∧
      o'.bufs[b]? = some d' ∧ o'.views[n]? = some w ∧ w.store h2 r c x = some h3 ∧
      d.load h3 (p.first k + r) (q.first k + c) = some x ∧ d'.load h3 (p.first k + r) (q.first k + c) = some 0 := by
  obtain ⟨o, h1, e1, -, -, R⟩ := new_rep j h k (fun _ => none) 0
  have hD : ∀ d ∈ o.bufs, d.addr < h1.next ∧ ∃ l, h1.cell d.addr = some l ∧ l.length = d.rows * d.cols := by
    intro d hd
    obtain ⟨i, hi, e⟩ := List.mem_iff_getElem.1 hd
    obtain ⟨-, q1, RR, CC, -, q2, q3, l, q4, q5, -⟩ := R.bufs i d (by rw [List.getElem?_eq_getElem hi, e])
    exact ⟨q1, l, q4, by rw [q5, q2, q3]⟩
  obtain ⟨ds', h2, e2, hx, hf, hi⟩ := copyAll_spec j o.bufs h1 hD
  obtain ⟨d, RR, CC, hd, hs, e3, e4, i1, i2, H, hw⟩ := R.view_index (n := n) (t := (b, p, q)) hn
  simp only at hd hs i1 i2 hw H
  obtain ⟨e, q1, q2, q3, q4⟩ := hi b d hd
  have hlt := (hD d (List.mem_of_getElem? hd)).1
  have H2 : Holds h2 d RR CC (fun _ _ => (0 : K)) := H.frame (hf _ hlt)
  have H2' : Holds h2 ⟨e, d.rows, d.cols⟩ RR CC (fun _ _ => (0 : K)) := by
    obtain ⟨m1, m2, l, m3, m4⟩ := H
    exact ⟨m1, m2, l, q4.trans m3, m4⟩
  obtain ⟨h3, e5, -, H3, hf3⟩ := H2.store (r := p.first k + r) (c := q.first k + c) (by omega) (by omega) x
  refine ⟨o, h1, ⟨ds', o.views⟩, h2, h3, d, ⟨e, d.rows, d.cols⟩, _, e1, ?_, hd, q3, hw, ?_, ?_, ?_⟩
  · simp only [Obj.copy, e2, Option.map_some]
  · unfold View.store
    simp only
    rw [if_pos ⟨hr, hc⟩]
    rw [← e5]
    congr 1
    ring
  · unfold Dense.load
    rw [if_pos ⟨by omega, by omega⟩, e3, H3.load (by omega) (by omega)]
    simp
  · have H4 := H2'.frame (h' := h3) (hf3 e (by omega))
    unfold Dense.load
    simp only
    rw [if_pos ⟨by omega, by omega⟩, e3]
    exact H4.load (by omega) (by omega)

/-- Non-vacuity: `Ju` of a function of two states, one control and three values. -/
example : (names (.fn 2 1 3))[2]? = some (1, .val, .var .u) ∧ 2 < Ax.val.size (.fn 2 1 3) ∧ 0 < (Ax.var .u).size (.fn 2 1 3) := by
  refine ⟨rfl, ?_, ?_⟩ <;> decide

/-- **C85 (negation)** Once the original is destroyed, the named blocks of the copy are in freed memory. -/
theorem C85_copy_dangles [Zero K] (j : ℕ → ℕ → K) (h : Mem K) (k : Kind) {o o' : Obj} {h1 h2 : Mem K}
    (h_new : Obj.new j h k = some (o, h1)) (h_copy : Obj.copy j h1 o = some (o', h2)) {n : ℕ} {w : View}
    (hw : o'.views[n]? = some w) (r c : ℕ) : w.load (freeAll h2 o.bufs) r c = none := by
  obtain ⟨o0, h0, e1, -, -, R⟩ := new_rep j h k (fun _ => none) 0
  rw [h_new] at e1
  cases e1
  have hv : o'.views = o.views := by
    unfold Obj.copy at h_copy
    obtain ⟨m, -, e⟩ := Option.map_eq_some_iff.1 h_copy
    cases e
    rfl
  rw [hv] at hw
  have hlt : n < (names k).length := by
    have := R.nv
    simp only at this
    rw [← this]
    exact (List.getElem?_eq_some_iff.1 hw).1
  obtain ⟨d, RR, CC, hd, -, -, -, -, -, -, hw'⟩ := R.view_index (List.getElem?_eq_getElem hlt)
  rw [hw'] at hw
  cases hw
  have hfree := freeAll_freed o.bufs h2 d.addr ⟨d, List.mem_of_getElem? hd, rfl⟩
  unfold View.load
  split
  · unfold Mem.load
    simp only
    rw [hfree]
  · rfl

end Aligator.EvalData
