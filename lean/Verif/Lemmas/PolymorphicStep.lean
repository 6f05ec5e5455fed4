import Verif.Lemmas.Polymorphic

/-! # Lemmas: every statement does to memory what its meaning does to the store -/

namespace Aligator.Poly

open Spec

variable {V : Type}

/-- The outcome of a statement agrees with its meaning. -/
def Agrees (σ : Store V) (op : Op V) : Done V → Prop
  | .ok s' => ∃ σ', apply σ op = some σ' ∧ R s' σ'
  | .thrown s' => (apply σ op).isSome ∧ R s' σ ∧ quota op ≠ none
  | .ub => apply σ op = none
  | .fuel => False

theorem step_make {s : State V} {σ fp} (i : Inv s σ fp) (x : ℕ) (v : V) (ys : List ℕ) (q : Quota) :
    Agrees σ (.make x v ys q) (step s (.make x v ys q)) := by
  cases hx : s.var x with
  | some p =>
    obtain ⟨t, et, _⟩ := i.alive hx
    simp [step, hx, Agrees, apply, et]
  | none =>
    obtain ⟨ex, ef⟩ := i.dead hx
    rcases i.vars ys with ⟨e₁, e₂⟩ | ⟨ps, ts, F, e₁, e₂, r, l⟩
    · simp [step, hx, e₁, Agrees, apply, ex, e₂]
    · simp only [step, hx, e₁, make]
      have hput : (s.heap.alloc.put s.heap.next .free).cell = s.heap.cell := by
        funext b
        by_cases e : b = s.heap.next
        · subst e; simp [Heap.put, i.fresh]
        · simp [Heap.put, Heap.alloc, Function.update_of_ne e]
      cases hq : q.tick with
      | none =>
        refine ⟨by simp [apply, ex, e₂], ⟨fp, i.heap hput (by simp [Heap.put, Heap.alloc])⟩, ?_⟩
        simp only [quota]
        rintro rfl
        simp [Quota.tick] at hq
      | some q₁ =>
        dsimp only
        rcases cloneList_spec r l (q := q₁) (h := s.heap.alloc) (by
            intro b hb
            obtain ⟨o, ho⟩ := r.live hb
            have hlt : b < s.heap.next := by
              by_contra hx
              rw [i.fresh b (by omega)] at ho
              cases ho
            simp [Heap.alloc, Function.update_of_ne (show b ≠ s.heap.next by omega)]) (by
            intro b hb
            simp only [Heap.alloc] at hb ⊢
            rw [Function.update_of_ne (by omega), i.fresh b (by omega)]) with
          ⟨h', e, f₁, f₂, f₃⟩ | ⟨ps', h', q', F', e, r', d, l', hqq, b₁, b₂, b₃⟩
        · rw [e]
          refine ⟨by simp [apply, ex, e₂], ⟨fp, i.heap ?_ ?_⟩, ?_⟩
          · simp only [Heap.put, f₁]; exact hput
          · simp only [Heap.put, Heap.alloc] at f₂ ⊢; omega
          · simp only [quota]
            rintro rfl
            simp only [Quota.tick, Option.some.injEq] at hq
            exact f₃ hq.symm
        · rw [e]
          simp only [Heap.alloc] at b₁ b₃
          have hm : s.heap.next ∉ F' := fun hx => by have := (b₁ _ hx).1; omega
          refine ⟨_, by simp [apply, ex, e₂]; rfl, i.update x (G := s.heap.next :: (F' ++ [])) ?_ ?_ ?_ ?_ ?_ ?_⟩
          · refine .alive (.obj (qs := ps') (by simp [Heap.put]) (r'.frame ?_) .nil)
            intro b hb
            have : b ≠ s.heap.next := fun e => hm (e ▸ hb)
            simp [Heap.put, Function.update_of_ne this]
          · simpa using ⟨hm, d⟩
          · intro y _ a ha
            have h1 := i.lt ha
            have hne : a ≠ s.heap.next := by omega
            have haF : a ∉ F' := fun hx => by have := (b₁ a hx).1; omega
            simp [Heap.put, Function.update_of_ne hne, b₂ a haF, Heap.alloc]
          · intro y _ a ha
            have h1 := i.lt ha
            simp only [List.append_nil, List.mem_cons, not_or]
            exact ⟨by omega, fun hx => by have := (b₁ a hx).1; omega⟩
          · intro a ha
            by_cases hne : a = s.heap.next
            · left; simp [hne]
            · by_cases haF : a ∈ F'
              · left; simp [haF]
              · right
                simp only [Heap.put, Function.update_of_ne hne, b₂ a haF, Heap.alloc] at ha
                obtain ⟨y, hy⟩ := i.noleak a ha
                exact ⟨y, fun e => by subst e; simp [ef] at hy, hy⟩
          · intro a ha
            simp only [Heap.put] at ha ⊢
            rw [Function.update_of_ne (by omega), b₂ a fun hx => by have := (b₁ a hx).2; omega]
            simp only [Heap.alloc]
            rw [Function.update_of_ne (by omega), i.fresh a (by omega)]

theorem step_copy {s : State V} {σ fp} (i : Inv s σ fp) (x y : ℕ) (q : Quota) :
    Agrees σ (.copy x y q) (step s (.copy x y q)) := by
  cases hx : s.var x with
  | some p =>
    obtain ⟨t, et, _⟩ := i.alive hx
    simp [step, hx, Agrees, apply, et]
  | none =>
    obtain ⟨ex, ef⟩ := i.dead hx
    cases hy : s.var y with
    | none => simp [step, hx, hy, Agrees, apply, ex, i.dead hy]
    | some p =>
      obtain ⟨t₀, et₀, _⟩ := i.alive hy
      simp only [step, hx, hy, withCopy]
      rcases i.clone hy q with ⟨h', e, r, hq⟩ | ⟨t, p', h', q', F', et, e, r, _, d, b₁, b₂, b₃, hf, hdis, hfr⟩
      · rw [e]
        exact ⟨by simp [apply, ex, et₀], r, hq⟩
      · rw [e]
        refine ⟨_, by simp [apply, ex, et], i.update x (.alive r) d (fun z _ a ha => hfr z a ha)
          (fun z _ a ha => hdis z a ha) ?_ hf⟩
        intro a ha
        by_cases haF : a ∈ F'
        · exact .inl haF
        · right
          rw [b₂ a haF] at ha
          obtain ⟨z, hz⟩ := i.noleak a ha
          exact ⟨z, fun e => by subst e; simp [ef] at hz, hz⟩

theorem R.congr {s s' : State V} {σ σ' : Store V} (h : R s σ) (e : s = s') (e' : σ = σ') : R s' σ' := e ▸ e' ▸ h

theorem step_move {s : State V} {σ fp} (i : Inv s σ fp) (x y : ℕ) : Agrees σ (.move x y) (step s (.move x y)) := by
  cases hx : s.var x with
  | some p =>
    obtain ⟨t, et, _⟩ := i.alive hx
    simp [step, hx, Agrees, apply, et]
  | none =>
    obtain ⟨ex, ef⟩ := i.dead hx
    cases hy : s.var y with
    | none => simp [step, hx, hy, Agrees, apply, ex, i.dead hy]
    | some p =>
      obtain ⟨t, et, _⟩ := i.alive hy
      simp only [step, hx, hy]
      refine ⟨_, by simp [apply, ex, et]; rfl, ?_⟩
      obtain ⟨fp', j⟩ := R.swap ⟨fp, i⟩ x y
      have hfy : fp' y = [] := (j.dead (x := y) (by simp [State.setVar, hx])).2
      refine (j.update y (h := s.heap) (p := some none) (t := some none) (G := []) (.alive (.null .nil)) (by simp)
        (fun _ _ _ _ => rfl) (by simp) ?_ i.fresh).congr ?_ ?_
      · intro a ha
        obtain ⟨z, hz⟩ := j.noleak a ha
        exact .inr ⟨z, fun e => by subst e; simp [hfy] at hz, hz⟩
      · simp [State.setVar, hy]
      · funext z
        simp only [Store.set, et]
        split <;> rfl

theorem step_destroy {s : State V} {σ fp} (i : Inv s σ fp) (x : ℕ) : Agrees σ (.destroy x) (step s (.destroy x)) := by
  cases hx : s.var x with
  | none => simp [step, hx, Agrees, apply, i.dead hx]
  | some p =>
    obtain ⟨t, et, _⟩ := i.alive hx
    obtain ⟨h', e, _, _, _, r, _⟩ := i.reset hx
    simp only [step, hx, withReset, e]
    exact ⟨_, by simp [apply, et], r⟩

theorem step_swap {s : State V} {σ fp} (i : Inv s σ fp) (x y : ℕ) : Agrees σ (.swap x y) (step s (.swap x y)) := by
  cases hx : s.var x with
  | none => simp [step, hx, Agrees, apply, i.dead hx]
  | some p =>
    obtain ⟨t, et, _⟩ := i.alive hx
    cases hy : s.var y with
    | none => simp [step, hx, hy, Agrees, apply, et, i.dead hy]
    | some p' =>
      obtain ⟨t', et', _⟩ := i.alive hy
      simp only [step, hx, hy]
      refine ⟨_, by simp [apply, et, et']; rfl, (R.swap ⟨fp, i⟩ x y).congr ?_ ?_⟩
      · rw [hx, hy]
      · rw [et, et']

theorem Rep.none_iff {c : ℕ → Cell V} {p : Ptr} {t : Option (Tree V)} {F} (h : Rep c [p] [t] F) :
    p = none ↔ t = none := by
  cases h with
  | null h => simp
  | obj _ _ h => simp

theorem store_set_self {σ : Store V} {x t} (h : σ x = t) : σ.set x t = σ := by
  funext z
  simp only [Store.set]
  split
  · subst_vars; rfl
  · rfl

theorem step_assign {s : State V} {σ fp} (i : Inv s σ fp) (x y : ℕ) (q : Quota) :
    Agrees σ (.assign x y q) (step s (.assign x y q)) := by
  cases hx : s.var x with
  | none => simp [step, hx, Agrees, apply, i.dead hx]
  | some p =>
    obtain ⟨t, et, hrx⟩ := i.alive hx
    cases hy : s.var y with
    | none => simp [step, hx, hy, Agrees, apply, et, i.dead hy]
    | some p' =>
      obtain ⟨t', et', hry⟩ := i.alive hy
      simp only [step, hx, hy]
      have happ : apply σ (.assign x y q) = some (σ.set x (some t')) := by simp [apply, et, et']
      by_cases hxy : x = y
      · subst hxy
        rw [if_pos rfl]
        exact ⟨_, happ, R.congr ⟨fp, i⟩ rfl (store_set_self et').symm⟩
      · rw [if_neg hxy]
        cases p' with
        | none =>
          obtain rfl : t' = none := hry.none_iff.1 rfl
          obtain ⟨h', e, _, _, _, _, r⟩ := i.reset hx
          simp only [withReset, e]
          exact ⟨_, happ, r⟩
        | some b =>
          dsimp only
          simp only [withCopy]
          rcases i.clone hy q with ⟨h', e, r, hq⟩ | ⟨t₁, p₁, h', q', F', et₁, e, r, _, d, b₁, b₂, b₃, hf, hdis, hfr⟩
          · rw [e]
            exact ⟨by rw [happ]; rfl, r, hq⟩
          · rw [e]
            simp only [withReset]
            have e1 : t₁ = t' := by rw [et'] at et₁; exact (Option.some.inj et₁).symm
            subst e1
            have hrx' : Rep h'.cell [p] [t] (fp x) := hrx.frame fun a ha => hfr x a ha
            obtain ⟨h'', e', n', f', g'⟩ := destroyList_spec hrx' (i.nodup x)
              (n := h'.next) (Nat.le_trans (i.len x) b₃) (h := h') (fun _ _ => rfl)
            rw [e']
            refine ⟨_, happ, i.update x (G := F') (.alive (r.frame fun a ha => g' a fun hx => hdis x a hx ha)) d ?_
              (fun z _ a ha => hdis z a ha) ?_ ?_⟩
            · intro z hz a ha
              rw [g' a (i.disj z x hz a ha), hfr z a ha]
            · intro a ha
              by_cases hax : a ∈ fp x
              · exact absurd (f' a hax) ha
              · rw [g' a hax] at ha
                by_cases haF : a ∈ F'
                · exact .inl haF
                · rw [b₂ a haF] at ha
                  obtain ⟨z, hz⟩ := i.noleak a ha
                  exact .inr ⟨z, fun e => hax (e ▸ hz), hz⟩
            · intro a ha
              rw [n'] at ha
              by_cases hax : a ∈ fp x
              · exact f' a hax
              · rw [g' a hax, hf a ha]

theorem step_moveAssign {s : State V} {σ fp} (i : Inv s σ fp) (x y : ℕ) :
    Agrees σ (.moveAssign x y) (step s (.moveAssign x y)) := by
  cases hx : s.var x with
  | none => simp [step, hx, Agrees, apply, i.dead hx]
  | some p =>
    obtain ⟨t, et, hrx⟩ := i.alive hx
    cases hy : s.var y with
    | none => simp [step, hx, hy, Agrees, apply, et, i.dead hy]
    | some p' =>
      obtain ⟨t', et', hry⟩ := i.alive hy
      simp only [step, hx, hy]
      by_cases hxy : x = y
      · subst hxy
        rw [if_pos rfl]
        exact ⟨σ, by simp [apply, et], fp, i⟩
      · rw [if_neg hxy]
        have happ : apply σ (.moveAssign x y) = some ((σ.set x (some t')).set y (some none)) := by
          simp [apply, et, et', hxy]
        obtain ⟨h', e, _, _, _, _, r⟩ := i.reset hx
        have hyx : y ≠ x := fun e => hxy e.symm
        cases p' with
        | none =>
          obtain rfl : t' = none := hry.none_iff.1 rfl
          simp only [withReset, e]
          refine ⟨_, happ, r.congr rfl ?_⟩
          funext z
          simp only [Store.set]
          by_cases hz : z = y
          · subst hz; simp [hyx, et']
          · simp [hz]
        | some b =>
          simp only [withReset, e]
          refine ⟨_, happ, (r.swap x y).congr ?_ ?_⟩
          · simp [State.setVar, Function.update_of_ne hyx, hy]
          · funext z
            simp only [Store.set, if_neg hyx, et', if_pos]
            split
            · rfl
            · split <;> rfl

/-- The context of the object at a path of a variable, with what is needed to change it. -/
theorem Inv.at {s : State V} {σ fp} (i : Inv s σ fp) {x p t} (hx : s.var x = some p) (et : σ x = some t)
    (path : List ℕ) :
    (nav s.heap.cell p path = none ∧ sub t path = none) ∨
    ∃ a v qs ks Fk Fo, nav s.heap.cell p path = some (a, ⟨v, qs⟩) ∧ sub t path = some (.node v ks) ∧
      s.heap.cell a = .live ⟨v, qs⟩ ∧ Rep s.heap.cell qs ks Fk ∧ (fp x).Perm (a :: (Fk ++ Fo)) ∧
      (a :: (Fk ++ Fo)).Nodup ∧ (∃ r, p = some r ∧ (r = a ∨ r ∈ Fo)) ∧
      ∀ (c' : ℕ → Cell V) v' qs' ks' Fk', (∀ b ∈ Fo, c' b = s.heap.cell b) → c' a = .live ⟨v', qs'⟩ →
        Rep c' qs' ks' Fk' → ∃ G, G.Perm (a :: (Fk' ++ Fo)) ∧ Rep c' [p] [replace t path (.node v' ks')] G := by
  obtain ⟨t₁, et₁, hr⟩ := i.alive hx
  have e1 : t₁ = t := by rw [et] at et₁; exact (Option.some.inj et₁).symm
  subst e1
  rcases hr.nav (path := path) with h | ⟨a, v, qs, ks, Fk, Fo, e₁, e₂, e₃, e₄, e₅, e₆, e₇⟩
  · exact .inl h
  · exact .inr ⟨a, v, qs, ks, Fk, Fo, e₁, e₂, e₃, e₄, e₅, e₅.nodup_iff.1 (i.nodup x), e₆, e₇⟩

/-- A change inside the object at a path of one variable: block `a` gets new contents, the members' blocks `Fk` become
`Fk'`. -/
theorem Inv.updateAt {s : State V} {σ fp} (i : Inv s σ fp) {x p t} (hx : s.var x = some p) {a : ℕ} {Fk Fo Fk' : List ℕ}
    (hp : (fp x).Perm (a :: (Fk ++ Fo))) (hd : (a :: (Fk ++ Fo)).Nodup) {h : Heap V} {G : List ℕ}
    (hG : G.Perm (a :: (Fk' ++ Fo))) (hr : Rep h.cell [p] [t] G) (hd' : Fk'.Nodup)
    (hnew : ∀ b ∈ Fk', b ∈ Fk ∨ s.heap.next ≤ b) (hfr : ∀ b, b ≠ a → b ∉ Fk → b ∉ Fk' → h.cell b = s.heap.cell b)
    (hgone : ∀ b ∈ Fk, b ∉ Fk' → h.cell b = .free) (hfresh : ∀ a, h.next ≤ a → h.cell a = .free) :
    R ⟨h, s.var⟩ (σ.set x (some t)) := by
  have hax : a ∈ fp x := hp.symm.subset (by simp)
  have hkx : ∀ b ∈ Fk, b ∈ fp x := fun b hb => hp.symm.subset (by simp [hb])
  have hox : ∀ b ∈ Fo, b ∈ fp x := fun b hb => hp.symm.subset (by simp [hb])
  have hnew' : ∀ y, y ≠ x → ∀ b ∈ fp y, b ≠ a ∧ b ∉ Fk ∧ b ∉ Fo ∧ b ∉ Fk' := by
    intro y hy b hb
    have hbx := i.disj y x hy b hb
    refine ⟨fun e => hbx (e ▸ hax), fun e => hbx (hkx b e), fun e => hbx (hox b e), fun e => ?_⟩
    rcases hnew b e with h1 | h1
    · exact hbx (hkx b h1)
    · have := i.lt hb; omega
  refine (i.update x (h := h) (p := some p) (t := some t) (G := G) (.alive hr) ?_ ?_ ?_ ?_ hfresh).congr ?_ rfl
  · rw [hG.nodup_iff]
    simp only [List.nodup_cons, List.mem_append, List.nodup_append, not_or] at hd ⊢
    refine ⟨⟨fun e => ?_, hd.1.2⟩, hd', hd.2.2.1, fun b hb b' hb' e => ?_⟩
    · rcases hnew a e with h1 | h1
      · exact hd.1.1 h1
      · have := i.lt hax; omega
    · subst e
      rcases hnew b hb with h1 | h1
      · exact hd.2.2.2 b h1 b hb' rfl
      · have := i.lt (hox b hb'); omega
  · intro y hy b hb
    obtain ⟨h1, h2, _, h3⟩ := hnew' y hy b hb
    exact hfr b h1 h2 h3
  · intro y hy b hb hx'
    obtain ⟨h1, h2, h4, h3⟩ := hnew' y hy b hb
    have := hG.subset hx'
    simp only [List.mem_cons, List.mem_append] at this
    tauto
  · intro b hb
    by_cases hbG : b ∈ G
    · exact .inl hbG
    · right
      have hba : b ≠ a := fun e => hbG (hG.symm.subset (by simp [e]))
      have hbk : b ∉ Fk' := fun e => hbG (hG.symm.subset (by simp [e]))
      have hbo : b ∉ Fo := fun e => hbG (hG.symm.subset (by simp [e]))
      have hbk' : b ∉ Fk := fun e => hb (hgone b e hbk)
      rw [hfr b hba hbk' hbk] at hb
      obtain ⟨y, hy⟩ := i.noleak b hb
      refine ⟨y, fun e => ?_, hy⟩
      subst e
      have := hp.subset hy
      simp only [List.mem_cons, List.mem_append] at this
      tauto
  · simp [State.setVar, ← hx]

theorem step_write {s : State V} {σ fp} (i : Inv s σ fp) (x : ℕ) (path : List ℕ) (v : V) :
    Agrees σ (.write x path v) (step s (.write x path v)) := by
  cases hx : s.var x with
  | none => simp [step, hx, Agrees, apply, i.dead hx]
  | some p =>
    obtain ⟨t, et, _⟩ := i.alive hx
    rcases i.at hx et path with ⟨e₁, e₂⟩ | ⟨a, w, qs, ks, Fk, Fo, e₁, e₂, e₃, e₄, e₅, e₆, e₇, e₈⟩
    · simp [step, hx, e₁, Agrees, apply, et, e₂]
    · simp only [step, hx, e₁]
      have hd := e₆
      simp only [List.nodup_cons, List.mem_append, List.nodup_append, not_or] at hd
      obtain ⟨G, hG, hR⟩ := e₈ (s.heap.put a (.live ⟨v, qs⟩)).cell v qs ks Fk
        (fun b hb => by simp [Heap.put, Function.update_of_ne (show b ≠ a from fun e => hd.1.2 (e ▸ hb))])
        (by simp [Heap.put])
        (e₄.frame fun b hb => by
          simp [Heap.put, Function.update_of_ne (show b ≠ a from fun e => hd.1.1 (e ▸ hb))])
      refine ⟨_, by simp [apply, et, e₂]; rfl, i.updateAt hx e₅ e₆ hG hR hd.2.1 (fun b hb => .inl hb) ?_ ?_ ?_⟩
      · intro b hb _ _
        simp [Heap.put, Function.update_of_ne hb]
      · intro b hb hb'
        exact absurd hb hb'
      · intro b hb
        have := i.lt (x := x) (a := a) (e₅.symm.subset (by simp))
        simp only [Heap.put] at hb ⊢
        rw [Function.update_of_ne (by omega), i.fresh b hb]

theorem step_pushAt {s : State V} {σ fp} (i : Inv s σ fp) (x : ℕ) (path : List ℕ) (y : ℕ) (q : Quota) :
    Agrees σ (.pushAt x path y q) (step s (.pushAt x path y q)) := by
  cases hx : s.var x with
  | none => simp [step, hx, Agrees, apply, i.dead hx]
  | some p =>
    obtain ⟨t, et, _⟩ := i.alive hx
    cases hy : s.var y with
    | none => simp [step, hx, hy, Agrees, apply, et, i.dead hy]
    | some p' =>
      obtain ⟨t', et', _⟩ := i.alive hy
      rcases i.at hx et path with ⟨e₁, e₂⟩ | ⟨a, w, qs, ks, Fk, Fo, e₁, e₂, e₃, e₄, e₅, e₆, e₇, e₈⟩
      · simp [step, hx, hy, e₁, Agrees, apply, et, et', e₂]
      · simp only [step, hx, hy, e₁, withCopy]
        have happ : apply σ (.pushAt x path y q) = some (σ.set x (some (replace t path (.node w (ks ++ [t']))))) := by
          simp [apply, et, et', e₂, Tree.val, Tree.kids]
        have hd := e₆
        simp only [List.nodup_cons, List.mem_append, List.nodup_append, not_or] at hd
        rcases i.clone hy q with ⟨h', e, r, hq⟩ | ⟨t₁, p₁, h', q', F', et₁, e, r, _, d, b₁, b₂, b₃, hf, hdis, hfr⟩
        · rw [e]
          exact ⟨by rw [happ]; rfl, r, hq⟩
        · rw [e]
          have e1 : t₁ = t' := by rw [et'] at et₁; exact (Option.some.inj et₁).symm
          subst e1
          have hax : a ∈ fp x := e₅.symm.subset (by simp)
          have haF : a ∉ F' := hdis x a hax
          have hkx : ∀ b ∈ Fk, b ∈ fp x := fun b hb => e₅.symm.subset (by simp [hb])
          have hox : ∀ b ∈ Fo, b ∈ fp x := fun b hb => e₅.symm.subset (by simp [hb])
          have hr₁ : Rep (h'.put a (.live ⟨w, qs ++ [p₁]⟩)).cell qs ks Fk := e₄.frame fun b hb => by
            simp [Heap.put, Function.update_of_ne (show b ≠ a from fun e => hd.1.1 (e ▸ hb)), hfr x b (hkx b hb)]
          have hr₂ : Rep (h'.put a (.live ⟨w, qs ++ [p₁]⟩)).cell [p₁] [t₁] F' := r.frame fun b hb => by
            simp [Heap.put, Function.update_of_ne (show b ≠ a from fun e => haF (e ▸ hb))]
          obtain ⟨K, hK, hrK⟩ := hr₁.append hr₂
          obtain ⟨G, hG, hR⟩ := e₈ _ w _ _ K
            (fun b hb => by
              simp [Heap.put, Function.update_of_ne (show b ≠ a from fun e => hd.1.2 (e ▸ hb)), hfr x b (hox b hb)])
            (by simp [Heap.put]) hrK
          refine ⟨_, happ, i.updateAt hx e₅ e₆ hG hR ?_ ?_ ?_ ?_ ?_⟩
          · rw [hK.nodup_iff, List.nodup_append]
            exact ⟨hd.2.1, d, fun b hb b' hb' e => by subst e; exact hdis x b (hkx b hb) hb'⟩
          · intro b hb
            have := hK.subset hb
            simp only [List.mem_append] at this
            exact this.imp id fun h => (b₁ b h).1
          · intro b hb _ hbK
            have hbF : b ∉ F' := fun h => hbK (hK.symm.subset (by simp [h]))
            simp [Heap.put, Function.update_of_ne hb, b₂ b hbF]
          · intro b hb hbK
            exact absurd (hK.symm.subset (by simp [hb])) hbK
          · intro b hb
            have := i.lt hax
            simp only [Heap.put] at hb ⊢
            rw [Function.update_of_ne (by omega), hf b hb]

theorem step_assignAt {s : State V} {σ fp} (i : Inv s σ fp) (x : ℕ) (path : List ℕ) (j y : ℕ) (q : Quota) :
    Agrees σ (.assignAt x path j y q) (step s (.assignAt x path j y q)) := by
  cases hx : s.var x with
  | none => simp [step, hx, Agrees, apply, i.dead hx]
  | some p =>
    obtain ⟨t, et, _⟩ := i.alive hx
    cases hy : s.var y with
    | none => simp [step, hx, hy, Agrees, apply, et, i.dead hy]
    | some p' =>
      obtain ⟨t', et', _⟩ := i.alive hy
      rcases i.at hx et path with ⟨e₁, e₂⟩ | ⟨a, w, qs, ks, Fk, Fo, e₁, e₂, e₃, e₄, e₅, e₆, e₇, e₈⟩
      · simp [step, hx, hy, e₁, Agrees, apply, et, et', e₂]
      · simp only [step, hx, hy, e₁]
        cases hj : qs[j]? with
        | none =>
          have : ¬ j < ks.length := by
            rw [e₄.length]; rw [List.getElem?_eq_none_iff] at hj; omega
          simp [Agrees, apply, et, et', e₂, Tree.kids, this]
        | some k =>
          have hlt : j < ks.length := by
            rw [e₄.length]
            by_contra hx
            rw [List.getElem?_eq_none (by omega)] at hj
            cases hj
          have happ : apply σ (.assignAt x path j y q) =
              some (σ.set x (some (replace t path (.node w (ks.set j t'))))) := by
            simp [apply, et, et', e₂, Tree.val, Tree.kids, hlt]
          have hd := e₆
          simp only [List.nodup_cons, List.mem_append, List.nodup_append, not_or] at hd
          dsimp only
          simp only [withCopy]
          rcases i.clone hy q with ⟨h', e, r, hq⟩ | ⟨t₁, p₁, h', q', F', et₁, e, r, _, d, b₁, b₂, b₃, hf, hdis, hfr⟩
          · rw [e]
            exact ⟨by rw [happ]; rfl, r, hq⟩
          · rw [e]
            simp only [withReset]
            have e1 : t₁ = t' := by rw [et'] at et₁; exact (Option.some.inj et₁).symm
            subst e1
            obtain ⟨tk, Fi, Fr, etk, hrk, hpk, H⟩ := e₄.split hj
            have hax : a ∈ fp x := e₅.symm.subset (by simp)
            have haF : a ∉ F' := hdis x a hax
            have hkx : ∀ b ∈ Fk, b ∈ fp x := fun b hb => e₅.symm.subset (by simp [hb])
            have hox : ∀ b ∈ Fo, b ∈ fp x := fun b hb => e₅.symm.subset (by simp [hb])
            have hik : ∀ b ∈ Fi, b ∈ Fk := fun b hb => hpk.symm.subset (by simp [hb])
            have hrk' : ∀ b ∈ Fr, b ∈ Fk := fun b hb => hpk.symm.subset (by simp [hb])
            have hdk := hpk.nodup_iff.1 hd.2.1
            rw [List.nodup_append] at hdk
            have hlen : Fi.length ≤ h'.next :=
              length_le_of_lt hdk.1 fun b hb => Nat.lt_of_lt_of_le (i.lt (hkx b (hik b hb))) b₃
            obtain ⟨h'', e', n', f', g'⟩ := destroyList_spec
              (hrk.frame (c' := h'.cell) fun b hb => hfr x b (hkx b (hik b hb))) hdk.1 hlen (h := h') (fun _ _ => rfl)
            rw [e']
            have hai : a ∉ Fi := fun h => hd.1.1 (hik a h)
            obtain ⟨K, hK, hrK⟩ := H (h''.put a (.live ⟨w, qs.set j p₁⟩)).cell p₁ t₁ F' (fun b hb => by
                have hne : b ≠ a := fun e => hd.1.1 (hrk' a (e ▸ hb))
                have hbi : b ∉ Fi := fun h => hdk.2.2 b h b hb rfl
                simp [Heap.put, Function.update_of_ne hne, g' b hbi, hfr x b (hkx b (hrk' b hb))])
              (r.frame fun b hb => by
                have hne : b ≠ a := fun e => haF (e ▸ hb)
                have hbi : b ∉ Fi := fun h => hdis x b (hkx b (hik b h)) hb
                simp [Heap.put, Function.update_of_ne hne, g' b hbi])
            obtain ⟨G, hG, hR⟩ := e₈ _ w _ _ K
              (fun b hb => by
                have hbi : b ∉ Fi := fun h => hd.2.2.2 b (hik b h) b hb rfl
                simp [Heap.put, Function.update_of_ne (show b ≠ a from fun e => hd.1.2 (e ▸ hb)), g' b hbi,
                  hfr x b (hox b hb)])
              (by simp [Heap.put]) hrK
            refine ⟨_, happ, i.updateAt hx e₅ e₆ hG hR ?_ ?_ ?_ ?_ ?_⟩
            · rw [hK.nodup_iff, List.nodup_append]
              exact ⟨d, hdk.2.1, fun b hb b' hb' e => by subst e; exact hdis x b (hkx b (hrk' b hb')) hb⟩
            · intro b hb
              have := hK.subset hb
              simp only [List.mem_append] at this
              exact this.elim (fun h => .inr (b₁ b h).1) fun h => .inl (hrk' b h)
            · intro b hb hbk hbK
              have hbF : b ∉ F' := fun h => hbK (hK.symm.subset (by simp [h]))
              have hbi : b ∉ Fi := fun h => hbk (hik b h)
              simp [Heap.put, Function.update_of_ne hb, g' b hbi, b₂ b hbF]
            · intro b hb hbK
              have hne : b ≠ a := fun e => hd.1.1 (e ▸ hb)
              have := hpk.subset hb
              simp only [List.mem_append] at this
              rcases this with h | h
              · simp [Heap.put, Function.update_of_ne hne, f' b h]
              · exact absurd (hK.symm.subset (by simp [h])) hbK
            · intro b hb
              have := i.lt hax
              simp only [Heap.put] at hb ⊢
              rw [n'] at hb
              rw [Function.update_of_ne (by omega)]
              by_cases hbi : b ∈ Fi
              · exact f' b hbi
              · rw [g' b hbi, hf b hb]

/-- Moving a member out of the object that holds it, into that object's own owner, is never completed. -/
theorem take_self {c : ℕ → Cell V} {nx : ℕ} {path : List ℕ} {p : Ptr} {t F} (h : Rep c [p] [t] F) (hd : F.Nodup)
    {a : ℕ} {o : Obj V} (hn : nav c p path = some (a, o)) {j : ℕ} (hj : j < o.kids.length) {n : ℕ} {u : Unit}
    {h' : Heap V} {q : Quota} :
    destroyList n (Heap.put ⟨c, nx⟩ a (.live { o with kids := o.kids.set j p })) [p] ≠ .ok u h' q := by
  intro e
  obtain ⟨ts, F', hr, hd', _⟩ := destroyList_rep (q := q) (h' := h') e
  have hnav := nav_put (c' := (Heap.put ⟨c, nx⟩ a (.live { o with kids := o.kids.set j p })).cell) h hd hn
    (fun b hb => by simp [Heap.put, Function.update_of_ne hb]) (by simp [Heap.put]; rfl)
  have hts : ∃ t', ts = [t'] := by
    have := hr.length
    match ts, this with
    | [t'], _ => exact ⟨t', rfl⟩
  obtain ⟨t', rfl⟩ := hts
  rcases hr.nav (path := path) with ⟨e₁, _⟩ | ⟨a', v, qs, ks, Fk, Fo, e₁, _, _, e₄, e₅, ⟨r, rfl, hr'⟩, _⟩
  · rw [hnav] at e₁; cases e₁
  · rw [hnav] at e₁
    simp only [Option.some.injEq, Prod.mk.injEq, Obj.mk.injEq] at e₁
    obtain ⟨rfl, rfl, rfl⟩ := e₁
    obtain ⟨_, Fi, Fr, _, hri, hp, _⟩ := e₄.split (i := j) (p := some r) (by simp [hj])
    have hri' : r ∈ Fi := by cases hri with | obj => simp
    have hrk : r ∈ Fk := hp.symm.subset (by simp [hri'])
    have := e₅.nodup_iff.1 hd'
    simp only [List.nodup_cons, List.mem_append, List.nodup_append, not_or] at this
    rcases hr' with rfl | hr'
    · exact this.1.1 hrk
    · exact this.2.2.2 r hrk r hr' rfl

theorem step_takeAt {s : State V} {σ fp} (i : Inv s σ fp) (x y : ℕ) (path : List ℕ) (j : ℕ) :
    Agrees σ (.takeAt x y path j) (step s (.takeAt x y path j)) := by
  cases hx : s.var x with
  | none => simp [step, hx, Agrees, apply, i.dead hx]
  | some p =>
    obtain ⟨t, et, hrx⟩ := i.alive hx
    cases hy : s.var y with
    | none => simp [step, hx, hy, Agrees, apply, et, i.dead hy]
    | some p' =>
      obtain ⟨t', et', hry⟩ := i.alive hy
      rcases i.at hy et' path with ⟨e₁, e₂⟩ | ⟨a, w, qs, ks, Fk, Fo, e₁, e₂, e₃, e₄, e₅, e₆, e₇, e₈⟩
      · simp [step, hx, hy, e₁, Agrees, apply, et, et', e₂]
      · simp only [step, hx, hy, e₁]
        cases hj : qs[j]? with
        | none =>
          have : ks[j]? = none := by
            rw [List.getElem?_eq_none_iff, e₄.length, ← List.getElem?_eq_none_iff, hj]
          simp [Agrees, apply, et, et', e₂, Tree.kids, this]
        | some k =>
          obtain ⟨tk, Fi, Fr, etk, hrk, hpk, H⟩ := e₄.split hj
          have hlt : j < qs.length := by
            by_contra hx
            rw [List.getElem?_eq_none (by omega)] at hj
            cases hj
          cases k with
          | none =>
            obtain rfl : tk = none := hrk.none_iff.1 rfl
            obtain ⟨h', e, _, _, _, _, r⟩ := i.reset hx
            simp only [withReset, e]
            exact ⟨_, by simp [apply, et, et', e₂, Tree.kids, etk], r⟩
          | some b =>
            have : ∃ tk', tk = some tk' := by
              cases tk with
              | none => exact absurd (hrk.none_iff.2 rfl) (by simp)
              | some tk' => exact ⟨tk', rfl⟩
            obtain ⟨tk', rfl⟩ := this
            dsimp only
            by_cases hxy : x = y
            · subst hxy
              have hp : p' = p := by rw [hx] at hy; exact (Option.some.inj hy).symm
              subst hp
              have hno := fun n u h' q => take_self (nx := s.heap.next) (n := n) (u := u) (h' := h') (q := q)
                hry (i.nodup x) e₁ hlt
              have : apply σ (.takeAt x x path j) = none := by simp [apply, et', e₂, Tree.kids, etk]
              cases hdl : destroyList (s.heap.put a (.live { val := w, kids := qs.set j p' })).next
                  (s.heap.put a (.live { val := w, kids := qs.set j p' })) [p'] with
              | ok u h' q => exact absurd hdl (hno _ _ _ _)
              | throw h' => exact this
              | ub => exact this
              | fuel => exact this
            · have happ : apply σ (.takeAt x y path j) = some
                  ((σ.set y (some (replace t' path (.node w (ks.set j none))))).set x (some (some tk'))) := by
                simp [apply, et, et', e₂, Tree.val, Tree.kids, etk, hxy]
              have hyx : y ≠ x := fun e => hxy e.symm
              have hd := e₆
              simp only [List.nodup_cons, List.mem_append, List.nodup_append, not_or] at hd
              have hay : a ∈ fp y := e₅.symm.subset (by simp)
              have hax : a ∉ fp x := i.disj y x hyx a hay
              have hky : ∀ b ∈ Fk, b ∈ fp y := fun b hb => e₅.symm.subset (by simp [hb])
              have hoy : ∀ b ∈ Fo, b ∈ fp y := fun b hb => e₅.symm.subset (by simp [hb])
              have hik : ∀ b ∈ Fi, b ∈ Fk := fun b hb => hpk.symm.subset (by simp [hb])
              have hrk' : ∀ b ∈ Fr, b ∈ Fk := fun b hb => hpk.symm.subset (by simp [hb])
              have hdk := hpk.nodup_iff.1 hd.2.1
              rw [List.nodup_append] at hdk
              obtain ⟨h₂, e, n₂, f₂, g₂⟩ := destroyList_spec hrx (i.nodup x) (i.len x)
                (h := s.heap.put a (.live { val := w, kids := qs.set j p })) (fun b hb => by
                  simp [Heap.put, Function.update_of_ne (show b ≠ a from fun e => hax (e ▸ hb))])
              have e' : destroyList (s.heap.put a (.live { val := w, kids := qs.set j p })).next
                  (s.heap.put a (.live { val := w, kids := qs.set j p })) [p] = .ok () h₂ none := e
              rw [e']
              have hcell : h₂.cell a = .live ⟨w, qs.set j p⟩ := by
                rw [g₂ a hax]; simp [Heap.put]
              dsimp only
              rw [hcell]
              simp only [List.set_set]
              refine ⟨_, happ, ?_⟩
              have hoff : ∀ b, b ≠ a → b ∉ fp x →
                  (h₂.put a (.live ⟨w, qs.set j none⟩)).cell b = s.heap.cell b := by
                intro b hb hbx
                simp only [Heap.put, Function.update_of_ne hb]
                rw [g₂ b hbx]
                simp [Heap.put, Function.update_of_ne hb]
              have hyoff : ∀ b ∈ fp y, b ≠ a →
                  (h₂.put a (.live ⟨w, qs.set j none⟩)).cell b = s.heap.cell b :=
                fun b hb hne => hoff b hne (i.disj y x hyx b hb)
              obtain ⟨K, hK, hrK⟩ := H (h₂.put a (.live ⟨w, qs.set j none⟩)).cell none none []
                (fun b hb => hyoff b (hky b (hrk' b hb)) fun e => hd.1.1 (hrk' a (e ▸ hb))) (.null .nil)
              simp only [List.nil_append] at hK
              obtain ⟨G, hG, hR⟩ := e₈ _ w _ _ K
                (fun b hb => hyoff b (hoy b hb) fun e => hd.1.2 (e ▸ hb)) (by simp [Heap.put]) hrK
              have hRi : Rep (h₂.put a (.live ⟨w, qs.set j none⟩)).cell [some b] [some tk'] Fi :=
                hrk.frame fun b hb => hyoff b (hky b (hik b hb)) fun e => hd.1.1 (hik a (e ▸ hb))
              have hGy : ∀ b ∈ G, b ∈ fp y ∧ b ∉ Fi := by
                intro b hb
                have := hG.subset hb
                simp only [List.mem_cons, List.mem_append] at this
                rcases this with rfl | h | h
                · exact ⟨hay, fun h => hd.1.1 (hik _ h)⟩
                · have := hK.subset h
                  exact ⟨hky b (hrk' b this), fun h' => hdk.2.2 b h' b this rfl⟩
                · exact ⟨hoy b h, fun h' => hd.2.2.2 b (hik b h') b h rfl⟩
              have hGd : G.Nodup := by
                rw [hG.nodup_iff]
                simp only [List.nodup_cons, List.mem_append, List.nodup_append, not_or]
                refine ⟨⟨fun h => hd.1.1 (hrk' a (hK.subset h)), hd.1.2⟩, hK.nodup_iff.2 hdk.2.1, hd.2.2.1,
                  fun b hb b' hb' e => hd.2.2.2 b (hrk' b (hK.subset hb)) b' hb' e⟩
              have hyG : ∀ b ∈ fp y, b ∈ G ∨ b ∈ Fi := by
                intro b hb
                have := e₅.subset hb
                simp only [List.mem_cons, List.mem_append] at this
                rcases this with rfl | h | h
                · exact .inl (hG.symm.subset (by simp))
                · have := hpk.subset h
                  simp only [List.mem_append] at this
                  rcases this with h | h
                  · exact .inr h
                  · exact .inl (hG.symm.subset (by simp [hK.symm.subset h]))
                · exact .inl (hG.symm.subset (by simp [h]))
              refine ⟨Function.update (Function.update fp y G) x Fi, ?_, ?_, ?_, ?_, ?_⟩
              · intro z
                by_cases hzx : z = x
                · subst hzx
                  simpa [State.setVar, Store.set] using VRep.alive hRi
                · by_cases hzy : z = y
                  · subst hzy
                    simpa [State.setVar, Store.set, hzx, hy] using VRep.alive hR
                  · simpa [State.setVar, Store.set, hzx, hzy] using (i.rep z).frame fun b hb =>
                      hoff b (fun e => i.disj y z (fun e => hzy e.symm) a hay (e ▸ hb)) (i.disj z x hzx b hb)
              · intro z
                by_cases hzx : z = x
                · subst hzx; simpa using hdk.1
                · by_cases hzy : z = y
                  · subst hzy; simpa [hzx] using hGd
                  · simpa [hzx, hzy] using i.nodup z
              · have hown : ∀ z, z ≠ x → ∀ b ∈ Function.update (Function.update fp y G) x Fi z, b ∈ fp z ∧ b ∉ Fi := by
                  intro z hzx b hb
                  by_cases hzy : z = y
                  · subst hzy
                    simp only [Function.update_of_ne hzx, Function.update_self] at hb
                    exact hGy b hb
                  · simp only [Function.update_of_ne hzx, Function.update_of_ne hzy] at hb
                    exact ⟨hb, fun h => i.disj z y hzy b hb (hky b (hik b h))⟩
                intro z z' hzz b hb hb'
                by_cases hzx : z = x
                · subst hzx
                  simp only [Function.update_self] at hb
                  exact (hown z' (fun e => hzz e.symm) b hb').2 hb
                · by_cases hzx' : z' = x
                  · subst hzx'
                    simp only [Function.update_self] at hb'
                    exact (hown z hzx b hb).2 hb'
                  · exact i.disj z z' hzz b (hown z hzx b hb).1 (hown z' hzx' b hb').1
              · intro b hb
                by_cases hbi : b ∈ Fi
                · exact ⟨x, by simpa using hbi⟩
                · by_cases hbG : b ∈ G
                  · exact ⟨y, by simpa [hyx] using hbG⟩
                  · have hba : b ≠ a := fun e => hbG (hG.symm.subset (by simp [e]))
                    by_cases hbx : b ∈ fp x
                    · exfalso
                      apply hb
                      simp [State.setVar, Heap.put, Function.update_of_ne hba, f₂ b hbx]
                    · have hb' : s.heap.cell b ≠ .free := by
                        rw [← hoff b hba hbx]; exact hb
                      obtain ⟨z, hz⟩ := i.noleak b hb'
                      have hzx : z ≠ x := fun e => hbx (e ▸ hz)
                      have hzy : z ≠ y := fun e => by
                        subst e
                        rcases hyG b hz with h | h
                        · exact hbG h
                        · exact hbi h
                      exact ⟨z, by simpa [hzx, hzy] using hz⟩
              · intro b hb
                have ha := i.lt hay
                simp only [State.setVar, Heap.put] at hb ⊢
                rw [n₂] at hb
                simp only [Heap.put] at hb
                rw [Function.update_of_ne (by omega)]
                by_cases hbx : b ∈ fp x
                · exact f₂ b hbx
                · rw [g₂ b hbx]
                  simp only [Heap.put]
                  rw [Function.update_of_ne (by omega), i.fresh b hb]

/-- Every statement, from every memory that represents a store. -/
theorem step_agrees {s : State V} {σ : Store V} (h : R s σ) (op : Op V) : Agrees σ op (step s op) := by
  obtain ⟨fp, i⟩ := h
  cases op with
  | make x v ys q => exact step_make i x v ys q
  | copy x y q => exact step_copy i x y q
  | move x y => exact step_move i x y
  | assign x y q => exact step_assign i x y q
  | moveAssign x y => exact step_moveAssign i x y
  | swap x y => exact step_swap i x y
  | destroy x => exact step_destroy i x
  | write x path v => exact step_write i x path v
  | assignAt x path j y q => exact step_assignAt i x path j y q
  | pushAt x path y q => exact step_pushAt i x path y q
  | takeAt x y path j => exact step_takeAt i x y path j

theorem init_R : R (State.init (V := V)) (fun _ => none) :=
  ⟨fun _ => [], fun _ => .dead, by simp, by simp, by simp [State.init], by simp [State.init]⟩

end Aligator.Poly
