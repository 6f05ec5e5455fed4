import Verif.Lemmas.PyObj

/-! Lemmas: every statement does what the specification says. -/

namespace Aligator.PyObj

variable {V B G : Type} {σ : Spec.Store V B} {s : State V B}

def isStale (σ : Spec.Store V B) (p : ℕ) : Prop := ∃ o, σ.obj p = some o ∧ o.stale = true

def seenOf (σ : Spec.Store V B) (c p : ℕ) : Prop := σ.prob c = some ⟨p, true⟩

/-- Same names, same attributes, same C++ parts. -/
structure Pre (σ : Spec.Store V B) (s : State V B) : Prop where
  vars : σ.vars = s.vars
  obj : ∀ p I, s.inst p = some I →
    ∃ o, σ.obj p = some o ∧ o.attrs = I.attrs ∧ ∀ W, s.wrap I.held.target = some W → W.base = o.base
  prob : ∀ c X W, s.box c = some X → s.wrap X.slot = some W → ∃ b, σ.prob c = some ⟨W.self, b⟩
  life : ∀ c q, σ.prob c = some ⟨q, false⟩ → (q, c) ∉ s.life
  objLt : ∀ p, s.next ≤ p → σ.obj p = none
  probLt : ∀ p, s.next ≤ p → σ.prob p = none

structure Rel (σ : Spec.Store V B) (s : State V B) : Prop where
  inv : Inv (isStale σ) (seenOf σ) s []
  pre : Pre σ s

theorem Pre.frame {s' : State V B} (h : Pre σ s) (f : Frame s s') : Pre σ s' := by
  refine ⟨h.vars.trans f.vars.symm, fun p I hI => ?_, fun c X W hX hW => ?_, fun c q hc e => h.life c q hc (f.life _ e),
    fun p hp => h.objLt p (f.next ▸ hp), fun p hp => h.probLt p (f.next ▸ hp)⟩
  · obtain ⟨J, e₁, e₂, e₃⟩ := f.inst p I hI
    obtain ⟨o, e₄, e₅, e₆⟩ := h.obj p J e₁
    exact ⟨o, e₄, e₅.trans e₂.symm, fun W hW => e₆ W (e₃ ▸ f.wrap _ _ hW)⟩
  · obtain ⟨Y, e₁, e₂⟩ := f.box c X hX
    exact h.prob c Y W e₁ (e₂ ▸ f.wrap _ _ hW)

theorem Rel.init (n : ℕ) : Rel (Spec.Store.init n : Spec.Store V B) (State.init n) := by
  have hm : ∀ r : Ref, some r ∉ (State.init n : State V B).vars := by
    intro r; simp [State.init, List.mem_replicate]
  refine ⟨?_, ⟨rfl, ?_, ?_, ?_, ?_, ?_⟩⟩
  · constructor <;> simp [State.init, isStale, seenOf, Spec.Store.init, List.mem_replicate]
  all_goals simp [State.init, Spec.Store.init]

/-- The object of a name. -/
theorem Rel.theObj (h : Rel σ s) (x : ℕ) :
    match s.obj x with
    | none => σ.theObj x = none
    | some (p, I) => ∃ o, σ.theObj x = some (p, o) ∧ σ.obj p = some o ∧ o.attrs = I.attrs ∧ s.inst p = some I ∧
        some (.obj p) ∈ s.vars ∧ (s.part I = none ∧ o.stale = true ∨
          ∃ W, s.part I = some W ∧ W.base = o.base ∧ o.stale = false ∧ W.self = p) := by
  unfold State.obj Spec.Store.theObj Spec.Store.name
  rw [h.pre.vars]
  cases hv : (s.vars[x]?).join with
  | none => rfl
  | some r =>
    cases r with
    | prob c => rfl
    | obj p =>
      have hm : some (Ref.obj p) ∈ s.vars := List.mem_of_getElem? (Option.join_eq_some_iff.1 hv)
      obtain ⟨I, hI⟩ := Option.ne_none_iff_exists'.1 (h.inv.instVar p hm)
      obtain ⟨o, e₁, e₂, e₃⟩ := h.pre.obj p I hI
      simp only [hI, Option.map_some, e₁]
      refine ⟨o, rfl, rfl, e₂, trivial, hm, ?_⟩
      unfold State.part
      cases hh : I.held with
      | own w =>
        obtain ⟨⟨W, a₁, a₂, a₃⟩, -⟩ := h.inv.own p I w hI hh
        refine .inr ⟨W, a₁, e₃ W (by rw [hh]; exact a₁), ?_, a₂⟩
        by_contra hs
        obtain ⟨v, b₁, -⟩ := h.inv.stale2 p I ⟨o, e₁, by simpa using hs⟩ hI
        rw [hh] at b₁; cases b₁
      | ptr w =>
        cases hw : s.wrap w with
        | none =>
          left
          refine ⟨hw, ?_⟩
          obtain ⟨o', b₁, b₂⟩ := (h.inv.stale1 p I w hI hh hw).resolve_right (fun k => k hm)
          rw [e₁] at b₁; cases b₁; exact b₂
        | some W =>
          refine .inr ⟨W, hw, e₃ W (by rw [hh]; exact hw), ?_, (h.inv.ptr p I w W hI hh hw).1⟩
          by_contra hs
          obtain ⟨v, b₁, b₂⟩ := h.inv.stale2 p I ⟨o, e₁, by simpa using hs⟩ hI
          rw [hh] at b₁; cases b₁
          rw [hw] at b₂; simp at b₂

/-- The problem of a name. -/
theorem Rel.theProb (h : Rel σ s) (x : ℕ) :
    match s.prob x with
    | none => σ.theProb x = none
    | some (c, X) => ∃ W I o b, s.box c = some X ∧ s.wrap X.slot = some W ∧ W.owner = some W.self ∧
        s.inst W.self = some I ∧ I.held = .ptr X.slot ∧ σ.theProb x = some (c, ⟨W.self, b⟩, o) ∧
        σ.obj W.self = some o ∧ o.attrs = I.attrs ∧ W.base = o.base ∧ σ.prob c = some ⟨W.self, b⟩ := by
  unfold State.prob Spec.Store.theProb Spec.Store.name
  rw [h.pre.vars]
  cases hv : (s.vars[x]?).join with
  | none => rfl
  | some r =>
    cases r with
    | obj p => rfl
    | prob c =>
      have hm : some (Ref.prob c) ∈ s.vars := List.mem_of_getElem? (Option.join_eq_some_iff.1 hv)
      obtain ⟨X, hX⟩ := Option.ne_none_iff_exists'.1 (h.inv.boxVar c hm)
      obtain ⟨⟨W, p, a₁, a₂⟩, -⟩ := h.inv.slot c X hX
      obtain ⟨a₃, ⟨I, a₄, a₅⟩, -⟩ := h.inv.wrapOwn _ W p a₁ a₂
      subst a₃
      obtain ⟨o, e₁, e₂, e₃⟩ := h.pre.obj _ I a₄
      obtain ⟨b, e₄⟩ := h.pre.prob c X W hX a₁
      simp only [hX, Option.map_some, e₄, Option.bind_some, e₁]
      exact ⟨W, I, o, b, trivial, a₁, a₂, a₄, a₅, rfl, e₁, e₂, e₃ W (by rw [a₅]; exact a₁), rfl⟩

theorem isStale_fresh {k : ℕ} {a : Attrs V} {b : B} (hk : σ.obj k = none) (f : ℕ → Option Spec.SProb)
    (v : List (Option Ref)) :
    isStale (⟨Function.update σ.obj k (some ⟨a, b, false⟩), f, v⟩ : Spec.Store V B) = isStale σ := by
  funext p
  apply propext
  unfold isStale
  dsimp only
  rw [Function.update_apply]
  split
  · rename_i e; subst e; simp [hk]
  · rfl

theorem isStale_update {k : ℕ} {o o' : Spec.SObj V B} (hk : σ.obj k = some o) (ho : o'.stale = o.stale)
    (f : ℕ → Option Spec.SProb) (v : List (Option Ref)) :
    isStale (⟨Function.update σ.obj k (some o'), f, v⟩ : Spec.Store V B) = isStale σ := by
  funext p
  apply propext
  unfold isStale
  dsimp only
  rw [Function.update_apply]
  split
  · rename_i e; subst e; simp [hk, ho]
  · rfl

theorem seenOf_fresh {k c : ℕ} (hc : σ.prob c = none) (f : ℕ → Option (Spec.SObj V B)) (v : List (Option Ref)) :
    seenOf (⟨f, Function.update σ.prob c (some ⟨k, false⟩), v⟩ : Spec.Store V B) = seenOf σ := by
  funext d p
  apply propext
  unfold seenOf
  dsimp only
  rw [Function.update_apply]
  split
  · rename_i e; subst e; simp [hc]
  · rfl

/-- Making an instance and binding it to a name. -/
theorem Rel.new (h : Rel σ s) {x : ℕ} (hx : x < s.vars.length) (a : Attrs V) (b : B) :
    ∃ s', store (s.create a b) x (some (.obj (s.next + 1))) = .ok () s' ∧
      Rel ⟨Function.update σ.obj (s.next + 1) (some ⟨a, b, false⟩), σ.prob, σ.vars.set x (some (.obj (s.next + 1)))⟩ s' := by
  have hk := h.pre.objLt (s.next + 1) (by omega)
  have h1 := h.inv.create (by rintro ⟨o, e, -⟩; rw [hk] at e; cases e) a b
  have hi := h.inv.instLt (s.next + 1) (by omega)
  have hw := h.inv.wrapLt s.next (by omega)
  obtain ⟨s', e₁, e₂, e₃⟩ := store_ok (r := some (.obj (s.next + 1))) h1 hx (by
    rintro p I w ⟨⟩ hI hh
    simp [State.create] at hI
    subst hI
    cases hh)
  refine ⟨s', e₁, ?_, Pre.frame ?_ e₃⟩
  · rw [isStale_fresh hk]; exact e₂
  · refine ⟨by rw [h.pre.vars]; rfl, fun p I hI => ?_, fun c X W hX hW => ?_, h.pre.life, fun p hp => ?_, fun p hp => ?_⟩
    · dsimp only [State.create] at hI ⊢
      rw [Function.update_apply] at hI ⊢
      split at hI
      · rename_i e
        rw [if_pos e]
        cases hI
        refine ⟨_, rfl, rfl, fun W hW => ?_⟩
        simp [Held.target] at hW
        rw [← hW]
      · rename_i e
        rw [if_neg e]
        obtain ⟨o, a₁, a₂, a₃⟩ := h.pre.obj p I hI
        refine ⟨o, a₁, a₂, fun W hW => a₃ W ?_⟩
        rw [Function.update_of_ne] at hW
        · exact hW
        · have := h.inv.heldLt p I hI; omega
    · dsimp only [State.create] at hX hW ⊢
      refine h.pre.prob c X W hX ?_
      obtain ⟨⟨U, q, a₁, a₂⟩, -⟩ := h.inv.slot c X hX
      rw [Function.update_of_ne] at hW
      · exact hW
      · rintro e; rw [e, hw] at a₁; cases a₁
    · dsimp only [State.create] at hp ⊢
      rw [Function.update_of_ne (by omega)]
      exact h.pre.objLt p (by omega)
    · dsimp only [State.create] at hp ⊢
      exact h.pre.probLt p (by omega)

/-- Making a problem and binding it to a name. -/
theorem Rel.newBox (h : Rel σ s) {x t p m : ℕ} (hx : x < s.vars.length) (a : Attrs V) (b : B) (ht : s.next ≤ t)
    (hp : s.next ≤ p) (htm : t < m) (hpm : p < m) :
    ∃ s', store { s with
        wrap := Function.update s.wrap t (some ⟨b, p, some p⟩)
        inst := Function.update s.inst p (some ⟨a, .ptr t, 1⟩)
        box := Function.update s.box m (some ⟨t, 1⟩)
        next := m + 1 } x (some (.prob m)) = .ok () s' ∧
      Rel ⟨Function.update σ.obj p (some ⟨a, b, false⟩), Function.update σ.prob m (some ⟨p, false⟩),
        σ.vars.set x (some (.prob m))⟩ s' := by
  have hk := h.pre.objLt p hp
  have hc := h.pre.probLt m (by omega)
  have h1 := h.inv.newBox (t := t) (p := p) (c := m) (m := m + 1) (a := a) (b := b)
    (by rintro ⟨o, e, -⟩; rw [hk] at e; cases e) ht hp (by omega) (by omega) (by omega) (by omega)
  have hi := h.inv.instLt p hp
  have hw := h.inv.wrapLt t ht
  have hb := h.inv.boxLt m (by omega)
  obtain ⟨s', e₁, e₂, e₃⟩ := store_ok (r := some (.prob m)) h1 hx (by rintro p I w ⟨⟩)
  refine ⟨s', e₁, ?_, Pre.frame ?_ e₃⟩
  · rw [isStale_fresh hk, show seenOf _ = seenOf σ from seenOf_fresh hc _ _]; exact e₂
  · refine ⟨by rw [h.pre.vars], fun q I hI => ?_, fun c X W hX hW => ?_, fun c q hc' hl => ?_, fun q hq => ?_, fun q hq => ?_⟩
    · dsimp only at hI ⊢
      rw [Function.update_apply] at hI ⊢
      split at hI
      · rename_i e
        rw [if_pos e]
        cases hI
        refine ⟨_, rfl, rfl, fun W hW => ?_⟩
        simp [Held.target] at hW
        rw [← hW]
      · rename_i e
        rw [if_neg e]
        obtain ⟨o, a₁, a₂, a₃⟩ := h.pre.obj q I hI
        refine ⟨o, a₁, a₂, fun W hW => a₃ W ?_⟩
        rw [Function.update_of_ne] at hW
        · exact hW
        · have := h.inv.heldLt q I hI; omega
    · dsimp only at hX hW ⊢
      rw [Function.update_apply] at hX ⊢
      split at hX
      · rename_i e
        rw [if_pos e]
        cases hX
        simp at hW
        rw [← hW]
        exact ⟨false, rfl⟩
      · rename_i e
        rw [if_neg e]
        refine h.pre.prob c X W hX ?_
        obtain ⟨⟨U, q, a₁, a₂⟩, -⟩ := h.inv.slot c X hX
        rw [Function.update_of_ne] at hW
        · exact hW
        · rintro e; rw [e, hw] at a₁; cases a₁
    · dsimp only at hc' hl
      rw [Function.update_apply] at hc'
      split at hc'
      · rename_i e
        cases hc'
        exact h.inv.boxLife _ _ hl (e ▸ hb)
      · exact h.pre.life c q hc' hl
    · dsimp only at hq ⊢
      rw [Function.update_of_ne (by omega)]
      exact h.pre.objLt q (by omega)
    · dsimp only at hq ⊢
      rw [Function.update_of_ne (by omega)]
      exact h.pre.probLt q (by omega)

/-- The object of a problem is replaced. -/
theorem Rel.assign (h : Rel σ s) {t p c m : ℕ} {X : Box} {W : Wrap B} {o : Spec.SObj V B} {u : Bool} (a : Attrs V) (b : B)
    (ht : s.next ≤ t) (hp : s.next ≤ p) (htm : t < m) (hpm : p < m) (hX : s.box c = some X)
    (hW : s.wrap X.slot = some W) (ho : σ.obj W.self = some o) (hc : σ.prob c = some ⟨W.self, u⟩) :
    ∃ s', release (State.fuel { s with next := m }) { s with
        wrap := Function.update s.wrap t (some ⟨b, p, some p⟩)
        inst := Function.update s.inst p (some ⟨a, .ptr t, 1⟩)
        box := Function.update s.box c (some { X with slot := t })
        next := m } [.wrap X.slot] = .ok () s' ∧
      Rel { σ with
        obj := Function.update (Function.update σ.obj W.self (some { o with stale := true })) p (some ⟨a, b, false⟩)
        prob := Function.update σ.prob c (some ⟨p, false⟩) } s' := by
  have hk := h.pre.objLt p hp
  have h1 := h.inv.assign (t := t) (p := p) (c := c) (m := m) (a := a) (b := b)
    (by rintro ⟨o, e, -⟩; rw [hk] at e; cases e) ht hp (by omega) (by omega) hX hW
  have hi := h.inv.instLt p hp
  have hw := h.inv.wrapLt t ht
  have hne : W.self ≠ p := by rintro e; rw [e, hk] at ho; cases ho
  obtain ⟨s', e₁, e₂, e₃, -⟩ := release_ok (State.fuel { s with next := m }) [.wrap X.slot] _ [] h1
    (State.alive_lt { s with
        wrap := Function.update s.wrap t (some ⟨b, p, some p⟩)
        inst := Function.update s.inst p (some ⟨a, .ptr t, 1⟩)
        box := Function.update s.box c (some { X with slot := t })
        next := m })
  refine ⟨s', e₁, ?_, Pre.frame ?_ e₃⟩
  · have s1 : isStale ({ σ with
        obj := Function.update (Function.update σ.obj W.self (some { o with stale := true })) p (some ⟨a, b, false⟩)
        prob := Function.update σ.prob c (some ⟨p, false⟩) } : Spec.Store V B) = fun q => isStale σ q ∨ q = W.self := by
      funext q
      apply propext
      unfold isStale
      dsimp only
      simp only [Function.update_apply]
      by_cases h1 : q = p
      · subst h1; simp [hk, Ne.symm hne]
      · by_cases h2 : q = W.self
        · subst h2; simp [hne]
        · simp [h1, h2]
    have s2 : seenOf ({ σ with
        obj := Function.update (Function.update σ.obj W.self (some { o with stale := true })) p (some ⟨a, b, false⟩)
        prob := Function.update σ.prob c (some ⟨p, false⟩) } : Spec.Store V B) = fun d q => d ≠ c ∧ seenOf σ d q := by
      funext d q
      apply propext
      unfold seenOf
      dsimp only
      simp only [Function.update_apply]
      by_cases h1 : d = c
      · subst h1; simp
      · simp [h1]
    rw [s1, s2]; exact e₂
  · refine ⟨by rw [h.pre.vars], fun q I hI => ?_, fun d Y U hY hU => ?_, fun d q hc' hl => ?_, fun q hq => ?_, fun q hq => ?_⟩
    · dsimp only at hI ⊢
      simp only [Function.update_apply] at hI ⊢
      split at hI
      · rename_i e
        rw [if_pos e]
        cases hI
        refine ⟨_, rfl, rfl, fun W hW => ?_⟩
        simp [Held.target] at hW
        rw [← hW]
      · rename_i e
        rw [if_neg e]
        obtain ⟨o', a₁, a₂, a₃⟩ := h.pre.obj q I hI
        have a₄ : ∀ W', (if I.held.target = t then some ⟨b, p, some p⟩ else s.wrap I.held.target) = some W' →
            W'.base = o'.base := fun W' hW' => a₃ W' (by
          rw [if_neg] at hW'
          · exact hW'
          · have := h.inv.heldLt q I hI; omega)
        split
        · rename_i e'
          rw [e', ho] at a₁; cases a₁
          exact ⟨_, rfl, a₂, a₄⟩
        · exact ⟨o', a₁, a₂, a₄⟩
    · dsimp only at hY hU ⊢
      rw [Function.update_apply] at hY ⊢
      split at hY
      · rename_i e
        rw [if_pos e]
        cases hY
        simp at hU
        rw [← hU]
        exact ⟨false, rfl⟩
      · rename_i e
        rw [if_neg e]
        refine h.pre.prob d Y U hY ?_
        obtain ⟨⟨U, q, a₁, a₂⟩, -⟩ := h.inv.slot d Y hY
        rw [Function.update_of_ne] at hU
        · exact hU
        · rintro e; rw [e, hw] at a₁; cases a₁
    · dsimp only at hc' hl
      rw [Function.update_apply] at hc'
      split at hc'
      · cases hc'
        obtain ⟨J, w, b₁, -⟩ := h.inv.lifeInst _ _ hl
        rw [hi] at b₁; cases b₁
      · exact h.pre.life d q hc' hl
    · dsimp only at hq ⊢
      rw [Function.update_of_ne (by omega), Function.update_of_ne]
      · exact h.pre.objLt q (by omega)
      · rintro e; rw [← e, h.pre.objLt q (by omega)] at ho; cases ho
    · dsimp only at hq ⊢
      rw [Function.update_of_ne]
      · exact h.pre.probLt q (by omega)
      · rintro e; rw [← e, h.pre.probLt q (by omega)] at hc; cases hc

/-- Only attributes and C++ content change. -/
theorem Rel.update (h : Rel σ s) {p : ℕ} {o : Spec.SObj V B} {I : Inst V} (ho : σ.obj p = some o) (hI : s.inst p = some I)
    (a : Attrs V) : Rel { σ with obj := Function.update σ.obj p (some { o with attrs := a }) }
      { s with inst := Function.update s.inst p (some { I with attrs := a }) } := by
  refine ⟨?_, h.pre.vars, fun q J hJ => ?_, h.pre.prob, h.pre.life, fun q hq => ?_, h.pre.probLt⟩
  · rw [isStale_update (o' := { o with attrs := a }) ho rfl]
    refine h.inv.congr rfl rfl le_rfl rfl (fun q => ?_) fun q => rfl
    dsimp only
    rw [Function.update_apply]
    split
    · rename_i e; subst e; simp [hI]
    · rfl
  · dsimp only at hJ ⊢
    rw [Function.update_apply] at hJ ⊢
    split at hJ
    · rename_i e
      subst e
      rw [if_pos rfl]
      cases hJ
      obtain ⟨o', a₁, a₂, a₃⟩ := h.pre.obj q I hI
      rw [ho] at a₁; cases a₁
      exact ⟨_, rfl, rfl, a₃⟩
    · rename_i e
      rw [if_neg e]
      exact h.pre.obj q J hJ
  · dsimp only at hq ⊢
    have := h.pre.objLt q hq
    rw [Function.update_of_ne]
    · exact this
    · rintro rfl; rw [this] at ho; cases ho

theorem Rel.base (h : Rel σ s) {p : ℕ} {o : Spec.SObj V B} {I : Inst V} {W : Wrap B} (ho : σ.obj p = some o)
    (hI : s.inst p = some I) (hW : s.wrap I.held.target = some W) (hs : W.self = p) (b : B) :
    Rel { σ with obj := Function.update σ.obj p (some { o with base := b }) }
      { s with wrap := Function.update s.wrap I.held.target (some { W with base := b }) } := by
  refine ⟨?_, h.pre.vars, fun q J hJ => ?_, fun c X U hX hU => ?_, h.pre.life, fun q hq => ?_, h.pre.probLt⟩
  · rw [isStale_update (o' := { o with base := b }) ho rfl]
    refine h.inv.congr rfl rfl le_rfl rfl (fun q => rfl) fun q => ?_
    dsimp only
    rw [Function.update_apply]
    split
    · rename_i e; rw [e]; simp [hW]
    · rfl
  · obtain ⟨o', a₁, a₂, a₃⟩ := h.pre.obj q J hJ
    dsimp only at hJ ⊢
    by_cases hq : q = p
    · subst hq
      rw [hI] at hJ; cases hJ
      rw [ho] at a₁; cases a₁
      refine ⟨_, Function.update_self _ _ _, a₂, fun U hU => ?_⟩
      rw [Function.update_self] at hU
      cases hU; rfl
    · refine ⟨o', by rw [Function.update_of_ne hq]; exact a₁, a₂, fun U hU => ?_⟩
      have hx : J.held.target ≠ I.held.target := by
        intro e
        have : ∀ K : Inst V, ∀ r, s.inst r = some K → ∀ w, K.held.target = w → ∀ U, s.wrap w = some U → U.self = r := by
          intro K r hK w hw U hU
          cases hh : K.held with
          | own v =>
            rw [hh] at hw; simp only [Held.target] at hw; subst hw
            obtain ⟨⟨U', b₁, b₂, -⟩, -⟩ := h.inv.own r K v hK hh
            rw [hU] at b₁; cases b₁; exact b₂
          | ptr v =>
            rw [hh] at hw; simp only [Held.target] at hw; subst hw
            exact (h.inv.ptr r K v U hK hh hU).1
        exact hq ((this J q hJ _ e W hW).symm.trans hs)
      rw [Function.update_of_ne hx] at hU
      exact a₃ U hU
  · dsimp only at hX hU ⊢
    rw [Function.update_apply] at hU
    split at hU
    · rename_i e
      cases hU
      exact h.pre.prob c X W hX (e ▸ hW)
    · exact h.pre.prob c X U hX hU
  · dsimp only at hq ⊢
    have := h.pre.objLt q hq
    rw [Function.update_of_ne]
    · exact this
    · rintro rfl; rw [this] at ho; cases ho

/-- Binding a name to something that has a name. -/
theorem Rel.bindObj (h : Rel σ s) {x p : ℕ} {I : Inst V} (hx : x < s.vars.length) (hI : s.inst p = some I)
    (hv : some (Ref.obj p) ∈ s.vars) :
    ∃ s', store { s with inst := Function.update s.inst p (some { I with rc := I.rc + 1 }) } x (some (.obj p)) =
        .ok () s' ∧ Rel { σ with vars := σ.vars.set x (some (.obj p)) } s' := by
  have h1 := h.inv.incInst hI hv
  obtain ⟨s', e₁, e₂, e₃⟩ := store_ok (r := some (.obj p)) h1 hx (by
    rintro q J w ⟨⟩ hJ hh hw
    simp at hJ
    subst hJ
    exact (h.inv.stale1 p I w hI hh hw).resolve_right (fun k => k hv))
  refine ⟨s', e₁, e₂, Pre.frame ?_ e₃⟩
  refine ⟨by rw [h.pre.vars], fun q J hJ => ?_, h.pre.prob, h.pre.life, h.pre.objLt, h.pre.probLt⟩
  dsimp only at hJ ⊢
  rw [Function.update_apply] at hJ
  split at hJ
  · rename_i e; subst e; cases hJ; exact h.pre.obj q I hI
  · exact h.pre.obj q J hJ

theorem Rel.bindProb (h : Rel σ s) {x c : ℕ} {X : Box} (hx : x < s.vars.length) (hX : s.box c = some X) :
    ∃ s', store { s with box := Function.update s.box c (some { X with rc := X.rc + 1 }) } x (some (.prob c)) =
        .ok () s' ∧ Rel { σ with vars := σ.vars.set x (some (.prob c)) } s' := by
  have h1 := h.inv.incBox hX
  obtain ⟨s', e₁, e₂, e₃⟩ := store_ok (r := some (.prob c)) h1 hx (by rintro q J w ⟨⟩)
  refine ⟨s', e₁, e₂, Pre.frame ?_ e₃⟩
  refine ⟨by rw [h.pre.vars], h.pre.obj, fun d Y W hY hW => ?_, h.pre.life, h.pre.objLt, h.pre.probLt⟩
  dsimp only at hY hW ⊢
  rw [Function.update_apply] at hY
  split at hY
  · rename_i e; subst e; cases hY; exact h.pre.prob d X W hX hW
  · exact h.pre.prob d Y W hY hW

theorem Rel.unset (h : Rel σ s) {x : ℕ} (hx : x < s.vars.length) :
    ∃ s', store s x none = .ok () s' ∧ Rel { σ with vars := σ.vars.set x none } s' := by
  obtain ⟨s', e₁, e₂, e₃⟩ := store_ok (r := none) (show Inv _ _ s _ from h.inv) hx (by rintro q J w ⟨⟩)
  refine ⟨s', e₁, e₂, Pre.frame ?_ e₃⟩
  exact ⟨by rw [h.pre.vars], h.pre.obj, h.pre.prob, h.pre.life, h.pre.objLt, h.pre.probLt⟩

theorem Rel.read (h : Rel σ s) {x c : ℕ} {X : Box} {W : Wrap B} {I : Inst V} {b : Bool} (hx : x < s.vars.length)
    (hX : s.box c = some X) (hW : s.wrap X.slot = some W) (hI : s.inst W.self = some I)
    (hh : I.held = .ptr X.slot) (hc : σ.prob c = some ⟨W.self, b⟩) :
    ∃ s', store { s with
        inst := Function.update s.inst W.self (some { I with rc := I.rc + 1 })
        box := Function.update s.box c (some { X with rc := X.rc + 1 })
        life := (W.self, c) :: s.life } x (some (.obj W.self)) = .ok () s' ∧
      Rel { σ with
        prob := Function.update σ.prob c (some ⟨W.self, true⟩), vars := σ.vars.set x (some (.obj W.self)) } s' := by
  have h1 := h.inv.read hX hW hI
  obtain ⟨s', e₁, e₂, e₃⟩ := store_ok (r := some (.obj W.self)) h1 hx (by
    rintro q J w ⟨⟩ hJ hh' hw
    simp at hJ
    subst hJ
    dsimp only at hh'
    rw [hh] at hh'; cases hh'
    dsimp only at hw
    rw [hW] at hw; cases hw)
  refine ⟨s', e₁, ?_, Pre.frame ?_ e₃⟩
  · have s2 : seenOf ({ σ with
        prob := Function.update σ.prob c (some ⟨W.self, true⟩), vars := σ.vars.set x (some (.obj W.self)) } :
        Spec.Store V B) = fun d q => seenOf σ d q ∨ d = c ∧ q = W.self := by
      funext d q
      apply propext
      unfold seenOf
      dsimp only
      rw [Function.update_apply]
      split
      · rename_i e; subst e
        rw [hc]
        simp
        constructor
        · intro e; exact .inr e.symm
        · rintro (⟨e, -⟩ | e)
          · exact e
          · exact e.symm
      · rename_i e; simp [e]
    rw [s2]; exact e₂
  · refine ⟨by rw [h.pre.vars], fun q J hJ => ?_, fun d Y U hY hU => ?_, fun d q hd hl => ?_, h.pre.objLt, fun q hq => ?_⟩
    · dsimp only at hJ ⊢
      rw [Function.update_apply] at hJ
      split at hJ
      · rename_i e; subst e; cases hJ; exact h.pre.obj _ I hI
      · exact h.pre.obj q J hJ
    · dsimp only at hY hU ⊢
      rw [Function.update_apply] at hY ⊢
      split at hY
      · rename_i e
        rw [if_pos e]
        cases hY
        dsimp only at hU
        rw [hW] at hU; cases hU
        exact ⟨true, rfl⟩
      · rename_i e
        rw [if_neg e]
        exact h.pre.prob d Y U hY hU
    · dsimp only at hd hl
      rw [Function.update_apply] at hd
      split at hd
      · cases hd
      · rename_i e
        rcases List.mem_cons.1 hl with e' | e'
        · cases e'; exact e rfl
        · exact h.pre.life d q hd e'
    · dsimp only at hq ⊢
      have := h.pre.probLt q hq
      rw [Function.update_of_ne]
      · exact this
      · rintro rfl; rw [this] at hc; cases hc

theorem Rel.next (h : Rel σ s) {m : ℕ} (hm : s.next ≤ m) : Rel σ { s with next := m } :=
  ⟨h.inv.congr rfl rfl hm rfl (fun _ => rfl) fun _ => rfl,
    h.pre.vars, h.pre.obj, h.pre.prob, h.pre.life, fun p hp => h.pre.objLt p (hm.trans hp),
    fun p hp => h.pre.probLt p (hm.trans hp)⟩

theorem Rel.copies (h : Rel σ s) (K : Class V B G) {w : ℕ} {W : Wrap B} {I : Inst V}
    (hw : s.wrap w = some W) (hI : s.inst W.self = some I) (ht : I.held.target = w) (n : ℕ) :
    match Spec.storedBy K n I.attrs W.base with
    | none => ∃ m', s.next ≤ m' ∧ copies K n w s = .raise { s with next := m' }
    | some a' => ∃ t' p' m', s.next ≤ t' ∧ s.next ≤ p' ∧ t' < m' ∧ p' < m' ∧ PyObj.copies K n w s = .ok t' { s with
          wrap := Function.update s.wrap t' (some ⟨W.base, p', some p'⟩)
          inst := Function.update s.inst p' (some ⟨a', .ptr t', 1⟩), next := m' } :=
  copies_spec K s h.inv.instLt h.inv.wrapLt (fun e he => by
    obtain ⟨J, v, e₁, -⟩ := h.inv.lifeInst e.1 e.2 he
    by_contra hx
    rw [h.inv.instLt e.1 (by omega)] at e₁; cases e₁) hw hI ht n

/-- Every statement does what the specification says. -/
theorem step_rel (K : Class V B G) (h : Rel σ s) (op : Op V B G) :
    match step K s op with
    | .ok o s' => ∃ k c σ', σ.obj k = none ∧ σ.prob c = none ∧
        Spec.apply (.ofClass K) K.init σ k c op = .ok o σ' ∧ Rel σ' s'
    | .raise s' => (∀ k c, Spec.apply (.ofClass K) K.init σ k c op = .raise) ∧ Rel σ s'
    | .ub => ∀ k c, Spec.apply (.ofClass K) K.init σ k c op = .stale
    | .fuel => False := by
  have hk := h.pre.objLt s.next le_rfl
  have hc := h.pre.probLt s.next le_rfl
  cases op with
  | new x g =>
    simp only [step, Spec.apply, h.pre.vars]
    by_cases hx : x < s.vars.length
    · simp only [hx, if_true]
      cases hg : K.init g with
      | none => exact ⟨fun _ _ => by trivial, h⟩
      | some r =>
        obtain ⟨a, b⟩ := r
        obtain ⟨s', e₁, e₂⟩ := h.new hx a b
        simp only [e₁, Out.bind]
        rw [h.pre.vars] at e₂
        exact ⟨_, s.next, _, h.pre.objLt (s.next + 1) (by omega), hc, rfl, e₂⟩
    · simp only [hx, if_false]
      exact ⟨fun _ _ => by trivial, h⟩
  | bind x y =>
    simp only [step, Spec.apply, h.pre.vars, Spec.Store.name]
    by_cases hx : x < s.vars.length
    · simp only [hx, if_true]
      cases hv : (s.vars[y]?).join with
      | none => exact ⟨fun _ _ => by trivial, h⟩
      | some r =>
        have hm : some r ∈ s.vars := List.mem_of_getElem? (Option.join_eq_some_iff.1 hv)
        cases r with
        | obj p =>
          obtain ⟨I, hI⟩ := Option.ne_none_iff_exists'.1 (h.inv.instVar p hm)
          obtain ⟨s', e₁, e₂⟩ := h.bindObj hx hI hm
          simp only [hI, e₁, Out.bind]
          rw [h.pre.vars] at e₂
          exact ⟨_, s.next, _, hk, hc, rfl, e₂⟩
        | prob c =>
          obtain ⟨X, hX⟩ := Option.ne_none_iff_exists'.1 (h.inv.boxVar c hm)
          obtain ⟨s', e₁, e₂⟩ := h.bindProb hx hX
          simp only [hX, e₁, Out.bind]
          rw [h.pre.vars] at e₂
          exact ⟨_, s.next, _, hk, hc, rfl, e₂⟩
    · simp only [hx, if_false]
      exact ⟨fun _ _ => by trivial, h⟩
  | del x =>
    simp only [step, Spec.apply, h.pre.vars, Spec.Store.name]
    cases hv : (s.vars[x]?).join with
    | none => exact ⟨fun _ _ => by trivial, h⟩
    | some r =>
      have hx : x < s.vars.length := by
        by_contra hx
        rw [List.getElem?_eq_none (by omega)] at hv
        cases hv
      obtain ⟨s', e₁, e₂⟩ := h.unset hx
      simp only [e₁, Out.bind]
      rw [h.pre.vars] at e₂
      exact ⟨_, s.next, _, hk, hc, rfl, e₂⟩
  | setAttr x k v =>
    have hO := h.theObj x
    simp only [step, Spec.apply]
    cases ho : s.obj x with
    | none =>
      rw [ho] at hO
      simp only at hO
      simp only [hO]
      exact ⟨fun _ _ => by trivial, h⟩
    | some r =>
      obtain ⟨p, I⟩ := r
      rw [ho] at hO
      obtain ⟨o, e₁, e₂, e₃, e₄, e₅, -⟩ := hO
      simp only [e₁]
      refine ⟨s.next, s.next, _, hk, hc, rfl, ?_⟩
      rw [e₃]
      exact h.update e₂ e₄ _
  | delAttr x k =>
    have hO := h.theObj x
    simp only [step, Spec.apply]
    cases ho : s.obj x with
    | none =>
      rw [ho] at hO
      simp only at hO
      simp only [hO]
      exact ⟨fun _ _ => by trivial, h⟩
    | some r =>
      obtain ⟨p, I⟩ := r
      rw [ho] at hO
      obtain ⟨o, e₁, e₂, e₃, e₄, e₅, -⟩ := hO
      simp only [e₁, e₃]
      cases I.attrs k with
      | none => exact ⟨fun _ _ => by trivial, h⟩
      | some v =>
        refine ⟨s.next, s.next, _, hk, hc, rfl, ?_⟩
        exact h.update e₂ e₄ _
  | setBase x b =>
    have hO := h.theObj x
    simp only [step, Spec.apply]
    cases ho : s.obj x with
    | none =>
      rw [ho] at hO
      simp only at hO
      simp only [hO]
      exact ⟨fun _ _ => by trivial, h⟩
    | some r =>
      obtain ⟨p, I⟩ := r
      rw [ho] at hO
      obtain ⟨o, e₁, e₂, e₃, e₄, e₅, ⟨e₆, e₇⟩ | ⟨W, e₆, e₇, e₈, e₉⟩⟩ := hO
      · simp only [e₁, e₆, e₇, if_true]
        exact fun _ _ => by trivial
      · simp only [e₁, e₆, e₈]
        have := h.base e₂ e₄ e₆ e₉ b
        rw [e₈] at this
        exact ⟨s.next, s.next, _, hk, hc, rfl, this⟩
  | deepcopy x y =>
    have hO := h.theObj y
    simp only [step, Spec.apply, h.pre.vars]
    by_cases hx : x < s.vars.length
    · simp only [hx, if_true]
      cases ho : s.obj y with
      | none =>
        rw [ho] at hO
        simp only at hO
        simp only [hO]
        exact ⟨fun _ _ => by trivial, h⟩
      | some r =>
        obtain ⟨p, I⟩ := r
        rw [ho] at hO
        obtain ⟨o, e₁, e₂, e₃, e₄, e₅, ⟨e₆, e₇⟩ | ⟨W, e₆, e₇, e₈, e₉⟩⟩ := hO
        · simp only [e₁, e₆, e₇, if_true]
          exact fun _ _ => by trivial
        · simp only [e₁, e₆, e₈, Spec.Copying.ofClass, e₃, ← e₇]
          cases hd : K.deepcopy I.attrs W.base with
          | none => exact ⟨fun _ _ => by trivial, h⟩
          | some r =>
            obtain ⟨a, b⟩ := r
            obtain ⟨s', e₁, e₂⟩ := h.new hx a b
            simp only [e₁, Out.bind]
            rw [h.pre.vars] at e₂
            exact ⟨_, s.next, _, h.pre.objLt (s.next + 1) (by omega), hc, rfl, e₂⟩
    · simp only [hx, if_false]
      exact ⟨fun _ _ => by trivial, h⟩
  | make x y n =>
    have hO := h.theObj y
    simp only [step, Spec.apply, h.pre.vars]
    by_cases hx : x < s.vars.length
    · simp only [hx, if_true]
      cases ho : s.obj y with
      | none =>
        rw [ho] at hO
        simp only at hO
        simp only [hO]
        exact ⟨fun _ _ => by trivial, h⟩
      | some r =>
        obtain ⟨p, I⟩ := r
        rw [ho] at hO
        obtain ⟨o, e₁, e₂, e₃, e₄, e₅, ⟨e₆, e₇⟩ | ⟨W, e₆, e₇, e₈, e₉⟩⟩ := hO
        · have : PyObj.copies K n I.held.target s = .ub := by
            unfold State.part at e₆
            simp [PyObj.copies, clone, e₆, Out.bind]
          simp only [e₁, e₇, if_true, this, Out.bind]
          exact fun _ _ => by trivial
        · have hC := h.copies K e₆ (by rw [e₉]; exact e₄) rfl n
          simp only [e₁, e₈, Spec.Copying.ofClass, e₃, ← e₇]
          cases hd : Spec.storedBy K n I.attrs W.base with
          | none =>
            rw [hd] at hC
            obtain ⟨m, hm, hC⟩ := hC
            simp only [hC, Out.bind]
            exact ⟨fun _ _ => by trivial, h.next hm⟩
          | some a =>
            rw [hd] at hC
            obtain ⟨t, p', m, a₁, a₂, a₃, a₄, hC⟩ := hC
            obtain ⟨s', e₁, e₂⟩ := h.newBox hx a W.base a₁ a₂ a₃ a₄
            simp only [hC, Out.bind]
            simp only [e₁]
            rw [h.pre.vars] at e₂
            exact ⟨p', m, _, h.pre.objLt p' a₂, h.pre.probLt m (by omega), rfl, e₂⟩
    · simp only [hx, if_false]
      exact ⟨fun _ _ => by trivial, h⟩
  | assign x y n =>
    have hP := h.theProb x
    have hO := h.theObj y
    simp only [step, Spec.apply]
    cases hp : s.prob x with
    | none =>
      rw [hp] at hP
      simp only at hP
      simp only [hP]
      exact ⟨fun _ _ => by trivial, h⟩
    | some r =>
      obtain ⟨c, X⟩ := r
      rw [hp] at hP
      obtain ⟨U, J, o', b, c₁, c₂, c₃, c₄, c₅, c₆, c₇, c₈, c₉, c₁₀⟩ := hP
      simp only [c₆]
      cases ho : s.obj y with
      | none =>
        rw [ho] at hO
        simp only at hO
        simp only [hO]
        exact ⟨fun _ _ => by trivial, h⟩
      | some r =>
        obtain ⟨p, I⟩ := r
        rw [ho] at hO
        obtain ⟨o, e₁, e₂, e₃, e₄, e₅, ⟨e₆, e₇⟩ | ⟨W, e₆, e₇, e₈, e₉⟩⟩ := hO
        · have : PyObj.copies K n I.held.target s = .ub := by
            unfold State.part at e₆
            simp [PyObj.copies, clone, e₆, Out.bind]
          simp only [e₁, e₇, if_true, this, Out.bind]
          exact fun _ _ => by trivial
        · have hC := h.copies K e₆ (by rw [e₉]; exact e₄) rfl n
          simp only [e₁, e₈, Spec.Copying.ofClass, e₃, ← e₇]
          cases hd : Spec.storedBy K n I.attrs W.base with
          | none =>
            rw [hd] at hC
            obtain ⟨m, hm, hC⟩ := hC
            simp only [hC, Out.bind]
            exact ⟨fun _ _ => by trivial, h.next hm⟩
          | some a =>
            rw [hd] at hC
            obtain ⟨t, p', m, a₁, a₂, a₃, a₄, hC⟩ := hC
            obtain ⟨s', e₁, e₂⟩ := h.assign a W.base a₁ a₂ a₃ a₄ c₁ c₂ c₇ c₁₀
            simp only [hC, Out.bind]
            have e₁' : release (State.fuel { s with
                wrap := Function.update s.wrap t (some ⟨W.base, p', some p'⟩)
                inst := Function.update s.inst p' (some ⟨a, .ptr t, 1⟩)
                next := m }) { s with
                wrap := Function.update s.wrap t (some ⟨W.base, p', some p'⟩)
                inst := Function.update s.inst p' (some ⟨a, .ptr t, 1⟩)
                box := Function.update s.box c (some { X with slot := t })
                next := m } [.wrap X.slot] = .ok () s' := e₁
            simp only [e₁']
            exact ⟨p', s.next, _, h.pre.objLt p' a₂, hc, rfl, e₂⟩
  | copy x y n =>
    have hP := h.theProb y
    simp only [step, Spec.apply, h.pre.vars]
    by_cases hx : x < s.vars.length
    · simp only [hx, if_true]
      cases hp : s.prob y with
      | none =>
        rw [hp] at hP
        simp only at hP
        simp only [hP]
        exact ⟨fun _ _ => by trivial, h⟩
      | some r =>
        obtain ⟨c, X⟩ := r
        rw [hp] at hP
        obtain ⟨U, J, o', b, c₁, c₂, c₃, c₄, c₅, c₆, c₇, c₈, c₉, c₁₀⟩ := hP
        have hC := h.copies K c₂ c₄ (by rw [c₅]; rfl) n
        simp only [c₆, Spec.Copying.ofClass, c₈, ← c₉]
        cases hd : Spec.storedBy K n J.attrs U.base with
        | none =>
          rw [hd] at hC
          obtain ⟨m, hm, hC⟩ := hC
          simp only [hC, Out.bind]
          exact ⟨fun _ _ => by trivial, h.next hm⟩
        | some a =>
          rw [hd] at hC
          obtain ⟨t, p', m, a₁, a₂, a₃, a₄, hC⟩ := hC
          obtain ⟨s', e₁, e₂⟩ := h.newBox hx a U.base a₁ a₂ a₃ a₄
          simp only [hC, Out.bind]
          simp only [e₁]
          rw [h.pre.vars] at e₂
          exact ⟨p', m, _, h.pre.objLt p' a₂, h.pre.probLt m (by omega), rfl, e₂⟩
    · simp only [hx, if_false]
      exact ⟨fun _ _ => by trivial, h⟩
  | read x y =>
    have hP := h.theProb y
    simp only [step, Spec.apply, h.pre.vars]
    by_cases hx : x < s.vars.length
    · simp only [hx, if_true]
      cases hp : s.prob y with
      | none =>
        rw [hp] at hP
        simp only at hP
        simp only [hP]
        exact ⟨fun _ _ => by trivial, h⟩
      | some r =>
        obtain ⟨c, X⟩ := r
        rw [hp] at hP
        obtain ⟨U, J, o', b, c₁, c₂, c₃, c₄, c₅, c₆, c₇, c₈, c₉, c₁₀⟩ := hP
        obtain ⟨s', e₁, e₂⟩ := h.read hx c₁ c₂ c₄ c₅ c₁₀
        simp only [c₆, c₂, c₄, e₁, Out.bind]
        rw [h.pre.vars] at e₂
        exact ⟨s.next, s.next, _, hk, hc, rfl, e₂⟩
    · simp only [hx, if_false]
      exact ⟨fun _ _ => by trivial, h⟩
  | look x =>
    have hO := h.theObj x
    simp only [step, Spec.apply]
    cases ho : s.obj x with
    | none =>
      rw [ho] at hO
      simp only at hO
      simp only [hO]
      exact ⟨fun _ _ => by trivial, h⟩
    | some r =>
      obtain ⟨p, I⟩ := r
      rw [ho] at hO
      obtain ⟨o, e₁, e₂, e₃, e₄, e₅, ⟨e₆, e₇⟩ | ⟨W, e₆, e₇, e₈, e₉⟩⟩ := hO
      · simp only [e₁, e₆, e₇, if_true]
        exact fun _ _ => by trivial
      · simp only [e₁, e₆, e₈, e₃, ← e₇]
        exact ⟨s.next, s.next, _, hk, hc, rfl, h⟩
  | solve x =>
    have hP := h.theProb x
    simp only [step, Spec.apply]
    cases hp : s.prob x with
    | none =>
      rw [hp] at hP
      simp only at hP
      simp only [hP]
      exact ⟨fun _ _ => by trivial, h⟩
    | some r =>
      obtain ⟨c, X⟩ := r
      rw [hp] at hP
      obtain ⟨U, J, o', b, c₁, c₂, c₃, c₄, c₅, c₆, c₇, c₈, c₉, c₁₀⟩ := hP
      have : s.part J = some U := by unfold State.part; rw [c₅]; exact c₂
      simp only [c₆, c₂, c₄, this, c₈, c₉]
      exact ⟨s.next, s.next, _, hk, hc, rfl, h⟩

end Aligator.PyObj
