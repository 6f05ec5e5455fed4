import Verif.Lemmas.PolymorphicStep

/-!
# C67: model objects have value semantics
-/

namespace Aligator.Poly

open Spec

variable {V : Type}

/-- Reading from memory that represents a store. -/
theorem R.read {s : State V} {σ : Store V} (h : R s σ) (x : ℕ) (path : List ℕ) : s.read x path = σ.read x path := by
  obtain ⟨fp, i⟩ := h
  simp only [State.read, Store.read]
  cases hx : s.var x with
  | none => simp [i.dead hx, sub]
  | some p =>
    obtain ⟨t, et, _⟩ := i.alive hx
    rcases i.at hx et path with ⟨e₁, e₂⟩ | ⟨a, w, qs, ks, Fk, Fo, e₁, e₂, _⟩
    · simp [et, e₁, e₂]
    · simp [et, e₁, e₂, Tree.val]

theorem R.dead_iff {s : State V} {σ : Store V} (h : R s σ) (x : ℕ) : s.var x = none ↔ σ x = none := by
  obtain ⟨fp, i⟩ := h
  cases hx : s.var x with
  | none => simp [i.dead hx]
  | some p => obtain ⟨t, et, _⟩ := i.alive hx; simp [et]

theorem R.valueless_iff {s : State V} {σ : Store V} (h : R s σ) (x : ℕ) : s.var x = some none ↔ σ x = some none := by
  obtain ⟨fp, i⟩ := h
  cases hx : s.var x with
  | none => simp [i.dead hx]
  | some p => obtain ⟨t, et, hr⟩ := i.alive hx; simp [et, hr.none_iff]

/-- The statement flagged `true` threw, and only a statement with a bounded quota throws. -/
def FlagsOk : List (Op V) → List Bool → Prop
  | [], [] => True
  | op :: ops, b :: fl => (b = true → quota op ≠ none) ∧ FlagsOk ops fl
  | _, _ => False

theorem run_agrees {s : State V} {σ : Store V} (h : R s σ) (ops : List (Op V)) :
    match run s ops with
    | some (s', fl) => ∃ σ', applyAll σ ops fl = some σ' ∧ R s' σ' ∧ FlagsOk ops fl
    | none => ∃ pre op post fl σ', ops = pre ++ op :: post ∧ applyAll σ pre fl = some σ' ∧ apply σ' op = none ∧
        FlagsOk pre fl := by
  induction ops generalizing s σ with
  | nil => exact ⟨σ, rfl, h, trivial⟩
  | cons op ops ih =>
    have hs := step_agrees h op
    simp only [run]
    cases hst : step s op with
    | ok s' =>
      rw [hst] at hs
      obtain ⟨σ', e, hR⟩ := hs
      have := ih hR
      dsimp only
      cases hr : run s' ops with
      | none =>
        rw [hr] at this
        obtain ⟨pre, op', post, fl, σ'', e₁, e₂, e₃, e₄⟩ := this
        exact ⟨op :: pre, op', post, false :: fl, σ'', by simp [e₁], by simp [applyAll, e, e₂], e₃, by simp, e₄⟩
      | some r =>
        obtain ⟨t, fl⟩ := r
        rw [hr] at this
        obtain ⟨σ'', e₁, e₂, e₃⟩ := this
        exact ⟨σ'', by simp [applyAll, e, e₁], e₂, by simp, e₃⟩
    | thrown s' =>
      rw [hst] at hs
      obtain ⟨e, hR, hq⟩ := hs
      have := ih hR
      dsimp only
      cases hr : run s' ops with
      | none =>
        rw [hr] at this
        obtain ⟨pre, op', post, fl, σ'', e₁, e₂, e₃, e₄⟩ := this
        exact ⟨op :: pre, op', post, true :: fl, σ'', by simp [e₁], by simp [applyAll, e, e₂], e₃, fun _ => hq, e₄⟩
      | some r =>
        obtain ⟨t, fl⟩ := r
        rw [hr] at this
        obtain ⟨σ'', e₁, e₂, e₃⟩ := this
        exact ⟨σ'', by simp [applyAll, e, e₁], e₂, fun _ => hq, e₃⟩
    | ub =>
      rw [hst] at hs
      exact ⟨[], op, ops, [], σ, rfl, rfl, hs, trivial⟩
    | fuel =>
      rw [hst] at hs
      exact hs.elim

theorem run_R {ops : List (Op V)} {s : State V} {fl} (h : run State.init ops = some (s, fl)) : ∃ σ, R s σ := by
  have := run_agrees init_R ops
  rw [h] at this
  obtain ⟨σ, _, r, _⟩ := this
  exact ⟨σ, r⟩

theorem Agrees.of_ok {s s' : State V} {σ : Store V} (h : R s σ) {op : Op V} (e : step s op = .ok s') :
    ∃ σ', apply σ op = some σ' ∧ R s' σ' := by
  have := step_agrees h op
  rwa [e] at this

/-- **C67.** A program of any length behaves as if variables held values: what is read through any path, which
variables are valueless, and which statements are allowed, are those of the specification in which copying duplicates
and nothing is shared; a statement that throws has no effect.  Undefined behaviour arises only from a statement the
specification does not allow. -/
theorem C67_refines (ops : List (Op V)) :
    match run State.init ops with
    | some (s, fl) => ∃ σ, applyAll (fun _ => none) ops fl = some σ ∧ FlagsOk ops fl ∧
        ∀ x, (∀ path, s.read x path = σ.read x path) ∧ (s.var x = none ↔ σ x = none) ∧
          (s.var x = some none ↔ σ x = some none)
    | none => ∃ pre op post fl σ, ops = pre ++ op :: post ∧ applyAll (fun _ => none) pre fl = some σ ∧
        FlagsOk pre fl ∧ apply σ op = none := by
  have := run_agrees init_R ops
  cases hr : run State.init ops with
  | none =>
    rw [hr] at this
    obtain ⟨pre, op, post, fl, σ, e₁, e₂, e₃, e₄⟩ := this
    exact ⟨pre, op, post, fl, σ, e₁, e₂, e₄, e₃⟩
  | some r =>
    obtain ⟨s, fl⟩ := r
    rw [hr] at this
    obtain ⟨σ, e₁, hR, e₂⟩ := this
    exact ⟨σ, e₁, e₂, fun x => ⟨hR.read x, hR.dead_iff x, hR.valueless_iff x⟩⟩

/-- **C67.** A program in which no copy fails runs to its end exactly when every statement is allowed. -/
theorem C67_total (ops : List (Op V)) (hq : ∀ op ∈ ops, quota op = none) :
    (∃ s, run State.init ops = some (s, List.replicate ops.length false)) ↔
      (applyAll (fun _ => none) ops (List.replicate ops.length false)).isSome := by
  have key : ∀ (ops : List (Op V)), (∀ op ∈ ops, quota op = none) → ∀ (s : State V) σ, R s σ →
      ((∃ s', run s ops = some (s', List.replicate ops.length false)) ↔
        (applyAll σ ops (List.replicate ops.length false)).isSome) := by
    intro ops
    induction ops with
    | nil => intro _ s σ _; simp [run, applyAll]
    | cons op ops ih =>
      intro hq s σ h
      have hs := step_agrees h op
      simp only [run, List.length_cons, List.replicate_succ, applyAll]
      cases hst : step s op with
      | ok s' =>
        rw [hst] at hs
        obtain ⟨σ', e, hR⟩ := hs
        rw [e, Option.bind_some, ← ih (fun o ho => hq o (by simp [ho])) s' σ' hR]
        dsimp only
        cases run s' ops with
        | none => simp
        | some r => obtain ⟨t, fl⟩ := r; simp
      | thrown s' =>
        rw [hst] at hs
        exact absurd (hq op (by simp)) hs.2.2
      | ub =>
        rw [hst] at hs
        have hs : apply σ op = none := hs
        simp [hs]
      | fuel =>
        rw [hst] at hs
        exact hs.elim
  exact key ops hq _ _ init_R

theorem apply_other {σ σ' : Store V} {op : Op V} (e : apply σ op = some σ') {x : ℕ} (hx : x ∉ changes op) :
    σ' x = σ x := by
  cases op <;> simp only [changes, List.mem_cons, List.not_mem_nil, or_false, not_or] at hx <;>
    simp only [apply] at e <;> split at e <;> try split at e
  all_goals try split at e
  all_goals try split at e
  all_goals first
    | (cases e; done)
    | (simp only [Option.some.injEq] at e; subst e; simp [Store.set, hx])

/-- **C67.** Statements that do not name `x` as a destination leave all that is reached from `x` as it is, whatever
they do to the variables `x` was copied from or copied to. -/
theorem C67_independent {ops ops' : List (Op V)} {s s' : State V} {fl fl'} (h : run State.init ops = some (s, fl))
    (h' : run s ops' = some (s', fl')) {x : ℕ} (hx : ∀ op ∈ ops', x ∉ changes op) :
    (∀ path, s'.read x path = s.read x path) ∧ (s'.var x = none ↔ s.var x = none) ∧
      (s'.var x = some none ↔ s.var x = some none) := by
  obtain ⟨σ, hR⟩ := run_R h
  have key : ∀ (ops' : List (Op V)), (∀ op ∈ ops', x ∉ changes op) → ∀ fl' (σ σ' : Store V),
      applyAll σ ops' fl' = some σ' → σ' x = σ x := by
    intro ops'
    induction ops' with
    | nil => intro _ fl' σ σ' e; cases fl' <;> simp_all [applyAll]
    | cons op ops' ih =>
      intro hx fl' σ σ' e
      match fl', e with
      | false :: fl', e =>
        simp only [applyAll] at e
        cases ha : apply σ op with
        | none => simp [ha] at e
        | some σ₁ =>
          simp only [ha, Option.bind_some] at e
          rw [ih (fun o ho => hx o (by simp [ho])) fl' σ₁ σ' e, apply_other ha (hx op (by simp))]
      | true :: fl', e =>
        simp only [applyAll] at e
        split at e
        · exact ih (fun o ho => hx o (by simp [ho])) fl' σ σ' e
        · cases e
  have := run_agrees hR ops'
  rw [h'] at this
  obtain ⟨σ', e, hR', _⟩ := this
  have hσ := key ops' hx fl' σ σ' e
  refine ⟨fun path => ?_, ?_, ?_⟩
  · rw [hR'.read, hR.read, Store.read, Store.read, hσ]
  · rw [hR'.dead_iff, hR.dead_iff, hσ]
  · rw [hR'.valueless_iff, hR.valueless_iff, hσ]

/-- **C67.** A copy reads the same as its source, through every path; so does an assigned variable. -/
theorem C67_copy {ops : List (Op V)} {s s' : State V} {fl} (h : run State.init ops = some (s, fl)) {x y : ℕ} {q : Quota}
    (h' : step s (.copy x y q) = .ok s' ∨ step s (.assign x y q) = .ok s') (path : List ℕ) :
    s'.read x path = s.read y path ∧ s'.read y path = s.read y path := by
  obtain ⟨σ, hR⟩ := run_R h
  rcases h' with h' | h'
  · obtain ⟨σ', e, hR'⟩ := Agrees.of_ok hR h'
    simp only [apply] at e
    split at e
    · rename_i t hx hy
      simp only [Option.some.injEq] at e
      subst e
      have hyx : y ≠ x := fun e => by rw [e, hx] at hy; cases hy
      simp [hR'.read, hR.read, Store.read, Store.set, hy, hyx]
    · cases e
  · obtain ⟨σ', e, hR'⟩ := Agrees.of_ok hR h'
    simp only [apply] at e
    split at e
    · rename_i t hx hy
      simp only [Option.some.injEq] at e
      subst e
      simp only [hR'.read, hR.read, Store.read, Store.set, if_pos, hy]
      refine ⟨trivial, ?_⟩
      split <;> rfl
    · cases e

/-- **C67.** A move transfers the value and leaves the source valueless; the objects stay where they are, so pointers to
them remain valid. -/
theorem C67_move {ops : List (Op V)} {s s' : State V} {fl} (h : run State.init ops = some (s, fl)) {x y : ℕ}
    (h' : step s (.move x y) = .ok s' ∨ (x ≠ y ∧ step s (.moveAssign x y) = .ok s')) :
    s'.var y = some none ∧ s'.var x = s.var y ∧
      ∀ path, s'.read x path = s.read y path ∧
        ∀ p a o, s.var y = some p → nav s.heap.cell p path = some (a, o) → nav s'.heap.cell p path = some (a, o) := by
  obtain ⟨σ, fp, i⟩ := run_R h
  rcases h' with h' | ⟨hxy, h'⟩
  · simp only [step] at h'
    split at h'
    · rename_i p hx hy
      cases h'
      have hyx : x ≠ y := fun e => by rw [e, hy] at hx; cases hx
      refine ⟨by simp [State.setVar], by simp [State.setVar, hyx, hy], fun path => ⟨?_, ?_⟩⟩
      · simp [State.read, State.setVar, hyx, hy]
      · intro p' a o _ e; exact e
    · cases h'
  · simp only [step] at h'
    split at h'
    · rename_i p p' hx hy
      rw [if_neg hxy] at h'
      obtain ⟨t', et', hry⟩ := i.alive hy
      obtain ⟨h₁, e, _, _, g, _⟩ := i.reset hx
      have hyx : y ≠ x := fun e => hxy e.symm
      have hnav : ∀ path, nav h₁.cell p' path = nav s.heap.cell p' path := fun path =>
        nav_frame hry fun b hb => g b (i.disj y x hyx b hb)
      cases p' with
      | none =>
        simp only [withReset, e] at h'
        cases h'
        refine ⟨by simp [State.setVar, hyx, hy], by simp [State.setVar, hy], fun path => ⟨?_, ?_⟩⟩
        · simp [State.read, State.setVar, hy, nav]
        · intro p' a o e₁ e₂
          rw [hy] at e₁
          cases e₁
          cases path <;> simp [nav] at e₂
      | some b =>
        simp only [withReset, e] at h'
        cases h'
        refine ⟨by simp [State.setVar], by simp [State.setVar, hxy, hy], fun path => ⟨?_, ?_⟩⟩
        · simp [State.read, State.setVar, hxy, hy, hnav]
        · intro p' a o e₁ e₂
          rw [hy] at e₁
          cases e₁
          rw [← e₂]
          exact hnav path
    · cases h'

theorem sub_replace {t : Option (Tree V)} {path : List ℕ} {n : Tree V} (h : sub t path = some n) (n' : Tree V)
    (rest : List ℕ) : sub (replace t path n') (path ++ rest) = sub (some n') rest := by
  induction path generalizing t with
  | nil => cases t <;> simp_all [sub, replace]
  | cons i r ih =>
    cases t with
    | none => simp [sub] at h
    | some t =>
      simp only [sub] at h
      have hlt : i < t.kids.length := by
        by_contra hx
        rw [List.getElem?_eq_none (by omega)] at h
        cases r <;> simp [sub] at h
      simp only [replace, List.cons_append, sub, Tree.kids]
      rw [List.getElem?_set_self (by simpa [Tree.kids] using hlt)]
      exact ih h

/-- **C67.** What is added to an object (a stage to a problem, a constraint to a stage, a cost to a sum) is a copy: later
statements on the client's variables do not change what the object holds. -/
theorem C67_stage_is_copied {ops ops' : List (Op V)} {s s' s'' : State V} {fl fl'}
    (h : run State.init ops = some (s, fl)) {x y : ℕ} {path : List ℕ} {q : Quota}
    (h₁ : step s (.pushAt x path y q) = .ok s') (h₂ : run s' ops' = some (s'', fl'))
    (hx : ∀ op ∈ ops', x ∉ changes op) :
    ∃ n, ∀ rest, s''.read x (path ++ n :: rest) = s.read y rest := by
  have h₃ : run State.init (ops ++ [.pushAt x path y q]) = some (s', fl ++ [false]) := by
    have : ∀ (ops : List (Op V)) (s₀ : State V) fl, run s₀ ops = some (s, fl) →
        run s₀ (ops ++ [.pushAt x path y q]) = some (s', fl ++ [false]) := by
      intro ops
      induction ops with
      | nil => intro s₀ fl e; cases e; simp [run, h₁]
      | cons op ops ih =>
        intro s₀ fl e
        simp only [run, List.cons_append] at e ⊢
        cases hst : step s₀ op with
        | ok s₁ =>
          simp only [hst] at e ⊢
          cases hr : run s₁ ops with
          | none => simp [hr] at e
          | some r =>
            obtain ⟨t, fl'⟩ := r
            simp only [hr, Option.some.injEq, Prod.mk.injEq] at e
            obtain ⟨rfl, rfl⟩ := e
            rw [ih s₁ fl' hr]
            simp
        | thrown s₁ =>
          simp only [hst] at e ⊢
          cases hr : run s₁ ops with
          | none => simp [hr] at e
          | some r =>
            obtain ⟨t, fl'⟩ := r
            simp only [hr, Option.some.injEq, Prod.mk.injEq] at e
            obtain ⟨rfl, rfl⟩ := e
            rw [ih s₁ fl' hr]
            simp
        | ub => simp [hst] at e
        | fuel => simp [hst] at e
    exact this ops _ fl h
  have hind := (C67_independent h₃ h₂ hx).1
  obtain ⟨σ, hR⟩ := run_R h
  obtain ⟨σ', e, hR'⟩ := Agrees.of_ok hR h₁
  simp only [apply] at e
  split at e
  · rename_i t t' ex ey
    split at e
    · rename_i n hn
      simp only [Option.some.injEq] at e
      subst e
      refine ⟨n.kids.length, fun rest => ?_⟩
      rw [hind, hR'.read, hR.read]
      simp only [Store.read, Store.set, if_pos, Option.join_some, ey]
      rw [sub_replace hn]
      simp [sub, Tree.kids]
    · cases e
  · cases e

/-- **C67.** A statement that throws leaves every variable and everything that is read as it was. -/
theorem C67_exception {ops : List (Op V)} {s s' : State V} {fl} (h : run State.init ops = some (s, fl)) {op : Op V}
    (h' : step s op = .thrown s') :
    (∀ x path, s'.read x path = s.read x path) ∧
      ∀ a, s'.heap.cell a ≠ .free → ∃ x p path o, s'.var x = some p ∧ nav s'.heap.cell p path = some (a, o) := by
  obtain ⟨σ, hR⟩ := run_R h
  have := step_agrees hR op
  rw [h'] at this
  obtain ⟨_, hR', _⟩ := this
  refine ⟨fun x path => by rw [hR'.read, hR.read], fun a ha => ?_⟩
  obtain ⟨fp, i⟩ := hR'
  obtain ⟨x, hx⟩ := i.noleak a ha
  cases hv : s'.var x with
  | none => simp [i.dead hv] at hx
  | some p =>
    obtain ⟨t, _, hr⟩ := i.alive hv
    obtain ⟨j, p', path, o, e, e'⟩ := hr.reach hx
    cases j with
    | zero => simp only [List.getElem?_cons_zero, Option.some.injEq] at e; subst e; exact ⟨x, p, path, o, hv, e'⟩
    | succ j => simp at e

/-- **C67.** After any program every allocated block holds an object owned by exactly one variable, through exactly one
path of members: nothing is leaked and nothing is shared.  In particular all memory is free once no variable is
alive. -/
theorem C67_ownership {ops : List (Op V)} {s : State V} {fl} (h : run State.init ops = some (s, fl)) :
    (∀ a, s.heap.cell a ≠ .free → ∃ x p path o, s.var x = some p ∧ nav s.heap.cell p path = some (a, o) ∧
      ∀ x' p' path' o', s.var x' = some p' → nav s.heap.cell p' path' = some (a, o') → x' = x ∧ path' = path) ∧
    ((∀ x, s.var x = none) → ∀ a, s.heap.cell a = .free) := by
  obtain ⟨σ, fp, i⟩ := run_R h
  constructor
  · intro a ha
    obtain ⟨x, hx⟩ := i.noleak a ha
    cases hv : s.var x with
    | none => simp [i.dead hv] at hx
    | some p =>
      obtain ⟨t, _, hr⟩ := i.alive hv
      obtain ⟨j, p', path, o, e, e'⟩ := hr.reach hx
      cases j with
      | zero =>
        simp only [List.getElem?_cons_zero, Option.some.injEq] at e
        subst e
        refine ⟨x, p, path, o, hv, e', fun x' p' path' o' hv' e'' => ?_⟩
        obtain ⟨t', _, hr'⟩ := i.alive hv'
        have hx' := hr'.nav_mem e''
        have : x' = x := by
          by_contra hne
          exact i.disj x' x hne a hx' hx
        subst this
        rw [hv] at hv'
        cases hv'
        exact ⟨rfl, hr.nav_inj (i.nodup _) e'' e'⟩
      | succ j => simp at e
  · intro hdead a
    by_contra ha
    obtain ⟨x, hx⟩ := i.noleak a ha
    simp [i.dead (hdead x)] at hx

/-- **C67 (violated).** Moving a member into the variable that holds it, `x = std::move(x->member)`, is undefined
behaviour whenever the member has a value: the assignment exchanges the two pointers and then destroys, through the
member, the object that contains that member. -/
theorem C67_take_own_member {ops : List (Op V)} {s : State V} {fl} (h : run State.init ops = some (s, fl)) {x : ℕ}
    {p : Ptr} (hx : s.var x = some p) {path : List ℕ} {a : ℕ} {o : Obj V}
    (hn : nav s.heap.cell p path = some (a, o)) {i b : ℕ} (hb : o.kids[i]? = some (some b)) :
    step s (.takeAt x x path i) = .ub := by
  obtain ⟨σ, fp, inv⟩ := run_R h
  obtain ⟨t, et, hr⟩ := inv.alive hx
  have hlt : i < o.kids.length := by
    by_contra hx
    rw [List.getElem?_eq_none (by omega)] at hb
    cases hb
  have hno := fun n u h' q => take_self (nx := s.heap.next) (n := n) (u := u) (h' := h') (q := q)
    hr (inv.nodup x) hn hlt
  simp only [step, hx, hn, hb]
  cases hdl : destroyList (s.heap.put a (.live { o with kids := o.kids.set i p })).next
      (s.heap.put a (.live { o with kids := o.kids.set i p })) [p] with
  | ok u h' q => exact absurd hdl (hno _ _ _ _)
  | throw h' => rfl
  | ub => rfl
  | fuel => rfl

/-! ## Non-trivial cases -/

/-- A cost (5), a stage that holds it (7), a problem (1) with that stage added, then changes of the client's objects, of
the copy inside the problem, moves and the end of all lifetimes. -/
def demo : List (Op ℕ) :=
  [.make 0 5 [] none, .make 1 7 [0] none, .make 2 1 [] none, .pushAt 2 [] 1 none, .write 1 [0] 9, .copy 3 2 none,
    .write 3 [0, 0] 11, .move 4 1, .assignAt 4 [] 0 2 none]

example : ∃ s, run State.init demo = some (s, List.replicate 9 false) ∧ s.read 2 [0, 0] = some 5 ∧
    s.read 3 [0, 0] = some 11 ∧ s.read 4 [0, 0, 0] = some 5 ∧ s.read 1 [] = none ∧ s.var 1 = some none := by
  obtain ⟨s, hs⟩ := (C67_total demo (by simp [demo, quota])).2 (by rfl)
  refine ⟨s, hs, ?_⟩
  have := C67_refines demo
  rw [hs] at this
  obtain ⟨σ, e, _, hr⟩ := this
  have e' : applyAll (fun _ => none) demo (List.replicate demo.length false) = some σ := e
  simp [applyAll, apply, demo, Store.set, Store.all, sub, replace, Tree.kids, Tree.val] at e'
  subst e'
  refine ⟨?_, ?_, ?_, ?_, ?_⟩
  · rw [(hr 2).1]; rfl
  · rw [(hr 3).1]; rfl
  · rw [(hr 4).1]; rfl
  · rw [(hr 1).1]; rfl
  · rw [(hr 1).2.2]; rfl

/-- The second copying step of an assignment fails: the variables keep their values. -/
example : ∃ s, run State.init [.make 0 5 [] none, .make 1 7 [0] none, .make 2 1 [] none, .assign 2 1 (some 2)] =
    some (s, [false, false, false, true]) ∧ s.read 2 [] = some 1 ∧ s.read 1 [0] = some 5 := by
  simp [run, step, make, State.vars, State.init, cloneList, Quota.tick, State.setVar, Heap.alloc, Heap.put, withCopy,
    State.read, nav, unwind, destroyList]

/-- `x = std::move(x->member)`. -/
example : ∃ s fl, run State.init [.make 0 5 [] none, .make 1 7 [0] none] = some (s, fl) ∧
    step s (.takeAt 1 1 [] 0) = .ub := by
  obtain ⟨s, hs⟩ := (C67_total ([.make 0 5 [] none, .make 1 7 [0] none] : List (Op ℕ)) (by simp [quota])).2 (by rfl)
  refine ⟨s, _, hs, ?_⟩
  have hs' := hs
  simp [run, step, make, State.vars, State.init, cloneList, Quota.tick, State.setVar, Heap.alloc, Heap.put] at hs'
  subst hs'
  exact C67_take_own_member hs (x := 1) (p := some 1) (path := []) (a := 1) (o := ⟨7, [some 2]⟩) (i := 0) (b := 2)
    (by simp) (by simp [nav]) (by simp)

/-! ## Arguments that refer into the container -/

/-- **C67.** `addStage` may be given one of the problem's own stages. -/
theorem C67_add_own_stage {S : Type} (w : Vec S) (i : ℕ) (hi : i < w.data.length) :
    ∃ w', addStage w (.elem w.buf i) = some w' ∧ w'.data = w.data ++ [w.data[i]] := by
  simp only [addStage, Vec.push, Ref.get, if_pos, List.getElem?_eq_getElem hi]
  split <;> exact ⟨_, rfl, rfl⟩

example : addStage (⟨[3, 4], 2, 0⟩ : Vec ℕ) (.elem 0 0) = some ⟨[3, 4, 3], 5, 1⟩ := rfl

/-- **C67.** Adding a constraint whose function is not in the stack: the function, the set and the dimensions are
appended. -/
theorem C67_add_constraint {S : Type} (w : Stack S) (nr : ℕ) (c : S) :
    ∃ w', w.pushBack (.outside nr) (.outside c) = some w' ∧ w'.funcs.data = w.funcs.data ++ [nr] ∧
      w'.sets.data = w.sets.data ++ [c] ∧ w'.dims = w.dims ++ [nr] ∧ w'.total = w.total + nr ∧
      w'.indices = w.indices ++ [w.indices.getLastD 0 + nr] := by
  have hf : ∃ fs, w.funcs.push (.outside nr) = some fs ∧ fs.data = w.funcs.data ++ [nr] := by
    simp only [Vec.push, Ref.get]; split <;> exact ⟨_, rfl, rfl⟩
  have hc : ∃ cs, w.sets.push (.outside c) = some cs ∧ cs.data = w.sets.data ++ [c] := by
    simp only [Vec.push, Ref.get]; split <;> exact ⟨_, rfl, rfl⟩
  obtain ⟨fs, e₁, e₂⟩ := hf
  obtain ⟨cs, e₃, e₄⟩ := hc
  exact ⟨_, by simp only [Stack.pushBack, e₁, e₃, Ref.get]; rfl, e₂, e₄, rfl, rfl, rfl⟩

/-- **C67 (violated).** Adding a constraint whose function is one already in the stack (with another set, say) reads
freed memory exactly when the vector of functions is full: the function is read through the reference again after the
vector has moved. -/
theorem C67_add_own_function {S : Type} (w : Stack S) (i : ℕ) (hi : i < w.funcs.data.length) (c : S) :
    w.pushBack (.elem w.funcs.buf i) (.outside c) = none ↔ w.funcs.cap ≤ w.funcs.data.length := by
  have hc : ∃ cs, w.sets.push (.outside c) = some cs := by
    simp only [Vec.push, Ref.get]; split <;> exact ⟨_, rfl⟩
  obtain ⟨cs, e₃⟩ := hc
  by_cases h : w.funcs.data.length < w.funcs.cap
  · have hp : w.funcs.push (.elem w.funcs.buf i) = some { w.funcs with data := w.funcs.data ++ [w.funcs.data[i]] } := by
      simp [Vec.push, Ref.get, List.getElem?_eq_getElem hi, h]
    simp only [Stack.pushBack, e₃, hp, Ref.get, if_pos]
    rw [List.getElem?_append_left hi, List.getElem?_eq_getElem hi]
    simpa using h
  · have hp : w.funcs.push (.elem w.funcs.buf i) =
        some ⟨w.funcs.data ++ [w.funcs.data[i]], 2 * w.funcs.cap + 1, w.funcs.buf + 1⟩ := by
      simp [Vec.push, Ref.get, List.getElem?_eq_getElem hi, h]
    simp only [Stack.pushBack, e₃, hp, Ref.get]
    rw [if_neg (by omega)]
    simpa using h

example : (⟨⟨[3], 1, 0⟩, ⟨['a'], 1, 0⟩, [0, 3], [3], 3⟩ : Stack Char).pushBack (.elem 0 0) (.outside 'b') = none := rfl

/-- **C67 (violated).** When copying the set throws, the stack is left with one function more than it has sets and
dimensions. -/
theorem C67_add_constraint_throws {S : Type} (w : Stack S) (nr : ℕ) :
    ∃ w', w.pushBackThrow (.outside nr) = some w' ∧ w'.funcs.data.length = w.funcs.data.length + 1 ∧
      w'.sets = w.sets ∧ w'.dims = w.dims ∧ w'.total = w.total := by
  have hf : ∃ fs, w.funcs.push (.outside nr) = some fs ∧ fs.data = w.funcs.data ++ [nr] := by
    simp only [Vec.push, Ref.get]; split <;> exact ⟨_, rfl, rfl⟩
  obtain ⟨fs, e₁, e₂⟩ := hf
  exact ⟨{ w with funcs := fs }, by simp only [Stack.pushBackThrow, e₁], by simp [e₂], rfl, rfl, rfl⟩

end Aligator.Poly
