import Verif.Lemmas.PyObjRun

/-!
# C75: model classes written in Python survive being stored in C++

For every Python class, every number of names and every program.
-/

namespace Aligator.PyObj

open Spec

variable {V B G : Type}

/-- **C75.**  Every run of a program shows exactly what the specification says: a stored object is a copy of its own,
made by the class's deep copies, with the C++ part of the original; reading it back gives that very object. -/
theorem C75_refines (K : Class V B G) (n : ℕ) (ops : List (Op V B G)) (s : State V B) (obs : List (Seen V B))
    (h : run K (State.init n) ops = some (s, obs)) :
    ∃ σ, Runs (.ofClass K) K.init (Store.init n) ops σ obs ∧ σ.vars = s.vars := by
  obtain ⟨σ, r, hR⟩ := run_rel K ops _ _ s obs (Rel.init n) h
  exact ⟨σ, r, hR.pre.vars⟩

/-- **C75.**  After any run, a statement has undefined behaviour if and only if it uses the C++ part of an object that was
read back from a problem that got another object since. -/
theorem C75_ub (K : Class V B G) (n : ℕ) (ops : List (Op V B G)) (s : State V B) (obs : List (Seen V B))
    (h : run K (State.init n) ops = some (s, obs)) :
    ∃ σ, Runs (.ofClass K) K.init (Store.init n) ops σ obs ∧
      ∀ op, run K (State.init n) (ops ++ [op]) = none ↔ UsesStale (.ofClass K) K.init σ op := by
  obtain ⟨σ, r, hR⟩ := run_rel K ops _ _ s obs (Rel.init n) h
  refine ⟨σ, r, fun op => ?_⟩
  rw [run_append, h, ← run_one K hR op]
  simp

/-- **C75.**  Programs that never assign a member never have undefined behaviour, whatever they keep, copy, read back or
delete and in whatever order. -/
theorem C75_safe (K : Class V B G) (n : ℕ) (ops : List (Op V B G)) (h : ∀ op ∈ ops, ∀ x y m, op ≠ .assign x y m) :
    run K (State.init n) ops ≠ none :=
  run_safe K ops _ _ (Rel.init n) (by simp [Store.init]) h

/-- **C75, value semantics, for classes whose copies are faithful.**  Without deleted attributes, a stored object is equal
to the original at the time it was stored, attributes and C++ part, whatever the number of copies on the way; nothing
raises on the way.  Missing: programs that delete attributes set by `__init__`, and `copy.deepcopy` for classes that do not
rebuild their C++ part; both are false, see below. -/
theorem C75_values_partial (K : Class V B G) (A : ℕ → Prop) (hK : Faithful K A) (n : ℕ) (ops : List (Op V B G))
    (ho : ∀ op ∈ ops, Plain K op) (s : State V B) (obs : List (Seen V B))
    (h : run K (State.init n) ops = some (s, obs)) :
    ∃ σ, Runs .ideal K.init (Store.init n) ops σ obs ∧ σ.vars = s.vars := by
  obtain ⟨σ, r, hv⟩ := C75_refines K n ops s obs h
  exact ⟨σ, runs_ideal hK r ho (by simp [Has, Store.init]), hv⟩

/-! ### Exceptions -/

/-- **C75.**  A statement that raises leaves everything as it was. -/
theorem C75_raise (K : Class V B G) (n : ℕ) (ops : List (Op V B G)) (s : State V B) (obs : List (Seen V B))
    (h : run K (State.init n) ops = some (s, obs)) (op : Op V B G) (s' : State V B) (hr : step K s op = .raise s') :
    s'.vars = s.vars ∧ s'.inst = s.inst ∧ s'.wrap = s.wrap ∧ s'.box = s.box ∧ s'.life = s.life := by
  obtain ⟨σ, -, hR⟩ := run_rel K ops _ _ s obs (Rel.init n) h
  have st : ∀ (t : State V B) x r, (store t x r).bind (fun _ s'' => (.ok none s'' : Out V B (Option (Attrs V × B)))) ≠
      .raise s' := fun t x r => bind_ne_raise _ _ _ _ _
  have cp : ∀ {w : ℕ} {W : Wrap B} {I : Inst V} (_ : s.wrap w = some W) (_ : s.inst W.self = some I)
      (_ : I.held.target = w) (m : ℕ) (f : ℕ → State V B → Out V B (Option (Attrs V × B))) (_ : ∀ t u, f t u ≠ .raise s')
      (_ : (copies K m w s).bind f = .raise s'),
      s'.vars = s.vars ∧ s'.inst = s.inst ∧ s'.wrap = s.wrap ∧ s'.box = s.box ∧ s'.life = s.life := by
    intro w W I a₁ a₂ a₃ m f hf e
    have hC := hR.copies K a₁ a₂ a₃ m
    split at hC
    · obtain ⟨m', -, hC⟩ := hC
      rw [hC] at e
      cases e
      exact ⟨rfl, rfl, rfl, rfl, rfl⟩
    · obtain ⟨t', p', m', -, -, -, -, hC⟩ := hC
      rw [hC] at e
      exact absurd e (hf _ _)
  have obj : ∀ {y p : ℕ} {I : Inst V} (_ : s.obj y = some (p, I)) (m : ℕ)
      (f : ℕ → State V B → Out V B (Option (Attrs V × B))) (_ : ∀ t u, f t u ≠ .raise s')
      (_ : (copies K m I.held.target s).bind f = .raise s'),
      s'.vars = s.vars ∧ s'.inst = s.inst ∧ s'.wrap = s.wrap ∧ s'.box = s.box ∧ s'.life = s.life := by
    intro y p I ho m f hf e
    have hO := hR.theObj y
    rw [ho] at hO
    obtain ⟨o, e₁, e₂, e₃, e₄, e₅, ⟨e₆, e₇⟩ | ⟨W, e₆, e₇, e₈, e₉⟩⟩ := hO
    · have : copies K m I.held.target s = .ub := by
        unfold State.part at e₆
        simp [copies, clone, e₆, Out.bind]
      rw [this] at e
      cases e
    · exact cp e₆ (by rw [e₉]; exact e₄) rfl m f hf e
  cases op with
  | make x y m =>
    simp only [step] at hr
    split at hr
    · split at hr
      · cases hr; exact ⟨rfl, rfl, rfl, rfl, rfl⟩
      · rename_i p I ho
        exact obj ho m _ (fun t u => st _ _ _) hr
    · cases hr; exact ⟨rfl, rfl, rfl, rfl, rfl⟩
  | assign x y m =>
    simp only [step] at hr
    split at hr
    · cases hr; exact ⟨rfl, rfl, rfl, rfl, rfl⟩
    · split at hr
      · cases hr; exact ⟨rfl, rfl, rfl, rfl, rfl⟩
      · rename_i p I ho
        exact obj ho m _ (fun t u => bind_ne_raise _ _ _ _ _) hr
  | copy x y m =>
    simp only [step] at hr
    split at hr
    · have hP := hR.theProb y
      split at hr
      · cases hr; exact ⟨rfl, rfl, rfl, rfl, rfl⟩
      · rename_i c X hp
        rw [hp] at hP
        obtain ⟨U, J, o', b, c₁, c₂, c₃, c₄, c₅, -⟩ := hP
        exact cp c₂ c₄ (by rw [c₅]; rfl) m _ (fun t u => st _ _ _) hr
    · cases hr; exact ⟨rfl, rfl, rfl, rfl, rfl⟩
  | _ =>
    simp only [step] at hr
    repeat' split at hr
    all_goals first
      | (cases hr; done)
      | (cases hr; exact ⟨rfl, rfl, rfl, rfl, rfl⟩)
      | exact absurd hr (st _ _ _)

/-! ### What is left over -/

/-- **C75.**  Once no name is bound, exactly those problems are still alive (and their objects, and nothing else) whose
object was read back and not replaced since. -/
theorem C75_left_over (K : Class V B G) (n : ℕ) (ops : List (Op V B G)) (s : State V B) (obs : List (Seen V B))
    (h : run K (State.init n) ops = some (s, obs)) (hv : ∀ r ∈ s.vars, r = none) :
    ∃ σ, Runs (.ofClass K) K.init (Store.init n) ops σ obs ∧
      (∀ c, s.box c ≠ none ↔ ∃ p, σ.prob c = some ⟨p, true⟩) ∧
      (∀ p, s.inst p ≠ none ↔ ∃ c, σ.prob c = some ⟨p, true⟩) ∧
      (∀ w, s.wrap w ≠ none ↔ ∃ p I, s.inst p = some I ∧ I.held.target = w) := by
  obtain ⟨σ, r, hR⟩ := run_rel K ops _ _ s obs (Rel.init n) h
  exact ⟨σ, r, left_over hR hv⟩

/-- **C75.**  Programs that never read a member back leave nothing over. -/
theorem C75_no_leak (K : Class V B G) (n : ℕ) (ops : List (Op V B G)) (ho : ∀ op ∈ ops, ∀ x y, op ≠ .read x y)
    (s : State V B) (obs : List (Seen V B)) (h : run K (State.init n) ops = some (s, obs))
    (hv : ∀ r ∈ s.vars, r = none) : (∀ c, s.box c = none) ∧ (∀ p, s.inst p = none) ∧ ∀ w, s.wrap w = none := by
  obtain ⟨σ, r, h1, h2, h3⟩ := C75_left_over K n ops s obs h hv
  have hu := runs_unseen r ho (by simp [Store.init])
  have hi : ∀ p, s.inst p = none := fun p => by
    by_contra hp
    obtain ⟨c, hc⟩ := (h2 p).1 hp
    exact hu c p hc
  refine ⟨fun c => ?_, hi, fun w => ?_⟩
  · by_contra hc
    obtain ⟨p, hp⟩ := (h1 c).1 hc
    exact hu c p hp
  · by_contra hw
    obtain ⟨p, I, e, -⟩ := (h3 w).1 hw
    rw [hi p] at e; cases e

/-- **C75, a leak.**  A problem whose object was read back once is never destroyed, unless its member is assigned: its own
object keeps it alive. -/
theorem C75_read_leaks (K : Class V B G) (n : ℕ) (ops ops' : List (Op V B G)) (x y : ℕ) (s s' : State V B)
    (obs obs' : List (Seen V B)) (h : run K (State.init n) ops = some (s, obs)) (hx : x < s.vars.length) (c : ℕ) (X : Box)
    (hc : s.prob y = some (c, X)) (ho : ∀ op ∈ ops', ∀ x y m, op ≠ .assign x y m)
    (h' : run K (State.init n) (ops ++ .read x y :: ops') = some (s', obs')) : s'.box c ≠ none := by
  obtain ⟨σ, -, hR⟩ := run_rel K ops _ _ s obs (Rel.init n) h
  rw [run_append, h] at h'
  obtain ⟨⟨t, u⟩, e₁, e₂⟩ := Option.map_eq_some_iff.1 h'
  cases e₂
  have hs := step_rel K hR (.read x y)
  have hP := hR.theProb y
  rw [hc] at hP
  obtain ⟨U, J, o', b, c₁, c₂, c₃, c₄, c₅, c₆, c₇, c₈, c₉, c₁₀⟩ := hP
  unfold run at e₁
  dsimp only at e₁
  have hap : ∀ k d, apply (.ofClass K) K.init σ k d (.read x y : Op V B G) = .ok none { σ with
      prob := Function.update σ.prob c (some ⟨U.self, true⟩), vars := σ.vars.set x (some (.obj U.self)) } := by
    intro k d
    simp [apply, hR.pre.vars, hx, c₆]
  cases he : step K s (.read x y) with
  | ok o s₁ =>
    rw [he] at hs e₁
    obtain ⟨k, d, σ₁, hk, hd, h1, h2⟩ := hs
    obtain ⟨⟨t, obs'⟩, e₃, e₄⟩ := Option.map_eq_some_iff.1 e₁
    cases e₄
    rw [hap] at h1
    cases h1
    exact run_seen K ops' _ s₁ t obs' h2 e₃ ho c U.self (Function.update_self _ _ _)
  | raise s₁ =>
    rw [he] at hs
    have := hs.1 0 0
    rw [hap] at this
    cases this
  | ub => rw [he] at e₁; cases e₁
  | fuel => rw [he] at e₁; cases e₁

/-! ### Objects read back do not survive an assignment -/

/-- **C75, a dangling pointer.**  After any program, reading the member of a problem, assigning another object to the
member and then using the object that was read is undefined behaviour (unless the assignment raises). -/
theorem C75_replaced_dangles (K : Class V B G) (n : ℕ) (ops : List (Op V B G)) (x y z m : ℕ) (hxy : x ≠ y) (hxz : x ≠ z)
    (s : State V B) (obs : List (Seen V B)) (h : run K (State.init n) ops = some (s, obs)) (hx : x < s.vars.length)
    (hs : ∀ s', step K s (.assign y z m) ≠ .raise s') :
    run K (State.init n) (ops ++ [.read x y, .assign y z m, .look x]) = none := by
  obtain ⟨σ, -, hR⟩ := run_rel K ops _ _ s obs (Rel.init n) h
  rw [run_append, h]
  dsimp only [Option.bind_some]
  rw [Option.map_eq_none_iff]
  have hxσ : x < σ.vars.length := by rw [hR.pre.vars]; exact hx
  have hne : ∃ k c, apply (.ofClass K) K.init σ k c (.assign y z m : Op V B G) ≠ .raise := by
    have := step_rel K hR (.assign y z m)
    cases he : step K s (.assign y z m) with
    | ok o s₁ =>
      rw [he] at this
      obtain ⟨k, c, σ₁, hk, hc, h1, h2⟩ := this
      exact ⟨k, c, by rw [h1]; simp⟩
    | raise s₁ => exact absurd he (hs s₁)
    | ub => rw [he] at this; exact ⟨0, 0, by rw [this]; simp⟩
    | fuel => rw [he] at this; exact this.elim
  obtain ⟨k₀, c₀, hne⟩ := hne
  cases hP : σ.theProb y with
  | none => simp [apply, hP] at hne
  | some q =>
    obtain ⟨d, q, old⟩ := q
    have hq : σ.name y = some (.prob d) ∧ σ.prob d = some q ∧ σ.obj q.obj = some old := by
      unfold Store.theProb at hP
      split at hP
      · rename_i hn
        obtain ⟨o', e₁, e₂⟩ := Option.bind_eq_some_iff.1 hP
        obtain ⟨o'', e₃, e₄⟩ := Option.map_eq_some_iff.1 e₂
        cases e₄
        exact ⟨hn, e₁, e₃⟩
      · cases hP
    obtain ⟨hn, hd, hold⟩ := hq
    cases hO : σ.theObj z with
    | none => simp [apply, hP, hO] at hne
    | some r =>
      obtain ⟨p, u⟩ := r
      refine run_none K hR fun k c _ _ => .inr ⟨_, _, by simp [apply, hxσ, hP]; exact ⟨rfl, rfl⟩, fun s₁ h₁ => ?_⟩
      have nm : ∀ w, w ≠ x → Store.name (⟨σ.obj, Function.update σ.prob d (some ⟨q.obj, true⟩),
          σ.vars.set x (some (.obj q.obj))⟩ : Store V B) w = σ.name w := by
        intro w hw
        simp [Store.name, List.getElem?_set_ne (Ne.symm hw)]
      have nmx : Store.name (⟨σ.obj, Function.update σ.prob d (some ⟨q.obj, true⟩),
          σ.vars.set x (some (.obj q.obj))⟩ : Store V B) x = some (.obj q.obj) := by
        simp [Store.name, hxσ]
      have hP' : Store.theProb (⟨σ.obj, Function.update σ.prob d (some ⟨q.obj, true⟩),
          σ.vars.set x (some (.obj q.obj))⟩ : Store V B) y = some (d, ⟨q.obj, true⟩, old) := by
        unfold Store.theProb
        rw [nm y (Ne.symm hxy), hn]
        simp [hold]
      have hO' : Store.theObj (⟨σ.obj, Function.update σ.prob d (some ⟨q.obj, true⟩),
          σ.vars.set x (some (.obj q.obj))⟩ : Store V B) z = some (p, u) := by
        unfold Store.theObj at hO ⊢
        rw [nm z (Ne.symm hxz)]
        exact hO
      simp only [apply, hP, hO] at hne
      refine run_none K h₁ fun k c hk _ => ?_
      simp only [apply, hP', hO']
      by_cases hst : u.stale = true
      · exact .inl (by simp [hst])
      · right
        simp only [hst] at hne ⊢
        cases hC : (Copying.ofClass K).stored m u.attrs u.base with
        | none => rw [hC] at hne; simp at hne
        | some a =>
          refine ⟨_, _, by simp; exact ⟨rfl, rfl⟩, fun s₂ h₂ => ?_⟩
          refine run_none K h₂ fun k' c' _ _ => .inl ?_
          have hkq : q.obj ≠ k := by rintro rfl; rw [hold] at hk; cases hk
          simp [apply, Store.theObj, Store.name, hxσ, hkq]

/-- **C75.**  A class whose instances cannot be deep-copied (say, `__init__` needs arguments and there is no
`__getinitargs__`) cannot be stored at all: no program ever has a problem with it. -/
theorem C75_unstorable (K : Class V B G) (hK : ∀ a b, K.deepcopy a b = none) (n : ℕ) (ops : List (Op V B G))
    (s : State V B) (obs : List (Seen V B)) (h : run K (State.init n) ops = some (s, obs)) (c : ℕ) : s.box c = none := by
  obtain ⟨σ, r, hR⟩ := run_rel K ops _ _ s obs (Rel.init n) h
  have hp := runs_noprob hK r (by simp [Store.init])
  by_contra hc
  obtain ⟨X, hX⟩ := Option.ne_none_iff_exists'.1 hc
  obtain ⟨⟨W, p, a₁, a₂⟩, -⟩ := hR.inv.slot c X hX
  obtain ⟨b, e⟩ := hR.pre.prob c X W hX a₁
  rw [hp c] at e
  cases e

/-! ### Examples -/

/-- `class Cls(CostBase): def __init__(self, g): super().__init__(g); self.a = g`, with `__getinitargs__` giving
`(self.a,)`. -/
def cls : Class ℕ ℕ ℕ :=
  ⟨fun g => some (fun i => if i = 0 then some g else none, g), fun a _ => a 0, fun a _ => some a⟩

/-- The same with `__getinitargs__` giving what the C++ part was made with. -/
def cls' : Class ℕ ℕ ℕ := { cls with args := fun _ b => some b }

/-- No `__getinitargs__`, so that `__init__` lacks its argument. -/
def cls0 : Class ℕ ℕ ℕ := { cls with args := fun _ _ => none }

/-- Attribute 0 and C++ part that each evaluation saw. -/
def shown (r : Option (State ℕ ℕ × List (Seen ℕ ℕ))) : Option (List (Option (Option ℕ × ℕ))) :=
  r.map fun q => q.2.map fun o => match o with
    | .done (some (a, b)) => some (a 0, b)
    | _ => none

theorem cls_faithful : Faithful cls (· = 0) := by
  refine ⟨?_, ?_, fun _ _ => rfl⟩
  · rintro g a b ⟨⟩ i
    by_cases hi : i = 0 <;> simp [hi]
  · intro a b ha
    obtain ⟨g, hg⟩ := Option.isSome_iff_exists.1 (ha 0 rfl)
    exact ⟨g, _, hg, rfl⟩

theorem cls'_faithful : Faithful cls' (· = 0) ∧ Rebuilds cls' := by
  refine ⟨⟨?_, fun a b _ => ⟨b, _, rfl, rfl⟩, fun _ _ => rfl⟩, ?_⟩
  · rintro g a b ⟨⟩ i
    by_cases hi : i = 0 <;> simp [hi]
  · rintro a b g r ⟨⟩ ⟨⟩
    rfl

local macro "execute" : tactic => `(tactic|
  simp [run, step, cls, cls', cls0, shown, State.init, store, State.fuel, release, State.create, Out.bind, State.obj, State.prob,
    copies, clone, clones, State.part, Held.target, Class.deepcopy, Function.update_apply])

set_option linter.unusedSimpArgs false

/-- The stored object is a copy with its own attributes and C++ part; the original goes its own way and may be deleted;
the object read back is the stored one. -/
example : shown (run cls (State.init 3) [.new 0 5, .setAttr 0 0 6, .setBase 0 7, .make 1 0 2, .setAttr 0 0 8, .setBase 0 9,
    .solve 1, .look 0, .del 0, .solve 1, .read 2 1, .setAttr 2 0 10, .setBase 2 11, .solve 1]) =
    some [none, none, none, none, none, none, some (some 6, 7), some (some 8, 9), none, some (some 6, 7), none, none, none,
      some (some 10, 11)] := by
  execute

/-- The object read back outlives the names of the problem. -/
example : shown (run cls (State.init 3) [.new 0 5, .make 1 0 0, .read 2 1, .del 1, .del 0, .look 2]) =
    some [none, none, none, none, none, some (some 5, 5)] := by
  execute

/-- **C75, negation.**  `copy.deepcopy` loses changes of the C++ part. -/
theorem C75_deepcopy_loses :
    shown (run cls (State.init 2) [.new 0 5, .setBase 0 7, .look 0, .deepcopy 1 0, .look 1]) =
      some [none, none, some (some 5, 7), none, some (some 5, 5)] := by
  execute

/-- It does not when the class rebuilds its C++ part. -/
example : shown (run cls' (State.init 2) [.new 0 5, .setBase 0 7, .look 0, .deepcopy 1 0, .look 1]) =
    some [none, none, some (some 5, 7), none, some (some 5, 7)] := by
  execute

/-- **C75, negation.**  Attributes that were deleted come back in the stored copy. -/
theorem C75_deleted_returns :
    shown (run cls' (State.init 2) [.new 0 5, .delAttr 0 0, .look 0, .make 1 0 0, .solve 1]) =
      some [none, none, some (none, 5), none, some (some 5, 5)] := by
  execute

/-- **C75, negation.**  The object that was read back is used after another one was assigned. -/
theorem C75_stale_ub : run cls (State.init 3) [.new 0 5, .make 1 0 0, .read 2 1, .assign 1 0 0, .look 2] = none := by
  execute

/-- Setting its attributes is still defined, and so is deleting it. -/
example : shown (run cls (State.init 3) [.new 0 5, .make 1 0 0, .read 2 1, .assign 1 0 0, .setAttr 2 0 6, .del 2, .solve 1]) =
    some [none, none, none, none, none, none, some (some 5, 5)] := by
  execute

/-- **C75, negation.**  Reading the cost of a problem once leaks the problem. -/
theorem C75_leak_witness :
    (run cls (State.init 3) [.new 0 5, .make 1 0 0, .read 2 1, .del 0, .del 1, .del 2]).map
      (fun r => (r.1.vars, (r.1.box 5).isSome)) = some ([none, none, none], true) := by
  execute

/-- Without the read nothing is left. -/
example : (run cls (State.init 3) [.new 0 5, .make 1 0 0, .del 0, .del 1]).map
    (fun r => (r.1.vars, (r.1.box 5).isSome, (r.1.inst 1).isSome, (r.1.wrap 0).isSome)) =
      some ([none, none, none], false, false, false) := by
  execute

/-- A class that cannot be copied. -/
example : (∀ a b, cls0.deepcopy a b = none) ∧
    shown (run cls0 (State.init 2) [.new 0 5, .make 1 0 0, .look 0]) = some [none, none, some (some 5, 5)] :=
  ⟨fun _ _ => rfl, by execute⟩

/-- The hypotheses of `C75_values_partial` are met. -/
example : Faithful cls (· = 0) ∧ ∀ op ∈ [(.new 0 5 : Op ℕ ℕ ℕ), .make 1 0 2, .solve 1], Plain cls op :=
  ⟨cls_faithful, by simp [Plain]⟩

/-- The hypotheses of `C75_replaced_dangles` are met. -/
example : ∃ s obs, run cls (State.init 3) [.new 0 5, .make 1 0 0] = some (s, obs) ∧ 2 < s.vars.length ∧
    ∀ s', step cls s (.assign 1 0 0) ≠ .raise s' := by
  refine ⟨_, _, by execute; exact ⟨rfl, rfl⟩, ?_, ?_⟩
  · execute
  · intro s'
    execute

end Aligator.PyObj
