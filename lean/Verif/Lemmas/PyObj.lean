import Verif.Spec.PyObj
import Mathlib.Data.Finset.Card
import Mathlib.Data.Finset.Range
import Mathlib.Tactic.Linarith

/-! Lemmas: reference counts and ownership of Python-derived objects. -/

namespace Aligator.PyObj

variable {V B G : Type}

/-- One more reference while a living C++ part owns the instance. -/
def State.owned (s : State V B) (I : Inst V) : ℕ :=
  match I.held with
  | .own _ => 0
  | .ptr w => if (s.wrap w).isSome then 1 else 0

/-- Reference counts and ownership, with pending releases `D`, stale objects `St` and read problems `Sn`. -/
structure Inv (St : ℕ → Prop) (Sn : ℕ → ℕ → Prop) (s : State V B) (D : List Dead) : Prop where
  instLt : ∀ p, s.next ≤ p → s.inst p = none
  wrapLt : ∀ w, s.next ≤ w → s.wrap w = none
  boxLt : ∀ c, s.next ≤ c → s.box c = none
  heldLt : ∀ p I, s.inst p = some I → I.held.target < s.next
  instRc : ∀ p I, s.inst p = some I →
    I.rc = s.vars.count (some (.obj p)) + D.count (.ref (.obj p)) + s.owned I ∧ 0 < I.rc
  instVar : ∀ p, some (.obj p) ∈ s.vars → s.inst p ≠ none
  instDead : ∀ p, .ref (.obj p) ∈ D → s.inst p ≠ none
  boxRc : ∀ c X, s.box c = some X →
    X.rc = s.vars.count (some (.prob c)) + D.count (.ref (.prob c)) + s.life.countP (fun e => e.2 = c) ∧ 0 < X.rc
  boxVar : ∀ c, some (.prob c) ∈ s.vars → s.box c ≠ none
  boxDead : ∀ c, .ref (.prob c) ∈ D → s.box c ≠ none
  boxLife : ∀ p c, (p, c) ∈ s.life → s.box c ≠ none
  lifeInst : ∀ p c, (p, c) ∈ s.life → ∃ I w, s.inst p = some I ∧ I.held = .ptr w ∧
    ∀ X, s.box c = some X → s.wrap w = none ∨ .wrap w ∈ D ∨ X.slot = w
  wrapSelf : ∀ w W, s.wrap w = some W → W.owner = none →
    .wrap w ∈ D ∨ ∃ I, s.inst W.self = some I ∧ I.held = .own w
  wrapOwn : ∀ w W p, s.wrap w = some W → W.owner = some p → W.self = p ∧ (∃ I, s.inst p = some I ∧ I.held = .ptr w) ∧
    (.wrap w ∈ D ∨ ∃ c X, s.box c = some X ∧ X.slot = w)
  own : ∀ p I w, s.inst p = some I → I.held = .own w →
    (∃ W, s.wrap w = some W ∧ W.self = p ∧ W.owner = none) ∧ .wrap w ∉ D
  ptr : ∀ p I w W, s.inst p = some I → I.held = .ptr w → s.wrap w = some W → W.self = p ∧ W.owner = some p
  slot : ∀ c X, s.box c = some X → (∃ W p, s.wrap X.slot = some W ∧ W.owner = some p) ∧ .wrap X.slot ∉ D
  slotInj : ∀ c c' X X', s.box c = some X → s.box c' = some X' → X.slot = X'.slot → c = c'
  pend : ∀ w, .wrap w ∈ D → s.wrap w ≠ none
  pendOne : ∀ w, D.count (.wrap w) ≤ 1
  aliased : ∀ c X W p, s.box c = some X → s.wrap X.slot = some W → W.owner = some p →
    (some (.obj p) ∈ s.vars ∨ .ref (.obj p) ∈ D) → (p, c) ∈ s.life
  stale0 : ∀ w W p, .wrap w ∈ D → s.wrap w = some W → W.owner = some p → St p ∨ some (.obj p) ∉ s.vars
  stale1 : ∀ p I w, s.inst p = some I → I.held = .ptr w → s.wrap w = none → St p ∨ some (.obj p) ∉ s.vars
  stale2 : ∀ p I, St p → s.inst p = some I → ∃ w, I.held = .ptr w ∧ (s.wrap w = none ∨ .wrap w ∈ D)
  seen : ∀ c p, Sn c p → ∃ X W, s.box c = some X ∧ s.wrap X.slot = some W ∧ W.owner = some p ∧ (p, c) ∈ s.life

variable {St : ℕ → Prop} {Sn : ℕ → ℕ → Prop} {s : State V B}

/-- What a release leaves alone. -/
structure Frame (s s' : State V B) : Prop where
  vars : s'.vars = s.vars
  next : s'.next = s.next
  inst : ∀ p I', s'.inst p = some I' → ∃ I, s.inst p = some I ∧ I'.attrs = I.attrs ∧ I'.held = I.held
  wrap : ∀ w W, s'.wrap w = some W → s.wrap w = some W
  box : ∀ c X', s'.box c = some X' → ∃ X, s.box c = some X ∧ X'.slot = X.slot
  life : ∀ e, e ∈ s'.life → e ∈ s.life

theorem Frame.refl (s : State V B) : Frame s s :=
  ⟨rfl, rfl, fun _ I h => ⟨I, h, rfl, rfl⟩, fun _ _ h => h, fun _ X h => ⟨X, h, rfl⟩, fun _ h => h⟩

theorem Frame.trans {s s' s'' : State V B} (h : Frame s s') (h' : Frame s' s'') : Frame s s'' := by
  refine ⟨h'.vars.trans h.vars, h'.next.trans h.next, fun p I e => ?_, fun w W e => h.wrap _ _ (h'.wrap _ _ e),
    fun c X e => ?_, fun e he => h.life _ (h'.life _ he)⟩
  · obtain ⟨J, e₁, e₂, e₃⟩ := h'.inst _ _ e
    obtain ⟨J', e₄, e₅, e₆⟩ := h.inst _ _ e₁
    exact ⟨J', e₄, e₂.trans e₅, e₃.trans e₆⟩
  · obtain ⟨J, e₁, e₂⟩ := h'.box _ _ e
    obtain ⟨J', e₄, e₅⟩ := h.box _ _ e₁
    exact ⟨J', e₄, e₂.trans e₅⟩

/-! ### The four micro steps of a release -/

/-- A C++ part dies. -/
theorem Inv.dropWrap {w : ℕ} {D : List Dead} (h : Inv St Sn s (.wrap w :: D)) {W : Wrap B} (hw : s.wrap w = some W) :
    Inv St Sn { s with wrap := Function.update s.wrap w none }
      ((W.owner.toList.map fun p => .ref (.obj p)) ++ D) := by
  have hD : Dead.wrap w ∉ D := by
    have := h.pendOne w
    rw [List.count_cons_self] at this
    exact List.count_eq_zero.1 (by omega)
  have m1 : ∀ p, Dead.ref (.obj p) ∈ (W.owner.toList.map fun p => Dead.ref (.obj p)) ++ D ↔
      W.owner = some p ∨ Dead.ref (.obj p) ∈ D := by
    intro p; cases W.owner <;> simp [eq_comm]
  have m2 : ∀ c, Dead.ref (.prob c) ∈ (W.owner.toList.map fun p => Dead.ref (.obj p)) ++ D ↔
      Dead.ref (.prob c) ∈ Dead.wrap w :: D := by
    intro p; cases W.owner <;> simp
  have m3 : ∀ v, Dead.wrap v ∈ (W.owner.toList.map fun p => Dead.ref (.obj p)) ++ D ↔
      v ≠ w ∧ Dead.wrap v ∈ Dead.wrap w :: D := by
    intro v
    have : Dead.wrap v ∈ (W.owner.toList.map fun p => Dead.ref (.obj p)) ++ D ↔ Dead.wrap v ∈ D := by
      cases W.owner <;> simp
    rw [this]
    by_cases hv : v = w
    · subst hv; simp [hD]
    · simp [hv]
  have c1 : ∀ p, List.count (Dead.ref (.obj p)) ((W.owner.toList.map fun p => Dead.ref (.obj p)) ++ D) =
      (if W.owner = some p then 1 else 0) + List.count (Dead.ref (.obj p)) (Dead.wrap w :: D) := by
    intro p; cases W.owner <;> simp [List.count_cons, add_comm]
  have c2 : ∀ c, List.count (Dead.ref (.prob c)) ((W.owner.toList.map fun p => Dead.ref (.obj p)) ++ D) =
      List.count (Dead.ref (.prob c)) (Dead.wrap w :: D) := by
    intro p; cases W.owner <;> simp [List.count_cons]
  have c3 : ∀ v, List.count (Dead.wrap v) ((W.owner.toList.map fun p => Dead.ref (.obj p)) ++ D) ≤
      List.count (Dead.wrap v) (Dead.wrap w :: D) := by
    intro p; cases W.owner <;> simp [List.count_cons]
  have hin : Dead.wrap w ∈ Dead.wrap w :: D := List.mem_cons_self
  have m1' : ∀ p, Dead.ref (.obj p) ∈ D ↔ Dead.ref (.obj p) ∈ Dead.wrap w :: D := by simp
  simp only [m1'] at m1
  clear hD m1'
  generalize Dead.wrap w :: D = D₀ at *
  generalize (W.owner.toList.map fun p => Dead.ref (.obj p)) ++ D = D₁ at *
  have up : ∀ v, Function.update s.wrap w none v = if v = w then none else s.wrap v :=
    fun v => by simp [Function.update_apply]
  constructor
  case instLt => exact h.instLt
  case wrapLt => intro v hv; dsimp only; rw [up]; have := h.wrapLt v hv; grind
  case boxLt => exact h.boxLt
  case heldLt => exact h.heldLt
  case instRc =>
    intro p I hI
    have a := h.instRc p I hI
    have b := h.wrapOwn w W
    have c := h.ptr p I w W hI
    dsimp only [State.owned] at *
    rw [c1]
    cases hh : I.held with
    | own v =>
      have d : W.owner ≠ some p := by
        intro e
        obtain ⟨_, ⟨J, e₁, e₂⟩, _⟩ := b p hw e
        grind
      grind
    | ptr v =>
      rw [hh] at a
      dsimp only [up] at *
      by_cases hv : v = w
      · subst hv
        have := (c hh hw).2
        simp [hw, this] at a ⊢
        omega
      · have d : W.owner ≠ some p := by
          intro e
          obtain ⟨_, ⟨J, e₁, e₂⟩, _⟩ := b p hw e
          grind
        simp [hv, d] at a ⊢
        exact a
  case instVar => exact h.instVar
  case instDead =>
    intro p hp
    rcases (m1 p).1 hp with e | e
    · obtain ⟨_, ⟨J, e₁, e₂⟩, _⟩ := h.wrapOwn w W p hw e
      dsimp only; simp [e₁]
    · exact h.instDead p e
  case boxRc => intro c X hX; dsimp only; rw [c2]; exact h.boxRc c X hX
  case boxVar => exact h.boxVar
  case boxDead => intro c hc; exact h.boxDead c ((m2 c).1 hc)
  case boxLife => exact h.boxLife
  case lifeInst =>
    intro p c hp
    obtain ⟨I, v, e₁, e₂, e₃⟩ := h.lifeInst p c hp
    refine ⟨I, v, e₁, e₂, fun X hX => ?_⟩
    have := e₃ X hX
    dsimp only; rw [up]; grind
  case wrapSelf =>
    intro v U hU hO
    dsimp only at hU; rw [up] at hU
    have := h.wrapSelf v U; grind
  case wrapOwn =>
    intro v U p hU hO
    dsimp only at hU; rw [up] at hU
    have := h.wrapOwn v U p; grind
  case own =>
    intro p I v hI hh
    have := h.own p I v hI hh
    dsimp only; rw [up]; grind
  case ptr =>
    intro p I v U hI hh hU
    dsimp only at hU; rw [up] at hU
    have := h.ptr p I v U; grind
  case slot =>
    intro c X hX
    have := h.slot c X hX
    dsimp only; rw [up]; grind
  case slotInj => exact h.slotInj
  case pend =>
    intro v hv
    have := h.pend v
    dsimp only; rw [up]; grind
  case pendOne => intro v; exact (c3 v).trans (h.pendOne v)
  case aliased =>
    intro c X U p hX hU hO hh
    dsimp only at hU; rw [up] at hU
    have a := h.aliased c X U p hX
    have b := h.wrapOwn w W p hw
    have d := h.wrapOwn X.slot U p
    grind
  case stale0 =>
    intro v U p hv hU hO
    dsimp only at hU; rw [up] at hU
    have := h.stale0 v U p; grind
  case stale1 =>
    intro p I v hI hh hU
    dsimp only at hU; rw [up] at hU
    by_cases hv : v = w
    · subst hv
      exact h.stale0 v W p hin hw (h.ptr p I v W hI hh hw).2
    · rw [if_neg hv] at hU
      exact h.stale1 p I v hI hh hU
  case stale2 =>
    intro p I hp hI
    obtain ⟨v, e₁, e₂⟩ := h.stale2 p I hp hI
    refine ⟨v, e₁, ?_⟩
    dsimp only; rw [up]; grind
  case seen =>
    intro c p hc
    obtain ⟨X, U, e₁, e₂, e₃, e₄⟩ := h.seen c p hc
    have := h.slot c X e₁
    refine ⟨X, U, e₁, ?_, e₃, e₄⟩
    dsimp only; rw [up]; grind

/-- A reference to an instance with others is given up. -/
theorem Inv.decInst {p : ℕ} {D : List Dead} (h : Inv St Sn s (.ref (.obj p) :: D)) {I : Inst V} (hp : s.inst p = some I)
    (hrc : 1 < I.rc) :
    Inv St Sn { s with inst := Function.update s.inst p (some { I with rc := I.rc - 1 }) } D := by
  have m1 : ∀ d, d ∈ D → d ∈ Dead.ref (.obj p) :: D := fun d hd => List.mem_cons_of_mem _ hd
  have m3 : ∀ w, Dead.wrap w ∈ D ↔ Dead.wrap w ∈ Dead.ref (.obj p) :: D := by simp
  have c1 : ∀ q, List.count (Dead.ref (.obj q)) (Dead.ref (.obj p) :: D) =
      List.count (Dead.ref (.obj q)) D + if q = p then 1 else 0 := by
    intro q; rw [List.count_cons]; congr 1; by_cases hq : q = p
    · simp [hq]
    · simp [hq, Ne.symm hq]
  have c2 : ∀ c, List.count (Dead.ref (.prob c)) (Dead.ref (.obj p) :: D) = List.count (Dead.ref (.prob c)) D := by
    intro q; simp
  have c3 : ∀ c, List.count (Dead.wrap c) (Dead.ref (.obj p) :: D) = List.count (Dead.wrap c) D := by
    intro q; simp
  generalize Dead.ref (.obj p) :: D = D₀ at *
  have up : ∀ q, Function.update s.inst p (some { I with rc := I.rc - 1 }) q =
      if q = p then some { I with rc := I.rc - 1 } else s.inst q := fun v => by simp [Function.update_apply]
  have key : ∀ q J, Function.update s.inst p (some { I with rc := I.rc - 1 }) q = some J →
      ∃ J₀, s.inst q = some J₀ ∧ J₀.attrs = J.attrs ∧ J₀.held = J.held := by
    intro q J hJ; rw [up] at hJ; grind
  have key' : ∀ q J, s.inst q = some J → ∃ J', Function.update s.inst p (some { I with rc := I.rc - 1 }) q = some J' ∧
      J'.held = J.held := by
    intro q J hJ; rw [up]; grind
  have key0 : ∀ q, s.inst q ≠ none → Function.update s.inst p (some { I with rc := I.rc - 1 }) q ≠ none := by
    intro q hq; rw [up]; grind
  constructor
  case instLt => intro q hq; dsimp only; rw [up]; have := h.instLt q hq; grind
  case wrapLt => exact h.wrapLt
  case boxLt => exact h.boxLt
  case heldLt =>
    intro q J hJ
    obtain ⟨J₀, e₁, e₂, e₃⟩ := key q J hJ
    rw [← e₃]; exact h.heldLt q J₀ e₁
  case instRc =>
    intro q J hJ
    dsimp only at hJ
    rw [up] at hJ
    by_cases hq : q = p
    · subst hq
      have a := h.instRc q I hp
      rw [c1] at a
      simp only [if_true, Option.some.injEq] at hJ
      subst hJ
      simp only [State.owned] at a ⊢
      simp only [if_true] at a
      omega
    · rw [if_neg hq] at hJ
      have a := h.instRc q J hJ
      rw [c1, if_neg hq] at a
      exact a
  case instVar => intro q hq; exact key0 q (h.instVar q hq)
  case instDead => intro q hq; exact key0 q (h.instDead q (m1 _ hq))
  case boxRc => intro c X hX; have := h.boxRc c X hX; rw [c2] at this; exact this
  case boxVar => exact h.boxVar
  case boxDead => intro c hc; exact h.boxDead c (m1 _ hc)
  case boxLife => exact h.boxLife
  case lifeInst =>
    intro q c hq
    obtain ⟨J, v, e₁, e₂, e₃⟩ := h.lifeInst q c hq
    obtain ⟨J', e₄, e₅⟩ := key' q J e₁
    refine ⟨J', v, e₄, e₅.trans e₂, fun X hX => ?_⟩
    have := e₃ X hX
    rwa [m3]
  case wrapSelf =>
    intro w W hW hO
    rw [m3]
    rcases h.wrapSelf w W hW hO with e | ⟨J, e₁, e₂⟩
    · exact .inl e
    · obtain ⟨J', e₄, e₅⟩ := key' _ J e₁
      exact .inr ⟨J', e₄, e₅.trans e₂⟩
  case wrapOwn =>
    intro w W q hW hO
    rw [m3]
    obtain ⟨e, ⟨J, e₁, e₂⟩, e₃⟩ := h.wrapOwn w W q hW hO
    obtain ⟨J', e₄, e₅⟩ := key' _ J e₁
    exact ⟨e, ⟨J', e₄, e₅.trans e₂⟩, e₃⟩
  case own =>
    intro q J w hJ hh
    obtain ⟨J₀, e₁, e₂, e₃⟩ := key q J hJ
    rw [m3]
    exact h.own q J₀ w e₁ (e₃.trans hh)
  case ptr =>
    intro q J w W hJ hh hW
    obtain ⟨J₀, e₁, e₂, e₃⟩ := key q J hJ
    exact h.ptr q J₀ w W e₁ (e₃.trans hh) hW
  case slot => intro c X hX; rw [m3]; exact h.slot c X hX
  case slotInj => exact h.slotInj
  case pend => intro w hw; exact h.pend w (m1 _ hw)
  case pendOne => intro w; rw [← c3]; exact h.pendOne w
  case aliased =>
    intro c X W q hX hW hO hh
    exact h.aliased c X W q hX hW hO (hh.imp id (m1 _))
  case stale0 => intro w W q hw; exact h.stale0 w W q (m1 _ hw)
  case stale1 =>
    intro q J w hJ hh
    obtain ⟨J₀, e₁, e₂, e₃⟩ := key q J hJ
    exact h.stale1 q J₀ w e₁ (e₃.trans hh)
  case stale2 =>
    intro q J hq hJ
    obtain ⟨J₀, e₁, e₂, e₃⟩ := key q J hJ
    rw [← e₃]
    simp only [m3]
    exact h.stale2 q J₀ hq e₁
  case seen => exact h.seen

/-- An instance dies with its last reference. -/
theorem Inv.killInst {p : ℕ} {D : List Dead} (h : Inv St Sn s (.ref (.obj p) :: D)) {I : Inst V} (hp : s.inst p = some I)
    (hrc : I.rc = 1) :
    Inv St Sn { s with inst := Function.update s.inst p none, life := s.life.filter fun e => e.1 ≠ p }
      (((match I.held with | .own w => [.wrap w] | .ptr _ => []) ++
        ((s.life.filter fun e => e.1 = p).map fun e => .ref (.prob e.2))) ++ D) := by
  obtain ⟨a, -⟩ := h.instRc p I hp
  rw [hrc, List.count_cons_self] at a
  have a1 : some (Ref.obj p) ∉ s.vars := List.count_eq_zero.1 (by omega)
  have a2 : Dead.ref (.obj p) ∉ D := List.count_eq_zero.1 (by omega)
  have a3 : s.owned I = 0 := by omega
  have a4 : ∀ w, I.held = .ptr w → s.wrap w = none := by
    intro w hw
    simp only [State.owned, hw] at a3
    cases hx : s.wrap w with
    | none => rfl
    | some W => rw [hx] at a3; simp at a3
  have a5 : ∀ w W, s.wrap w = some W → W.owner ≠ some p := by
    intro w W hw hO
    obtain ⟨_, ⟨J, e₁, e₂⟩, _⟩ := h.wrapOwn w W p hw hO
    rw [hp] at e₁; cases e₁
    rw [a4 w e₂] at hw; exact absurd hw (by simp)
  clear a a3
  set H : List Dead := (match I.held with | .own w => [.wrap w] | .ptr _ => []) with hH
  set P : List Dead := (s.life.filter fun e => e.1 = p).map fun e => Dead.ref (.prob e.2) with hP
  have b1 : ∀ w, Dead.wrap w ∈ (H ++ P) ++ D ↔ I.held = .own w ∨ Dead.wrap w ∈ Dead.ref (.obj p) :: D := by
    intro w
    have : Dead.wrap w ∉ P := by simp [hP]
    have : Dead.wrap w ∈ H ↔ I.held = .own w := by rw [hH]; cases I.held <;> simp [eq_comm]
    simp_all
  have b2 : ∀ q, Dead.ref (.obj q) ∈ (H ++ P) ++ D ↔ q ≠ p ∧ Dead.ref (.obj q) ∈ Dead.ref (.obj p) :: D := by
    intro q
    have : Dead.ref (.obj q) ∉ P := by simp [hP]
    have : Dead.ref (.obj q) ∉ H := by rw [hH]; cases I.held <;> simp
    by_cases hq : q = p
    · subst hq; simp_all
    · simp_all
  have b3 : ∀ c, Dead.ref (.prob c) ∈ (H ++ P) ++ D ↔ (p, c) ∈ s.life ∨ Dead.ref (.prob c) ∈ Dead.ref (.obj p) :: D := by
    intro c
    have : Dead.ref (.prob c) ∈ P ↔ (p, c) ∈ s.life := by simp [hP]
    have : Dead.ref (.prob c) ∉ H := by rw [hH]; cases I.held <;> simp
    simp_all
  have c1 : ∀ w, List.count (Dead.wrap w) ((H ++ P) ++ D) =
      (if I.held = .own w then 1 else 0) + List.count (Dead.wrap w) (Dead.ref (.obj p) :: D) := by
    intro w
    have e : List.count (Dead.wrap w) P = 0 := by rw [List.count_eq_zero]; simp [hP]
    have e' : List.count (Dead.wrap w) H = if I.held = .own w then 1 else 0 := by
      rw [hH]; cases hh : I.held with
      | own v => by_cases hv : v = w <;> simp [hv]
      | ptr v => simp
    rw [List.count_append, List.count_append, e, e']; simp
  have c2 : ∀ q, q ≠ p → List.count (Dead.ref (.obj q)) ((H ++ P) ++ D) =
      List.count (Dead.ref (.obj q)) (Dead.ref (.obj p) :: D) := by
    intro q hq
    have e : List.count (Dead.ref (.obj q)) P = 0 := by rw [List.count_eq_zero]; simp [hP]
    have e' : List.count (Dead.ref (.obj q)) H = 0 := by rw [List.count_eq_zero, hH]; cases I.held <;> simp
    rw [List.count_append, List.count_append, e, e']; simp [Ne.symm hq]
  have c3 : ∀ c, List.count (Dead.ref (.prob c)) ((H ++ P) ++ D) + (s.life.filter fun e => e.1 ≠ p).countP (fun e => e.2 = c) =
      List.count (Dead.ref (.prob c)) (Dead.ref (.obj p) :: D) + s.life.countP (fun e => e.2 = c) := by
    intro c
    have e : List.count (Dead.ref (.prob c)) P = (s.life.filter fun e => e.1 = p).countP (fun e => e.2 = c) := by
      rw [hP, List.count, List.countP_map]
      congr 1
      funext e
      by_cases he : e.2 = c <;> simp [he]
    have e' : List.count (Dead.ref (.prob c)) H = 0 := by rw [List.count_eq_zero, hH]; cases I.held <;> simp
    have e'' : (s.life.filter fun e => e.1 = p).countP (fun e => e.2 = c) +
        (s.life.filter fun e => e.1 ≠ p).countP (fun e => e.2 = c) = s.life.countP (fun e => e.2 = c) := by
      generalize s.life = l
      induction l with
      | nil => rfl
      | cons e l ih =>
        by_cases h1 : e.1 = p <;> by_cases h2 : e.2 = c <;> simp_all <;> omega
    rw [List.count_append, List.count_append, e, e']
    simp only [List.count_cons, beq_iff_eq]
    simp
    simp at e''
    omega
  have hself : Dead.ref (.obj p) ∈ Dead.ref (.obj p) :: D := List.mem_cons_self
  have b0 := a2
  clear a2 hself
  generalize Dead.ref (.obj p) :: D = D₀ at *
  generalize (H ++ P) ++ D = D₁ at *
  clear_value H P
  have up : ∀ q, Function.update s.inst p none q = if q = p then none else s.inst q :=
    fun v => by simp [Function.update_apply]
  have lf : ∀ q c, (q, c) ∈ (s.life.filter fun e => e.1 ≠ p) ↔ (q, c) ∈ s.life ∧ q ≠ p := by
    intro q c; simp
  constructor
  case instLt => intro q hq; dsimp only; rw [up]; have := h.instLt q hq; grind
  case wrapLt => exact h.wrapLt
  case boxLt => exact h.boxLt
  case heldLt => intro q J hJ; dsimp only at hJ; rw [up] at hJ; have := h.heldLt q J; grind
  case instRc =>
    intro q J hJ; dsimp only at hJ; rw [up] at hJ
    by_cases hq : q = p
    · simp [hq] at hJ
    · rw [if_neg hq] at hJ
      dsimp only
      rw [c2 q hq]
      exact h.instRc q J hJ
  case instVar => intro q hq; dsimp only; rw [up]; have := h.instVar q hq; grind
  case instDead => intro q hq; dsimp only; rw [up]; have := h.instDead q; grind
  case boxRc =>
    intro c X hX
    have := h.boxRc c X hX
    have := c3 c
    dsimp only
    omega
  case boxVar => exact h.boxVar
  case boxDead =>
    intro c hc
    rcases (b3 c).1 hc with e | e
    · exact h.boxLife p c e
    · exact h.boxDead c e
  case boxLife => intro q c hq; exact h.boxLife q c ((lf q c).1 hq).1
  case lifeInst =>
    intro q c hq
    obtain ⟨hq, hne⟩ := (lf q c).1 hq
    obtain ⟨J, v, e₁, e₂, e₃⟩ := h.lifeInst q c hq
    refine ⟨J, v, ?_, e₂, fun X hX => ?_⟩
    · dsimp only; rw [up, if_neg hne]; exact e₁
    · have := e₃ X hX
      dsimp only; rw [b1]; grind
  case wrapSelf =>
    intro w W hW hO
    rw [b1]
    rcases h.wrapSelf w W hW hO with e | ⟨J, e₁, e₂⟩
    · exact .inl (.inr e)
    · by_cases hs : W.self = p
      · rw [hs, hp] at e₁; cases e₁; exact .inl (.inl e₂)
      · exact .inr ⟨J, by dsimp only; rw [up, if_neg hs]; exact e₁, e₂⟩
  case wrapOwn =>
    intro w W q hW hO
    rw [b1]
    obtain ⟨e, ⟨J, e₁, e₂⟩, e₃⟩ := h.wrapOwn w W q hW hO
    have hq : q ≠ p := fun e => a5 w W hW (e ▸ hO)
    refine ⟨e, ⟨J, by dsimp only; rw [up, if_neg hq]; exact e₁, e₂⟩, e₃.imp .inr id⟩
  case own =>
    intro q J w hJ hh; dsimp only at hJ; rw [up] at hJ
    by_cases hq : q = p
    · simp [hq] at hJ
    · rw [if_neg hq] at hJ
      obtain ⟨⟨W, e₁, e₂, e₃⟩, e₄⟩ := h.own q J w hJ hh
      refine ⟨⟨W, e₁, e₂, e₃⟩, ?_⟩
      rw [b1]
      rintro (e | e)
      · obtain ⟨⟨W', e₅, e₆, e₇⟩, -⟩ := h.own p I w hp e
        rw [e₁] at e₅; cases e₅; exact hq (e₂.symm.trans e₆)
      · exact e₄ e
  case ptr =>
    intro q J w W hJ hh hW; dsimp only at hJ; rw [up] at hJ
    by_cases hq : q = p
    · simp [hq] at hJ
    · rw [if_neg hq] at hJ
      exact h.ptr q J w W hJ hh hW
  case slot =>
    intro c X hX
    obtain ⟨⟨W, q, e₁, e₂⟩, e₃⟩ := h.slot c X hX
    refine ⟨⟨W, q, e₁, e₂⟩, ?_⟩
    rw [b1]
    rintro (e | e)
    · obtain ⟨⟨W', e₅, e₆, e₇⟩, -⟩ := h.own p I _ hp e
      rw [e₁] at e₅; cases e₅; rw [e₂] at e₇; exact absurd e₇ (by simp)
    · exact e₃ e
  case slotInj => exact h.slotInj
  case pend =>
    intro w hw
    rcases (b1 w).1 hw with e | e
    · obtain ⟨⟨W', e₅, e₆, e₇⟩, -⟩ := h.own p I w hp e
      dsimp only; rw [e₅]; simp
    · exact h.pend w e
  case pendOne =>
    intro w
    rw [c1]
    by_cases e : I.held = .own w
    · have := (h.own p I w hp e).2
      rw [List.count_eq_zero.2 this]; simp [e]
    · have := h.pendOne w
      simp [e]; exact this
  case aliased =>
    intro c X W q hX hW hO hh
    dsimp only at hX hW hh ⊢
    rw [lf]
    have hq : q ≠ p := fun e => a5 _ W hW (e ▸ hO)
    exact ⟨h.aliased c X W q hX hW hO (hh.imp id fun e => ((b2 q).1 e).2), hq⟩
  case stale0 =>
    intro w W q hw hW hO
    rcases (b1 w).1 hw with e | e
    · obtain ⟨⟨W', e₅, e₆, e₇⟩, -⟩ := h.own p I w hp e
      dsimp only at hW; rw [hW] at e₅; cases e₅; rw [hO] at e₇; exact absurd e₇ (by simp)
    · exact h.stale0 w W q e hW hO
  case stale1 =>
    intro q J w hJ hh hW; dsimp only at hJ; rw [up] at hJ
    by_cases hq : q = p
    · simp [hq] at hJ
    · rw [if_neg hq] at hJ
      exact h.stale1 q J w hJ hh hW
  case stale2 =>
    intro q J hS hJ; dsimp only at hJ; rw [up] at hJ
    by_cases hq : q = p
    · simp [hq] at hJ
    · rw [if_neg hq] at hJ
      obtain ⟨w, e₁, e₂⟩ := h.stale2 q J hS hJ
      exact ⟨w, e₁, e₂.imp id fun e => (b1 w).2 (.inr e)⟩
  case seen =>
    intro c q hc
    obtain ⟨X, U, e₁, e₂, e₃, e₄⟩ := h.seen c q hc
    have hq : q ≠ p := fun e => a5 _ U e₂ (e ▸ e₃)
    exact ⟨X, U, e₁, e₂, e₃, (lf q c).2 ⟨e₄, hq⟩⟩

/-- A reference to a problem with others is given up. -/
theorem Inv.decBox {c : ℕ} {D : List Dead} (h : Inv St Sn s (.ref (.prob c) :: D)) {X : Box} (hc : s.box c = some X)
    (hrc : 1 < X.rc) :
    Inv St Sn { s with box := Function.update s.box c (some { X with rc := X.rc - 1 }) } D := by
  have m1 : ∀ d, d ∈ D → d ∈ Dead.ref (.prob c) :: D := fun d hd => List.mem_cons_of_mem _ hd
  have m3 : ∀ w, Dead.wrap w ∈ D ↔ Dead.wrap w ∈ Dead.ref (.prob c) :: D := by simp
  have c1 : ∀ q, List.count (Dead.ref (.prob q)) (Dead.ref (.prob c) :: D) =
      List.count (Dead.ref (.prob q)) D + if q = c then 1 else 0 := by
    intro q; rw [List.count_cons]; congr 1; by_cases hq : q = c
    · simp [hq]
    · simp [hq, Ne.symm hq]
  have c2 : ∀ q, List.count (Dead.ref (.obj q)) (Dead.ref (.prob c) :: D) = List.count (Dead.ref (.obj q)) D := by
    intro q; simp
  have c3 : ∀ w, List.count (Dead.wrap w) (Dead.ref (.prob c) :: D) = List.count (Dead.wrap w) D := by
    intro q; simp
  generalize Dead.ref (.prob c) :: D = D₀ at *
  have up : ∀ q, Function.update s.box c (some { X with rc := X.rc - 1 }) q =
      if q = c then some { X with rc := X.rc - 1 } else s.box q := fun v => by simp [Function.update_apply]
  have key : ∀ q Y, Function.update s.box c (some { X with rc := X.rc - 1 }) q = some Y →
      ∃ Y₀, s.box q = some Y₀ ∧ Y₀.slot = Y.slot := by
    intro q J hJ; rw [up] at hJ; grind
  have key' : ∀ q J, s.box q = some J → ∃ J', Function.update s.box c (some { X with rc := X.rc - 1 }) q = some J' ∧
      J'.slot = J.slot := by
    intro q J hJ; rw [up]; grind
  have key0 : ∀ q, s.box q ≠ none → Function.update s.box c (some { X with rc := X.rc - 1 }) q ≠ none := by
    intro q hq; rw [up]; grind
  constructor
  case instLt => exact h.instLt
  case wrapLt => exact h.wrapLt
  case boxLt => intro q hq; dsimp only; rw [up]; have := h.boxLt q hq; grind
  case heldLt => exact h.heldLt
  case instRc => intro q J hJ; have := h.instRc q J hJ; rw [c2] at this; exact this
  case instVar => exact h.instVar
  case instDead => intro q hq; exact h.instDead q (m1 _ hq)
  case boxRc =>
    intro q Y hY
    dsimp only at hY
    rw [up] at hY
    by_cases hq : q = c
    · subst hq
      have a := h.boxRc q X hc
      rw [c1] at a
      simp only [if_true, Option.some.injEq] at hY
      subst hY
      simp only [if_true] at a
      dsimp only
      omega
    · rw [if_neg hq] at hY
      have a := h.boxRc q Y hY
      rw [c1, if_neg hq] at a
      exact a
  case boxVar => intro q hq; exact key0 q (h.boxVar q hq)
  case boxDead => intro q hq; exact key0 q (h.boxDead q (m1 _ hq))
  case boxLife => intro p q hq; exact key0 q (h.boxLife p q hq)
  case lifeInst =>
    intro q d hq
    obtain ⟨J, v, e₁, e₂, e₃⟩ := h.lifeInst q d hq
    refine ⟨J, v, e₁, e₂, fun Y hY => ?_⟩
    obtain ⟨Y₀, e₄, e₅⟩ := key d Y hY
    rw [m3, ← e₅]
    exact e₃ Y₀ e₄
  case wrapSelf => intro w W hW hO; rw [m3]; exact h.wrapSelf w W hW hO
  case wrapOwn =>
    intro w W q hW hO
    rw [m3]
    obtain ⟨e, e₁, e₂⟩ := h.wrapOwn w W q hW hO
    refine ⟨e, e₁, e₂.imp id ?_⟩
    rintro ⟨d, Y, e₃, e₄⟩
    obtain ⟨Y', e₅, e₆⟩ := key' d Y e₃
    exact ⟨d, Y', e₅, e₆.trans e₄⟩
  case own => intro q J w hJ hh; rw [m3]; exact h.own q J w hJ hh
  case ptr => exact h.ptr
  case slot =>
    intro d Y hY
    obtain ⟨Y₀, e₄, e₅⟩ := key d Y hY
    rw [m3, ← e₅]; exact h.slot d Y₀ e₄
  case slotInj =>
    intro d d' Y Y' hY hY' he
    obtain ⟨Y₀, e₄, e₅⟩ := key d Y hY
    obtain ⟨Y₁, e₆, e₇⟩ := key d' Y' hY'
    exact h.slotInj d d' Y₀ Y₁ e₄ e₆ (by rw [e₅, e₇, he])
  case pend => intro w hw; exact h.pend w (m1 _ hw)
  case pendOne => intro w; rw [← c3]; exact h.pendOne w
  case aliased =>
    intro d Y W q hY hW hO hh
    obtain ⟨Y₀, e₄, e₅⟩ := key d Y hY
    dsimp only at hW
    rw [← e₅] at hW
    exact h.aliased d Y₀ W q e₄ hW hO (hh.imp id (m1 _))
  case stale0 => intro w W q hw; exact h.stale0 w W q (m1 _ hw)
  case stale1 => exact h.stale1
  case stale2 =>
    intro q J hq hJ
    simp only [m3]
    exact h.stale2 q J hq hJ
  case seen =>
    intro d q hd
    obtain ⟨Y, U, e₁, e₂, e₃, e₄⟩ := h.seen d q hd
    obtain ⟨Y', e₅, e₆⟩ := key' d Y e₁
    exact ⟨Y', U, e₅, by dsimp only; rw [e₆]; exact e₂, e₃, e₄⟩

/-- A problem dies with its last reference. -/
theorem Inv.killBox {c : ℕ} {D : List Dead} (h : Inv St Sn s (.ref (.prob c) :: D)) {X : Box} (hc : s.box c = some X)
    (hrc : X.rc = 1) :
    Inv St Sn { s with box := Function.update s.box c none } (.wrap X.slot :: D) := by
  obtain ⟨a, -⟩ := h.boxRc c X hc
  rw [hrc, List.count_cons_self] at a
  have a1 : some (Ref.prob c) ∉ s.vars := List.count_eq_zero.1 (by omega)
  have a2 : Dead.ref (.prob c) ∉ D := List.count_eq_zero.1 (by omega)
  have a3 : ∀ p, (p, c) ∉ s.life := by
    intro p hp
    have : 0 < s.life.countP (fun e => e.2 = c) := List.countP_pos_iff.2 ⟨(p, c), hp, by simp⟩
    omega
  clear a
  have m1 : ∀ w, Dead.wrap w ∈ Dead.wrap X.slot :: D ↔ w = X.slot ∨ Dead.wrap w ∈ Dead.ref (.prob c) :: D := by simp
  have m2 : ∀ p, Dead.ref (.obj p) ∈ Dead.wrap X.slot :: D ↔ Dead.ref (.obj p) ∈ Dead.ref (.prob c) :: D := by simp
  have m3 : ∀ d, Dead.ref (.prob d) ∈ Dead.wrap X.slot :: D ↔ d ≠ c ∧ Dead.ref (.prob d) ∈ Dead.ref (.prob c) :: D := by
    intro d
    by_cases hd : d = c
    · subst hd; simp [a2]
    · simp [hd]
  have c1 : ∀ p, List.count (Dead.ref (.obj p)) (Dead.wrap X.slot :: D) =
      List.count (Dead.ref (.obj p)) (Dead.ref (.prob c) :: D) := by intro p; simp
  have c2 : ∀ d, d ≠ c → List.count (Dead.ref (.prob d)) (Dead.wrap X.slot :: D) =
      List.count (Dead.ref (.prob d)) (Dead.ref (.prob c) :: D) := by
    intro d hd; simp [Ne.symm hd]
  have c3 : ∀ w, List.count (Dead.wrap w) (Dead.wrap X.slot :: D) =
      (if w = X.slot then 1 else 0) + List.count (Dead.wrap w) (Dead.ref (.prob c) :: D) := by
    intro w; rw [List.count_cons, List.count_cons, add_comm]
    by_cases hw : w = X.slot
    · simp [hw]
    · simp [hw, Ne.symm hw]
  clear a2
  generalize Dead.ref (.prob c) :: D = D₀ at *
  generalize Dead.wrap X.slot :: D = D₁ at *
  have up : ∀ q, Function.update s.box c none q = if q = c then none else s.box q :=
    fun v => by simp [Function.update_apply]
  have key : ∀ q Y, Function.update s.box c none q = some Y ↔ q ≠ c ∧ s.box q = some Y := by
    intro q Y; rw [up]; grind
  obtain ⟨⟨WX, pX, hWX, hpX⟩, hnX⟩ := h.slot c X hc
  constructor
  case instLt => exact h.instLt
  case wrapLt => exact h.wrapLt
  case boxLt => intro q hq; dsimp only; rw [up]; have := h.boxLt q hq; grind
  case heldLt => exact h.heldLt
  case instRc => intro q J hJ; have := h.instRc q J hJ; rw [← c1] at this; exact this
  case instVar => exact h.instVar
  case instDead => intro q hq; exact h.instDead q ((m2 q).1 hq)
  case boxRc =>
    intro q Y hY
    obtain ⟨hq, hY⟩ := (key q Y).1 hY
    dsimp only
    rw [c2 q hq]
    exact h.boxRc q Y hY
  case boxVar => intro q hq; dsimp only; rw [up]; have := h.boxVar q hq; grind
  case boxDead => intro q hq; dsimp only; rw [up]; have := h.boxDead q; grind
  case boxLife => intro p q hq; dsimp only; rw [up]; have := h.boxLife p q hq; grind
  case lifeInst =>
    intro q d hq
    obtain ⟨J, v, e₁, e₂, e₃⟩ := h.lifeInst q d hq
    refine ⟨J, v, e₁, e₂, fun Y hY => ?_⟩
    obtain ⟨hd, hY⟩ := (key d Y).1 hY
    rw [m1]
    have := e₃ Y hY
    dsimp only; grind
  case wrapSelf =>
    intro w W hW hO; rw [m1]
    exact (h.wrapSelf w W hW hO).imp .inr id
  case wrapOwn =>
    intro w W q hW hO
    rw [m1]
    obtain ⟨e, e₁, e₂⟩ := h.wrapOwn w W q hW hO
    refine ⟨e, e₁, ?_⟩
    rcases e₂ with e₂ | ⟨d, Y, e₃, e₄⟩
    · exact .inl (.inr e₂)
    · by_cases hd : d = c
      · subst hd; rw [hc] at e₃; cases e₃; exact .inl (.inl e₄.symm)
      · exact .inr ⟨d, Y, (key d Y).2 ⟨hd, e₃⟩, e₄⟩
  case own =>
    intro q J w hJ hh
    obtain ⟨⟨W, e₁, e₂, e₃⟩, e₄⟩ := h.own q J w hJ hh
    refine ⟨⟨W, e₁, e₂, e₃⟩, ?_⟩
    rw [m1]
    rintro (e | e)
    · rw [e, hWX] at e₁; cases e₁; rw [hpX] at e₃; exact absurd e₃ (by simp)
    · exact e₄ e
  case ptr => exact h.ptr
  case slot =>
    intro d Y hY
    obtain ⟨hd, hY⟩ := (key d Y).1 hY
    obtain ⟨e, e'⟩ := h.slot d Y hY
    refine ⟨e, ?_⟩
    rw [m1]
    rintro (e'' | e'')
    · exact hd (h.slotInj d c Y X hY hc e'')
    · exact e' e''
  case slotInj =>
    intro d d' Y Y' hY hY' he
    exact h.slotInj d d' Y Y' ((key d Y).1 hY).2 ((key d' Y').1 hY').2 he
  case pend =>
    intro w hw
    rcases (m1 w).1 hw with e | e
    · dsimp only; rw [e, hWX]; simp
    · exact h.pend w e
  case pendOne =>
    intro w
    rw [c3]
    by_cases hw : w = X.slot
    · rw [hw, List.count_eq_zero.2 hnX]; simp
    · rw [if_neg hw]; have := h.pendOne w; omega
  case aliased =>
    intro d Y W q hY hW hO hh
    obtain ⟨hd, hY⟩ := (key d Y).1 hY
    exact h.aliased d Y W q hY hW hO (hh.imp id (m2 q).1)
  case stale0 =>
    intro w W q hw hW hO
    rcases (m1 w).1 hw with e | e
    · right
      intro hv
      exact a3 q (h.aliased c X W q hc (e ▸ hW) hO (.inl hv))
    · exact h.stale0 w W q e hW hO
  case stale1 => exact h.stale1
  case stale2 =>
    intro q J hq hJ
    obtain ⟨w, e₁, e₂⟩ := h.stale2 q J hq hJ
    exact ⟨w, e₁, e₂.imp id fun e => (m1 w).2 (.inr e)⟩
  case seen =>
    intro d q hd
    obtain ⟨Y, U, e₁, e₂, e₃, e₄⟩ := h.seen d q hd
    have : d ≠ c := fun e => a3 q (e ▸ e₄)
    exact ⟨Y, U, (key d Y).2 ⟨this, e₁⟩, e₂, e₃, e₄⟩

/-! ### A release terminates and keeps the invariant -/

/-- How many of the first `n` are alive. -/
def live {α : Type} (f : ℕ → Option α) (n : ℕ) : ℕ := (List.range n).countP fun i => (f i).isSome

theorem live_le {α : Type} (f : ℕ → Option α) (n : ℕ) : live f n ≤ n := by
  unfold live
  exact List.countP_le_length.trans (by simp)

theorem live_none {α : Type} (f : ℕ → Option α) (i : ℕ) (hf : f i ≠ none) :
    ∀ n, i < n → live (Function.update f i none) n + 1 = live f n
  | 0, h => by omega
  | n + 1, h => by
    unfold live
    rw [List.range_succ, List.countP_append, List.countP_append]
    by_cases hi : i = n
    · subst hi
      have : (List.range i).countP (fun j => (Function.update f i none j).isSome) =
          (List.range i).countP fun j => (f j).isSome := by
        apply List.countP_congr
        intro j hj
        have : j ≠ i := by have := List.mem_range.1 hj; omega
        simp [this]
      rw [this]
      cases hx : f i <;> simp_all
    · have := live_none f i hf n (by omega)
      unfold live at this
      have e : (Function.update f i none n) = f n := by
        rw [Function.update_of_ne (by omega)]
      rw [← this]
      simp only [List.countP_singleton, e]
      omega

theorem live_some {α : Type} (f : ℕ → Option α) (i : ℕ) (hf : f i ≠ none) (a : α) (n : ℕ) :
    live (Function.update f i (some a)) n = live f n := by
  unfold live
  apply List.countP_congr
  intro j _
  by_cases hj : j = i
  · subst hj
    cases hx : f j <;> simp_all
  · simp [hj]

/-- How many objects are alive. -/
def State.alive (s : State V B) : ℕ := live s.inst s.next + live s.wrap s.next + live s.box s.next

theorem State.alive_lt (s : State V B) : s.alive < s.fuel := by
  have := live_le s.inst s.next
  have := live_le s.wrap s.next
  have := live_le s.box s.next
  unfold State.alive State.fuel
  omega

theorem release_ok : ∀ (n : ℕ) (L : List Dead) (s : State V B) (P : List Dead), Inv St Sn s (L ++ P) → s.alive < n →
    ∃ s', release n s L = .ok () s' ∧ Inv St Sn s' P ∧ Frame s s' ∧ s'.alive ≤ s.alive
  | 0, _, _, _, _, h => by omega
  | n + 1, [], s, P, h, _ => ⟨s, by unfold release; rfl, h, Frame.refl s, le_rfl⟩
  | n + 1, .wrap w :: r, s, P, h, hn => by
    have e0 := h.pend w (by simp)
    obtain ⟨W, hW⟩ := Option.ne_none_iff_exists'.1 e0
    have hlt : w < s.next := by
      by_contra hx
      exact e0 (h.wrapLt w (by omega))
    have h1 := h.dropWrap hW
    have f1 : Frame s { s with wrap := Function.update s.wrap w none } := by
      refine ⟨rfl, rfl, fun _ I h => ⟨I, h, rfl, rfl⟩, fun v U hU => ?_, fun _ X h => ⟨X, h, rfl⟩, fun _ h => h⟩
      dsimp only at hU
      rw [Function.update_apply] at hU
      split at hU
      · exact absurd hU (by simp)
      · exact hU
    have a1 : ({ s with wrap := Function.update s.wrap w none } : State V B).alive + 1 = s.alive := by
      have := live_none s.wrap w e0 s.next hlt
      unfold State.alive
      dsimp only
      omega
    obtain ⟨s2, r2, i2, f2, a2⟩ := release_ok n _ _ (r ++ P) h1 (by omega)
    obtain ⟨s3, r3, i3, f3, a3⟩ := release_ok (n + 1) r s2 P i2 (by omega)
    refine ⟨s3, ?_, i3, (f1.trans f2).trans f3, by omega⟩
    unfold release
    simp only [hW, r2, Out.bind, r3]
  | n + 1, .ref (.obj p) :: r, s, P, h, hn => by
    have e0 := h.instDead p (by simp)
    obtain ⟨I, hI⟩ := Option.ne_none_iff_exists'.1 e0
    have hlt : p < s.next := by
      by_contra hx
      exact e0 (h.instLt p (by omega))
    have hpos := (h.instRc p I hI).2
    by_cases hrc : I.rc = 1
    · have h1 := h.killInst hI hrc
      have f1 : Frame s { s with inst := Function.update s.inst p none, life := s.life.filter fun e => e.1 ≠ p } := by
        refine ⟨rfl, rfl, fun v U hU => ?_, fun _ _ h => h, fun _ X h => ⟨X, h, rfl⟩, fun e he => (List.mem_filter.1 he).1⟩
        dsimp only at hU
        rw [Function.update_apply] at hU
        split at hU
        · exact absurd hU (by simp)
        · exact ⟨U, hU, rfl, rfl⟩
      have a1 : ({ s with inst := Function.update s.inst p none, life := s.life.filter fun e => e.1 ≠ p } :
          State V B).alive + 1 = s.alive := by
        have := live_none s.inst p e0 s.next hlt
        unfold State.alive
        dsimp only
        omega
      obtain ⟨s2, r2, i2, f2, a2⟩ := release_ok n _ _ (r ++ P) h1 (by omega)
      obtain ⟨s3, r3, i3, f3, a3⟩ := release_ok (n + 1) r s2 P i2 (by omega)
      refine ⟨s3, ?_, i3, (f1.trans f2).trans f3, by omega⟩
      unfold release
      simp only [hI, hrc, if_true, show (1 : ℕ) ≠ 0 from by omega, if_false]
      refine Eq.trans (congrArg (fun z => Out.bind z fun _ s' => release (n + 1) s' r) r2) ?_
      simp only [Out.bind, r3]
    · have h1 := h.decInst hI (by omega)
      have f1 : Frame s { s with inst := Function.update s.inst p (some { I with rc := I.rc - 1 }) } := by
        refine ⟨rfl, rfl, fun v U hU => ?_, fun _ _ h => h, fun _ X h => ⟨X, h, rfl⟩, fun _ h => h⟩
        dsimp only at hU
        rw [Function.update_apply] at hU
        split at hU
        · rename_i hv; subst hv; cases hU; exact ⟨I, hI, rfl, rfl⟩
        · exact ⟨U, hU, rfl, rfl⟩
      have a1 : ({ s with inst := Function.update s.inst p (some { I with rc := I.rc - 1 }) } :
          State V B).alive = s.alive := by
        have := live_some s.inst p e0 { I with rc := I.rc - 1 } s.next
        unfold State.alive
        dsimp only
        omega
      obtain ⟨s3, r3, i3, f3, a3⟩ := release_ok (n + 1) r _ P h1 (by omega)
      refine ⟨s3, ?_, i3, f1.trans f3, by omega⟩
      unfold release
      simp only [hI, hrc, if_false, show I.rc ≠ 0 from by omega, r3]
  | n + 1, .ref (.prob c) :: r, s, P, h, hn => by
    have e0 := h.boxDead c (by simp)
    obtain ⟨X, hX⟩ := Option.ne_none_iff_exists'.1 e0
    have hlt : c < s.next := by
      by_contra hx
      exact e0 (h.boxLt c (by omega))
    have hpos := (h.boxRc c X hX).2
    by_cases hrc : X.rc = 1
    · have h1 := h.killBox hX hrc
      have f1 : Frame s { s with box := Function.update s.box c none } := by
        refine ⟨rfl, rfl, fun _ I h => ⟨I, h, rfl, rfl⟩, fun _ _ h => h, fun v U hU => ?_, fun _ h => h⟩
        dsimp only at hU
        rw [Function.update_apply] at hU
        split at hU
        · exact absurd hU (by simp)
        · exact ⟨U, hU, rfl⟩
      have a1 : ({ s with box := Function.update s.box c none } : State V B).alive + 1 = s.alive := by
        have := live_none s.box c e0 s.next hlt
        unfold State.alive
        dsimp only
        omega
      obtain ⟨s2, r2, i2, f2, a2⟩ := release_ok n [.wrap X.slot] _ (r ++ P) h1 (by omega)
      obtain ⟨s3, r3, i3, f3, a3⟩ := release_ok (n + 1) r s2 P i2 (by omega)
      refine ⟨s3, ?_, i3, (f1.trans f2).trans f3, by omega⟩
      unfold release
      simp only [hX, hrc, if_true, show (1 : ℕ) ≠ 0 from by omega, if_false, r2, Out.bind, r3]
    · have h1 := h.decBox hX (by omega)
      have f1 : Frame s { s with box := Function.update s.box c (some { X with rc := X.rc - 1 }) } := by
        refine ⟨rfl, rfl, fun _ I h => ⟨I, h, rfl, rfl⟩, fun _ _ h => h, fun v U hU => ?_, fun _ h => h⟩
        dsimp only at hU
        rw [Function.update_apply] at hU
        split at hU
        · rename_i hv; subst hv; cases hU; exact ⟨X, hX, rfl⟩
        · exact ⟨U, hU, rfl⟩
      have a1 : ({ s with box := Function.update s.box c (some { X with rc := X.rc - 1 }) } :
          State V B).alive = s.alive := by
        have := live_some s.box c e0 { X with rc := X.rc - 1 } s.next
        unfold State.alive
        dsimp only
        omega
      obtain ⟨s3, r3, i3, f3, a3⟩ := release_ok (n + 1) r _ P h1 (by omega)
      refine ⟨s3, ?_, i3, f1.trans f3, by omega⟩
      unfold release
      simp only [hX, hrc, if_false, show X.rc ≠ 0 from by omega, r3]
  termination_by n L => (n, L.length)

/-! ### Copies -/

theorem release_temp {t p : ℕ} {b : B} {a : Attrs V} (hw : s.wrap t = some ⟨b, p, some p⟩)
    (hi : s.inst p = some ⟨a, .ptr t, 1⟩) (hl : ∀ e ∈ s.life, e.1 ≠ p) (hn : 0 < s.next) :
    release s.fuel s [.wrap t] = .ok () { s with
      wrap := Function.update s.wrap t none, inst := Function.update s.inst p none } := by
  obtain ⟨n, hn⟩ : ∃ n, s.fuel = n + 3 := ⟨3 * s.next + 1 - 3, by unfold State.fuel; omega⟩
  have l2 : (s.life.filter fun e => decide (e.1 = p)) = [] := List.filter_eq_nil_iff.2 fun e he => by simp [hl e he]
  rw [hn]
  simp [release, hw, hi, l2, Out.bind]
  exact fun a b h => hl (a, b) h

theorem clones_spec (K : Class V B G) (s : State V B) (hiL : ∀ p, s.next ≤ p → s.inst p = none)
    (hwL : ∀ p, s.next ≤ p → s.wrap p = none) (hl : ∀ e ∈ s.life, e.1 < s.next) (b : B) :
    ∀ (n t p m : ℕ) (a : Attrs V), s.next ≤ t → s.next ≤ p → t < m → p < m →
      match (fun n => match n with | 0 => some a | n + 1 => Spec.storedBy K n a b) n with
      | none => ∃ m', s.next ≤ m' ∧ clones K n t { s with
          wrap := Function.update s.wrap t (some ⟨b, p, some p⟩)
          inst := Function.update s.inst p (some ⟨a, .ptr t, 1⟩), next := m } = .raise { s with next := m' }
      | some a' => ∃ t' p' m', s.next ≤ t' ∧ s.next ≤ p' ∧ t' < m' ∧ p' < m' ∧ clones K n t { s with
          wrap := Function.update s.wrap t (some ⟨b, p, some p⟩)
          inst := Function.update s.inst p (some ⟨a, .ptr t, 1⟩), next := m } = .ok t' { s with
          wrap := Function.update s.wrap t' (some ⟨b, p', some p'⟩)
          inst := Function.update s.inst p' (some ⟨a', .ptr t', 1⟩), next := m' }
  | 0, t, p, m, a, ht, hp, htm, hpm => ⟨t, p, m, ht, hp, htm, hpm, rfl⟩
  | n + 1, t, p, m, a, ht, hp, htm, hpm => by
    dsimp only
    have hne : ∀ e ∈ s.life, e.1 ≠ p := fun e he => by have := hl e he; omega
    have w0 := hwL t ht
    have i0 := hiL p hp
    have u1 : Function.update s.wrap t none = s.wrap := by rw [← w0]; exact Function.update_eq_self t s.wrap
    have u2 : Function.update s.inst p none = s.inst := by rw [← i0]; exact Function.update_eq_self p s.inst
    cases hd : K.deepcopy a b with
    | none =>
      have e : Spec.storedBy K n a b = none := by cases n <;> simp [Spec.storedBy, hd]
      rw [e]
      refine ⟨m, by omega, ?_⟩
      unfold clones clone
      simp only [Function.update_self, State.part, Held.target, hd]
      rw [release_temp (t := t) (p := p) (b := b) (a := a) (by simp) (by simp) (by exact hne) (by show 0 < m; omega)]
      simp [Out.bind, u1, u2]
    | some r =>
      have e : Spec.storedBy K n a b = (fun n => match n with | 0 => some r.1 | n + 1 => Spec.storedBy K n r.1 b) n := by
        cases n <;> simp [Spec.storedBy, hd]
      rw [e]
      have ih := clones_spec K s hiL hwL hl b n m (m + 1) (m + 3) r.1 (by omega) (by omega) (by omega) (by omega)
      have key : clones K (n + 1) t { s with
          wrap := Function.update s.wrap t (some ⟨b, p, some p⟩)
          inst := Function.update s.inst p (some ⟨a, .ptr t, 1⟩), next := m } = clones K n m { s with
          wrap := Function.update s.wrap m (some ⟨b, m + 1, some (m + 1)⟩)
          inst := Function.update s.inst (m + 1) (some ⟨r.1, .ptr m, 1⟩), next := m + 3 } := by
        conv_lhs => unfold clones clone
        simp only [Function.update_self, State.part, Held.target, hd]
        rw [release_temp (t := t) (p := p) (b := b) (a := a)
          (by dsimp only; rw [Function.update_of_ne (by omega)]; simp)
          (by dsimp only; rw [Function.update_of_ne (by omega)]; simp) (by exact hne) (by show 0 < m + 3; omega)]
        simp only [Out.bind]
        rw [Function.update_comm (show m ≠ t by omega), Function.update_idem, u1,
          Function.update_comm (show m + 1 ≠ p by omega), Function.update_idem, u2]
      rw [key]
      exact ih

theorem copies_spec (K : Class V B G) (s : State V B) (hiL : ∀ p, s.next ≤ p → s.inst p = none)
    (hwL : ∀ p, s.next ≤ p → s.wrap p = none) (hl : ∀ e ∈ s.life, e.1 < s.next) {w : ℕ} {W : Wrap B} {I : Inst V}
    (hw : s.wrap w = some W) (hI : s.inst W.self = some I) (ht : I.held.target = w) (n : ℕ) :
    match Spec.storedBy K n I.attrs W.base with
    | none => ∃ m', s.next ≤ m' ∧ copies K n w s = .raise { s with next := m' }
    | some a' => ∃ t' p' m', s.next ≤ t' ∧ s.next ≤ p' ∧ t' < m' ∧ p' < m' ∧ copies K n w s = .ok t' { s with
          wrap := Function.update s.wrap t' (some ⟨W.base, p', some p'⟩)
          inst := Function.update s.inst p' (some ⟨a', .ptr t', 1⟩), next := m' } := by
  cases hd : K.deepcopy I.attrs W.base with
  | none =>
    have e : Spec.storedBy K n I.attrs W.base = none := by cases n <;> simp [Spec.storedBy, hd]
    rw [e]
    refine ⟨s.next, le_rfl, ?_⟩
    simp [copies, clone, hw, hI, State.part, ht, hd, Out.bind]
  | some r =>
    have e : Spec.storedBy K n I.attrs W.base =
        (fun n => match n with | 0 => some r.1 | n + 1 => Spec.storedBy K n r.1 W.base) n := by
      cases n <;> simp [Spec.storedBy, hd]
    rw [e]
    have := clones_spec K s hiL hwL hl W.base n s.next (s.next + 1) (s.next + 3) r.1 (by omega) (by omega) (by omega)
      (by omega)
    have key : copies K n w s = clones K n s.next { s with
          wrap := Function.update s.wrap s.next (some ⟨W.base, s.next + 1, some (s.next + 1)⟩)
          inst := Function.update s.inst (s.next + 1) (some ⟨r.1, .ptr s.next, 1⟩), next := s.next + 3 } := by
      simp [copies, clone, hw, hI, State.part, ht, hd, Out.bind]
    rw [key]
    exact this

/-! ### Binding names -/

theorem Inv.setVar {x : ℕ} {r : Option Ref} (h : Inv St Sn s (r.toList.map .ref)) (hx : x < s.vars.length)
    (hr : ∀ p I w, r = some (.obj p) → s.inst p = some I → I.held = .ptr w → s.wrap w = none → St p) :
    Inv St Sn { s with vars := s.vars.set x r } (((s.vars[x]?).join.toList).map .ref) := by
  obtain ⟨o, ho⟩ : ∃ o, s.vars[x] = o := ⟨_, rfl⟩
  have hj : (s.vars[x]?).join = o := by simp [hx, ho]
  rw [hj]
  have c0 : ∀ (q : Option Ref) (z : Ref), (q.toList.map Dead.ref).count (.ref z) = if q = some z then 1 else 0 := by
    intro q z
    cases q with
    | none => simp
    | some y => by_cases hy : y = z <;> simp [hy]
  have d1 : ∀ (q : Option Ref) w, Dead.wrap w ∉ q.toList.map Dead.ref := by
    intro q w; simp
  have d2 : ∀ (q : Option Ref) z, Dead.ref z ∈ q.toList.map Dead.ref ↔ q = some z := by
    intro q z; cases q <;> simp [eq_comm]
  have c1 : ∀ z, (s.vars.set x r).count (some z) + (o.toList.map Dead.ref).count (.ref z) =
      s.vars.count (some z) + (r.toList.map Dead.ref).count (.ref z) := by
    intro z
    rw [c0, c0, List.count_set hx, ho]
    have : o = some z → 0 < s.vars.count (some z) := by
      intro e
      apply List.count_pos_iff.2
      rw [← e, ← ho]
      exact List.getElem_mem hx
    simp only [beq_iff_eq]
    by_cases h1 : o = some z
    · have := this h1
      simp only [h1, if_true]
      omega
    · simp only [h1, if_false]
      omega
  have m1 : ∀ z, some z ∈ s.vars.set x r ∨ o = some z ↔ some z ∈ s.vars ∨ r = some z := by
    intro z
    have := c1 z
    rw [c0, c0] at this
    rw [← List.count_pos_iff (l := s.vars.set x r), ← List.count_pos_iff (l := s.vars)]
    generalize List.count (some z) (s.vars.set x r) = u at *
    generalize List.count (some z) s.vars = u' at *
    split_ifs at this <;> simp_all <;> omega
  generalize s.vars.set x r = vs at *
  constructor
  case instLt => exact h.instLt
  case wrapLt => exact h.wrapLt
  case boxLt => exact h.boxLt
  case heldLt => exact h.heldLt
  case instRc =>
    intro p I hI
    have := h.instRc p I hI
    have := c1 (.obj p)
    have e : State.owned { s with vars := vs } I = State.owned s I := rfl
    dsimp only
    omega
  case instVar =>
    intro p hp
    rcases (m1 (.obj p)).1 (.inl hp) with e | e
    · exact h.instVar p e
    · exact h.instDead p ((d2 r _).2 e)
  case instDead =>
    intro p hp
    rcases (m1 (.obj p)).1 (.inr ((d2 o _).1 hp)) with e | e
    · exact h.instVar p e
    · exact h.instDead p ((d2 r _).2 e)
  case boxRc =>
    intro p I hI
    have := h.boxRc p I hI
    have := c1 (.prob p)
    dsimp only
    omega
  case boxVar =>
    intro p hp
    rcases (m1 (.prob p)).1 (.inl hp) with e | e
    · exact h.boxVar p e
    · exact h.boxDead p ((d2 r _).2 e)
  case boxDead =>
    intro p hp
    rcases (m1 (.prob p)).1 (.inr ((d2 o _).1 hp)) with e | e
    · exact h.boxVar p e
    · exact h.boxDead p ((d2 r _).2 e)
  case boxLife => exact h.boxLife
  case lifeInst =>
    intro p c hp
    obtain ⟨I, w, e₁, e₂, e₃⟩ := h.lifeInst p c hp
    refine ⟨I, w, e₁, e₂, fun X hX => ?_⟩
    have := e₃ X hX
    have := d1 r w
    dsimp only
    grind
  case wrapSelf =>
    intro w W hW hO
    exact .inr ((h.wrapSelf w W hW hO).resolve_left (d1 r w))
  case wrapOwn =>
    intro w W p hW hO
    obtain ⟨e₁, e₂, e₃⟩ := h.wrapOwn w W p hW hO
    exact ⟨e₁, e₂, .inr (e₃.resolve_left (d1 r w))⟩
  case own => intro p I w hI hh; exact ⟨(h.own p I w hI hh).1, d1 o w⟩
  case ptr => exact h.ptr
  case slot => intro c X hX; exact ⟨(h.slot c X hX).1, d1 o _⟩
  case slotInj => exact h.slotInj
  case pend => intro w hw; exact absurd hw (d1 o w)
  case pendOne => intro w; rw [List.count_eq_zero.2 (d1 o w)]; omega
  case aliased =>
    intro c X W p hX hW hO hh
    rw [d2] at hh
    refine h.aliased c X W p hX hW hO ?_
    rw [d2]
    exact (m1 _).1 hh
  case stale0 => intro w W p hw; exact absurd hw (d1 o w)
  case stale1 =>
    intro p I w hI hh hW
    by_cases hv : some (.obj p) ∈ vs
    · rcases (m1 (.obj p)).1 (.inl hv) with e | e
      · exact .inl ((h.stale1 p I w hI hh hW).resolve_right (fun k => k e))
      · exact .inl (hr p I w e hI hh hW)
    · exact .inr hv
  case stale2 =>
    intro p I hp hI
    obtain ⟨w, e₁, e₂⟩ := h.stale2 p I hp hI
    exact ⟨w, e₁, .inl (e₂.resolve_right (d1 r w))⟩
  case seen => exact h.seen

theorem store_ok {x : ℕ} {r : Option Ref} (h : Inv St Sn s (r.toList.map .ref)) (hx : x < s.vars.length)
    (hr : ∀ p I w, r = some (.obj p) → s.inst p = some I → I.held = .ptr w → s.wrap w = none → St p) :
    ∃ s', store s x r = .ok () s' ∧ Inv St Sn s' [] ∧ Frame { s with vars := s.vars.set x r } s' := by
  have h1 := h.setVar hx hr
  obtain ⟨s', e₁, e₂, e₃, -⟩ := release_ok s.fuel _ _ [] (by rw [List.append_nil]; exact h1)
    (show ({ s with vars := s.vars.set x r } : State V B).alive < s.fuel from s.alive_lt)
  exact ⟨s', e₁, e₂, e₃⟩

/-! ### The other micro steps -/

/-- Only holders, counts and ownership matter. -/
theorem Inv.congr {s' : State V B} (h : Inv St Sn s []) (hv : s'.vars = s.vars) (hl : s'.life = s.life)
    (hn : s.next ≤ s'.next) (hb : s'.box = s.box)
    (hi : ∀ p, (s'.inst p).map (fun I => (I.held, I.rc)) = (s.inst p).map (fun I => (I.held, I.rc)))
    (hw : ∀ p, (s'.wrap p).map (fun I => (I.self, I.owner)) = (s.wrap p).map (fun I => (I.self, I.owner))) :
    Inv St Sn s' [] := by
  have i0 : ∀ p, s'.inst p = none ↔ s.inst p = none := fun p => by
    have := hi p; cases h1 : s'.inst p <;> cases h2 : s.inst p <;> simp_all
  have w0 : ∀ p, s'.wrap p = none ↔ s.wrap p = none := fun p => by
    have := hw p; cases h1 : s'.wrap p <;> cases h2 : s.wrap p <;> simp_all
  have i1 : ∀ p I', s'.inst p = some I' → ∃ I, s.inst p = some I ∧ I.held = I'.held ∧ I.rc = I'.rc := fun p I' e => by
    have := hi p; cases h2 : s.inst p <;> simp_all
  have i2 : ∀ p I', s.inst p = some I' → ∃ I, s'.inst p = some I ∧ I.held = I'.held ∧ I.rc = I'.rc := fun p I' e => by
    have := hi p; cases h2 : s'.inst p <;> simp_all
  have w1 : ∀ p I', s'.wrap p = some I' → ∃ I, s.wrap p = some I ∧ I.self = I'.self ∧ I.owner = I'.owner :=
    fun p I' e => by
      have := hw p; cases h2 : s.wrap p <;> simp_all
  have w2 : ∀ p I', s.wrap p = some I' → ∃ I, s'.wrap p = some I ∧ I.self = I'.self ∧ I.owner = I'.owner :=
    fun p I' e => by
      have := hw p; cases h2 : s'.wrap p <;> simp_all
  clear hi hw
  constructor
  case instLt => intro p hp; exact (i0 p).2 (h.instLt p (hn.trans hp))
  case wrapLt => intro p hp; exact (w0 p).2 (h.wrapLt p (hn.trans hp))
  case boxLt => intro p hp; rw [hb]; exact h.boxLt p (hn.trans hp)
  case heldLt =>
    intro p I hI
    obtain ⟨J, e₁, e₂, e₃⟩ := i1 p I hI
    rw [← e₂]; exact (h.heldLt p J e₁).trans_le hn
  case instRc =>
    intro p I hI
    obtain ⟨J, e₁, e₂, e₃⟩ := i1 p I hI
    have := h.instRc p J e₁
    have e : s.owned J = s'.owned I := by
      simp only [State.owned, e₂]
      cases I.held with
      | own w => rfl
      | ptr w =>
        have := w0 w
        cases h1 : s.wrap w <;> cases h2 : s'.wrap w <;> simp_all
    rw [← e₃, hv, ← e]; exact this
  case instVar => intro p hp; rw [Ne, i0]; rw [hv] at hp; exact h.instVar p hp
  case instDead => intro p hp; simp at hp
  case boxRc => rw [hb, hl, hv]; exact h.boxRc
  case boxVar => rw [hb, hv]; exact h.boxVar
  case boxDead => rw [hb]; exact h.boxDead
  case boxLife => rw [hb, hl]; exact h.boxLife
  case lifeInst =>
    rw [hb, hl]
    intro p c hp
    obtain ⟨I, w, e₁, e₂, e₃⟩ := h.lifeInst p c hp
    obtain ⟨J, e₄, e₅, e₆⟩ := i2 p I e₁
    refine ⟨J, w, e₄, e₅.trans e₂, fun X hX => ?_⟩
    rw [w0]; exact e₃ X hX
  case wrapSelf =>
    intro w W hW hO
    obtain ⟨U, e₁, e₂, e₃⟩ := w1 w W hW
    obtain ⟨I, e₄, e₅⟩ := (h.wrapSelf w U e₁ (e₃.trans hO)).resolve_left (by simp)
    obtain ⟨J, e₆, e₇, -⟩ := i2 _ I e₄
    exact .inr ⟨J, by rw [← e₂]; exact e₆, e₇.trans e₅⟩
  case wrapOwn =>
    rw [hb]
    intro w W p hW hO
    obtain ⟨U, e₁, e₂, e₃⟩ := w1 w W hW
    obtain ⟨a₁, ⟨I, a₂, a₃⟩, a₄⟩ := h.wrapOwn w U p e₁ (e₃.trans hO)
    obtain ⟨J, e₆, e₇, -⟩ := i2 _ I a₂
    exact ⟨e₂ ▸ a₁, ⟨J, e₆, e₇.trans a₃⟩, a₄⟩
  case own =>
    intro p I w hI hh
    obtain ⟨J, e₁, e₂, e₃⟩ := i1 p I hI
    obtain ⟨⟨W, a₁, a₂, a₃⟩, a₄⟩ := h.own p J w e₁ (e₂.trans hh)
    obtain ⟨U, b₁, b₂, b₃⟩ := w2 w W a₁
    exact ⟨⟨U, b₁, b₂.trans a₂, b₃.trans a₃⟩, a₄⟩
  case ptr =>
    intro p I w W hI hh hW
    obtain ⟨J, e₁, e₂, e₃⟩ := i1 p I hI
    obtain ⟨U, b₁, b₂, b₃⟩ := w1 w W hW
    have := h.ptr p J w U e₁ (e₂.trans hh) b₁
    exact ⟨b₂ ▸ this.1, b₃ ▸ this.2⟩
  case slot =>
    rw [hb]
    intro c X hX
    obtain ⟨⟨W, p, a₁, a₂⟩, a₃⟩ := h.slot c X hX
    obtain ⟨U, b₁, b₂, b₃⟩ := w2 _ W a₁
    exact ⟨⟨U, p, b₁, b₃.trans a₂⟩, a₃⟩
  case slotInj => rw [hb]; exact h.slotInj
  case pend => simp
  case pendOne => simp
  case aliased =>
    rw [hb, hl, hv]
    intro c X W p hX hW hO hh
    obtain ⟨U, b₁, b₂, b₃⟩ := w1 _ W hW
    exact h.aliased c X U p hX b₁ (b₃.trans hO) hh
  case stale0 => simp
  case stale1 =>
    rw [hv]
    intro p I w hI hh hW
    obtain ⟨J, e₁, e₂, e₃⟩ := i1 p I hI
    exact h.stale1 p J w e₁ (e₂.trans hh) ((w0 w).1 hW)
  case stale2 =>
    intro p I hp hI
    obtain ⟨J, e₁, e₂, e₃⟩ := i1 p I hI
    obtain ⟨w, a, b⟩ := h.stale2 p J hp e₁
    exact ⟨w, e₂ ▸ a, by rw [w0]; exact b⟩
  case seen =>
    rw [hb, hl]
    intro c p hc
    obtain ⟨X, W, a₁, a₂, a₃, a₄⟩ := h.seen c p hc
    obtain ⟨U, b₁, b₂, b₃⟩ := w2 _ W a₂
    exact ⟨X, U, a₁, b₁, b₃.trans a₃, a₄⟩

/-- A new reference to an object that has a name. -/
theorem Inv.incInst {p : ℕ} {I : Inst V} (h : Inv St Sn s []) (hI : s.inst p = some I)
    (hv : some (Ref.obj p) ∈ s.vars) :
    Inv St Sn { s with inst := Function.update s.inst p (some { I with rc := I.rc + 1 }) } [.ref (.obj p)] := by
  have up : ∀ q, Function.update s.inst p (some { I with rc := I.rc + 1 }) q =
      if q = p then some { I with rc := I.rc + 1 } else s.inst q := fun v => by simp [Function.update_apply]
  have key : ∀ q J, Function.update s.inst p (some { I with rc := I.rc + 1 }) q = some J →
      ∃ J₀, s.inst q = some J₀ ∧ J₀.held = J.held := by
    intro q J hJ; rw [up] at hJ; grind
  have key' : ∀ q J, s.inst q = some J → ∃ J', Function.update s.inst p (some { I with rc := I.rc + 1 }) q = some J' ∧
      J'.held = J.held := by
    intro q J hJ; rw [up]; grind
  have key0 : ∀ q, s.inst q ≠ none → Function.update s.inst p (some { I with rc := I.rc + 1 }) q ≠ none := by
    intro q hq; rw [up]; grind
  constructor
  case instLt => intro q hq; dsimp only; rw [up]; have := h.instLt q hq; grind
  case wrapLt => exact h.wrapLt
  case boxLt => exact h.boxLt
  case heldLt =>
    intro q J hJ
    obtain ⟨J₀, e₁, e₂⟩ := key q J hJ
    rw [← e₂]; exact h.heldLt q J₀ e₁
  case instRc =>
    intro q J hJ
    dsimp only at hJ
    rw [up] at hJ
    by_cases hq : q = p
    · subst hq
      have a := h.instRc q I hI
      simp only [if_true, Option.some.injEq] at hJ
      subst hJ
      simp [State.owned] at a ⊢
      omega
    · rw [if_neg hq] at hJ
      have a := h.instRc q J hJ
      simp [Ne.symm hq, State.owned] at a ⊢
      exact a
  case instVar => intro q hq; exact key0 q (h.instVar q hq)
  case instDead => intro q hq; simp at hq; subst hq; exact key0 _ (h.instVar _ hv)
  case boxRc => intro c X hX; have := h.boxRc c X hX; simpa using this
  case boxVar => exact h.boxVar
  case boxDead => simp
  case boxLife => exact h.boxLife
  case lifeInst =>
    intro q d hq
    obtain ⟨J, v, e₁, e₂, e₃⟩ := h.lifeInst q d hq
    obtain ⟨J', e₄, e₅⟩ := key' q J e₁
    refine ⟨J', v, e₄, e₅.trans e₂, fun Y hY => ?_⟩
    have := e₃ Y hY
    simpa using this
  case wrapSelf =>
    intro w W hW hO
    obtain ⟨J, e₁, e₂⟩ := (h.wrapSelf w W hW hO).resolve_left (by simp)
    obtain ⟨J', e₄, e₅⟩ := key' _ J e₁
    exact .inr ⟨J', e₄, e₅.trans e₂⟩
  case wrapOwn =>
    intro w W q hW hO
    obtain ⟨e, ⟨J, e₁, e₂⟩, e₃⟩ := h.wrapOwn w W q hW hO
    obtain ⟨J', e₄, e₅⟩ := key' _ J e₁
    exact ⟨e, ⟨J', e₄, e₅.trans e₂⟩, .inr (e₃.resolve_left (by simp))⟩
  case own =>
    intro q J w hJ hh
    obtain ⟨J₀, e₁, e₂⟩ := key q J hJ
    exact ⟨(h.own q J₀ w e₁ (e₂.trans hh)).1, by simp⟩
  case ptr =>
    intro q J w W hJ hh hW
    obtain ⟨J₀, e₁, e₂⟩ := key q J hJ
    exact h.ptr q J₀ w W e₁ (e₂.trans hh) hW
  case slot => intro d Y hY; exact ⟨(h.slot d Y hY).1, by simp⟩
  case slotInj => exact h.slotInj
  case pend => simp
  case pendOne => simp
  case aliased =>
    intro d Y W q hY hW hO hh
    refine h.aliased d Y W q hY hW hO (.inl ?_)
    rcases hh with hh | hh
    · exact hh
    · simp at hh; subst hh; exact hv
  case stale0 => simp
  case stale1 =>
    intro q J w hJ hh hW
    obtain ⟨J₀, e₁, e₂⟩ := key q J hJ
    exact h.stale1 q J₀ w e₁ (e₂.trans hh) hW
  case stale2 =>
    intro q J hq hJ
    obtain ⟨J₀, e₁, e₂⟩ := key q J hJ
    obtain ⟨w, a, b⟩ := h.stale2 q J₀ hq e₁
    exact ⟨w, e₂ ▸ a, .inl (b.resolve_right (by simp))⟩
  case seen => exact h.seen

/-- A new reference to a problem. -/
theorem Inv.incBox {c : ℕ} {X : Box} (h : Inv St Sn s []) (hX : s.box c = some X) :
    Inv St Sn { s with box := Function.update s.box c (some { X with rc := X.rc + 1 }) } [.ref (.prob c)] := by
  have up : ∀ q, Function.update s.box c (some { X with rc := X.rc + 1 }) q =
      if q = c then some { X with rc := X.rc + 1 } else s.box q := fun v => by simp [Function.update_apply]
  have key : ∀ q Y, Function.update s.box c (some { X with rc := X.rc + 1 }) q = some Y →
      ∃ Y₀, s.box q = some Y₀ ∧ Y₀.slot = Y.slot := by
    intro q J hJ; rw [up] at hJ; grind
  have key' : ∀ q J, s.box q = some J → ∃ J', Function.update s.box c (some { X with rc := X.rc + 1 }) q = some J' ∧
      J'.slot = J.slot := by
    intro q J hJ; rw [up]; grind
  have key0 : ∀ q, s.box q ≠ none → Function.update s.box c (some { X with rc := X.rc + 1 }) q ≠ none := by
    intro q hq; rw [up]; grind
  constructor
  case instLt => exact h.instLt
  case wrapLt => exact h.wrapLt
  case boxLt => intro q hq; dsimp only; rw [up]; have := h.boxLt q hq; grind
  case heldLt => exact h.heldLt
  case instRc => intro q J hJ; have := h.instRc q J hJ; simp [State.owned] at this ⊢; exact this
  case instVar => exact h.instVar
  case instDead => simp
  case boxRc =>
    intro q Y hY
    dsimp only at hY
    rw [up] at hY
    by_cases hq : q = c
    · subst hq
      have a := h.boxRc q X hX
      simp only [if_true, Option.some.injEq] at hY
      subst hY
      simp at a ⊢
      omega
    · rw [if_neg hq] at hY
      have a := h.boxRc q Y hY
      simp [Ne.symm hq] at a ⊢
      exact a
  case boxVar => intro q hq; exact key0 q (h.boxVar q hq)
  case boxDead => intro q hq; simp at hq; subst hq; exact key0 _ (by simp [hX])
  case boxLife => intro p q hq; exact key0 q (h.boxLife p q hq)
  case lifeInst =>
    intro q d hq
    obtain ⟨J, v, e₁, e₂, e₃⟩ := h.lifeInst q d hq
    refine ⟨J, v, e₁, e₂, fun Y hY => ?_⟩
    obtain ⟨Y₀, e₄, e₅⟩ := key d Y hY
    rw [← e₅]
    have := e₃ Y₀ e₄
    simpa using this
  case wrapSelf => intro w W hW hO; exact .inr ((h.wrapSelf w W hW hO).resolve_left (by simp))
  case wrapOwn =>
    intro w W q hW hO
    obtain ⟨e, e₁, e₂⟩ := h.wrapOwn w W q hW hO
    obtain ⟨d, Y, e₃, e₄⟩ := e₂.resolve_left (by simp)
    obtain ⟨Y', e₅, e₆⟩ := key' d Y e₃
    exact ⟨e, e₁, .inr ⟨d, Y', e₅, e₆.trans e₄⟩⟩
  case own => intro q J w hJ hh; exact ⟨(h.own q J w hJ hh).1, by simp⟩
  case ptr => exact h.ptr
  case slot =>
    intro d Y hY
    obtain ⟨Y₀, e₄, e₅⟩ := key d Y hY
    rw [← e₅]; exact ⟨(h.slot d Y₀ e₄).1, by simp⟩
  case slotInj =>
    intro d d' Y Y' hY hY' he
    obtain ⟨Y₀, e₄, e₅⟩ := key d Y hY
    obtain ⟨Y₁, e₆, e₇⟩ := key d' Y' hY'
    exact h.slotInj d d' Y₀ Y₁ e₄ e₆ (by rw [e₅, e₇, he])
  case pend => simp
  case pendOne => simp
  case aliased =>
    intro d Y W q hY hW hO hh
    obtain ⟨Y₀, e₄, e₅⟩ := key d Y hY
    dsimp only at hW
    rw [← e₅] at hW
    exact h.aliased d Y₀ W q e₄ hW hO (hh.imp id (by simp))
  case stale0 => simp
  case stale1 => exact h.stale1
  case stale2 =>
    intro q J hq hJ
    obtain ⟨w, a, b⟩ := h.stale2 q J hq hJ
    exact ⟨w, a, .inl (b.resolve_right (by simp))⟩
  case seen =>
    intro d q hd
    obtain ⟨Y, U, e₁, e₂, e₃, e₄⟩ := h.seen d q hd
    obtain ⟨Y', e₅, e₆⟩ := key' d Y e₁
    exact ⟨Y', U, e₅, by dsimp only; rw [e₆]; exact e₂, e₃, e₄⟩

/-- Reading the object of a problem. -/
theorem Inv.read {c : ℕ} {X : Box} {W : Wrap B} {I : Inst V} (h : Inv St Sn s []) (hX : s.box c = some X)
    (hW : s.wrap X.slot = some W) (hI : s.inst W.self = some I) :
    Inv St (fun d q => Sn d q ∨ d = c ∧ q = W.self) { s with
      inst := Function.update s.inst W.self (some { I with rc := I.rc + 1 })
      box := Function.update s.box c (some { X with rc := X.rc + 1 })
      life := (W.self, c) :: s.life } [.ref (.obj W.self)] := by
  obtain ⟨⟨W', p', e1, e2⟩, -⟩ := h.slot c X hX
  rw [hW] at e1; cases e1
  obtain ⟨e3, ⟨I', e4, e5⟩, -⟩ := h.wrapOwn _ W p' hW e2
  subst e3
  rw [hI] at e4; cases e4
  generalize W.self = p at *
  have up : ∀ q, Function.update s.box c (some { X with rc := X.rc + 1 }) q =
      if q = c then some { X with rc := X.rc + 1 } else s.box q := fun v => by simp [Function.update_apply]
  have key : ∀ q Y, Function.update s.box c (some { X with rc := X.rc + 1 }) q = some Y →
      ∃ Y₀, s.box q = some Y₀ ∧ Y₀.slot = Y.slot := by
    intro q J hJ; rw [up] at hJ; grind
  have key' : ∀ q J, s.box q = some J → ∃ J', Function.update s.box c (some { X with rc := X.rc + 1 }) q = some J' ∧
      J'.slot = J.slot := by
    intro q J hJ; rw [up]; grind
  have key0 : ∀ q, s.box q ≠ none → Function.update s.box c (some { X with rc := X.rc + 1 }) q ≠ none := by
    intro q hq; rw [up]; grind
  have iup : ∀ q, Function.update s.inst p (some { I with rc := I.rc + 1 }) q =
      if q = p then some { I with rc := I.rc + 1 } else s.inst q := fun v => by simp [Function.update_apply]
  have ikey : ∀ q J, Function.update s.inst p (some { I with rc := I.rc + 1 }) q = some J →
      ∃ J₀, s.inst q = some J₀ ∧ J₀.held = J.held := by
    intro q J hJ; rw [iup] at hJ; grind
  have ikey' : ∀ q J, s.inst q = some J → ∃ J', Function.update s.inst p (some { I with rc := I.rc + 1 }) q = some J' ∧
      J'.held = J.held := by
    intro q J hJ; rw [iup]; grind
  have ikey0 : ∀ q, s.inst q ≠ none → Function.update s.inst p (some { I with rc := I.rc + 1 }) q ≠ none := by
    intro q hq; rw [iup]; grind
  constructor
  case instLt => intro q hq; dsimp only; rw [iup]; have := h.instLt q hq; grind
  case wrapLt => exact h.wrapLt
  case boxLt => intro q hq; dsimp only; rw [up]; have := h.boxLt q hq; grind
  case heldLt =>
    intro q J hJ
    obtain ⟨J₀, e₁, e₂⟩ := ikey q J hJ
    rw [← e₂]; exact h.heldLt q J₀ e₁
  case instRc =>
    intro q J hJ
    dsimp only at hJ
    rw [iup] at hJ
    by_cases hq : q = p
    · subst hq
      have a := h.instRc q I hI
      simp only [if_true, Option.some.injEq] at hJ
      subst hJ
      simp [State.owned] at a ⊢
      omega
    · rw [if_neg hq] at hJ
      have a := h.instRc q J hJ
      simp [Ne.symm hq, State.owned] at a ⊢
      exact a
  case instVar => intro q hq; exact ikey0 q (h.instVar q hq)
  case instDead => intro q hq; simp at hq; subst hq; exact ikey0 _ (by simp [hI])
  case boxRc =>
    intro q Y hY
    dsimp only at hY
    rw [up] at hY
    by_cases hq : q = c
    · subst hq
      have a := h.boxRc q X hX
      simp only [if_true, Option.some.injEq] at hY
      subst hY
      simp at a ⊢
      omega
    · rw [if_neg hq] at hY
      have a := h.boxRc q Y hY
      simp [Ne.symm hq] at a ⊢
      exact a
  case boxVar => intro q hq; exact key0 q (h.boxVar q hq)
  case boxDead => simp
  case boxLife =>
    intro q d hq
    rcases List.mem_cons.1 hq with e | e
    · cases e; exact key0 _ (by simp [hX])
    · exact key0 _ (h.boxLife q d e)
  case lifeInst =>
    intro q d hq
    rcases List.mem_cons.1 hq with e | e
    · cases e
      refine ⟨_, _, Function.update_self _ _ _, e5, fun Y hY => ?_⟩
      dsimp only at hY
      rw [up, if_pos rfl] at hY
      cases hY
      exact .inr (.inr rfl)
    · obtain ⟨J, v, e₁, e₂, e₃⟩ := h.lifeInst q d e
      obtain ⟨J', e₆, e₇⟩ := ikey' q J e₁
      refine ⟨J', v, e₆, e₇.trans e₂, fun Y hY => ?_⟩
      obtain ⟨Y₀, e₄, e₅⟩ := key d Y hY
      rw [← e₅]
      have := e₃ Y₀ e₄
      simpa using this
  case wrapSelf =>
    intro w U hU hO
    obtain ⟨J, e₁, e₂⟩ := (h.wrapSelf w U hU hO).resolve_left (by simp)
    obtain ⟨J', e₄, e₅⟩ := ikey' _ J e₁
    exact .inr ⟨J', e₄, e₅.trans e₂⟩
  case wrapOwn =>
    intro w U q hU hO
    obtain ⟨e, ⟨J, e₁, e₂⟩, e₃⟩ := h.wrapOwn w U q hU hO
    obtain ⟨J', e₄, e₅⟩ := ikey' _ J e₁
    obtain ⟨d, Y, e₃, e₄'⟩ := e₃.resolve_left (by simp)
    obtain ⟨Y', e₅', e₆⟩ := key' d Y e₃
    exact ⟨e, ⟨J', e₄, e₅.trans e₂⟩, .inr ⟨d, Y', e₅', e₆.trans e₄'⟩⟩
  case own =>
    intro q J w hJ hh
    obtain ⟨J₀, e₁, e₂⟩ := ikey q J hJ
    exact ⟨(h.own q J₀ w e₁ (e₂.trans hh)).1, by simp⟩
  case ptr =>
    intro q J w W hJ hh hW
    obtain ⟨J₀, e₁, e₂⟩ := ikey q J hJ
    exact h.ptr q J₀ w W e₁ (e₂.trans hh) hW
  case slot =>
    intro d Y hY
    obtain ⟨Y₀, e₄, e₅⟩ := key d Y hY
    rw [← e₅]; exact ⟨(h.slot d Y₀ e₄).1, by simp⟩
  case slotInj =>
    intro d d' Y Y' hY hY' he
    obtain ⟨Y₀, e₄, e₅⟩ := key d Y hY
    obtain ⟨Y₁, e₆, e₇⟩ := key d' Y' hY'
    exact h.slotInj d d' Y₀ Y₁ e₄ e₆ (by rw [e₅, e₇, he])
  case pend => simp
  case pendOne => simp
  case aliased =>
    intro d Y U q hY hU hO hh
    obtain ⟨Y₀, e₄, e₅⟩ := key d Y hY
    dsimp only at hU ⊢
    rw [← e₅] at hU
    rcases hh with hh | hh
    · exact List.mem_cons_of_mem _ (h.aliased d Y₀ U q e₄ hU hO (.inl hh))
    · simp at hh
      subst hh
      have : Y₀.slot = X.slot := by
        obtain ⟨_, ⟨J, a₁, a₂⟩, _⟩ := h.wrapOwn _ U q hU hO
        rw [hI] at a₁; cases a₁
        rw [e5] at a₂; exact (Held.ptr.inj a₂).symm
      rw [h.slotInj d c Y₀ X e₄ hX this]
      exact List.mem_cons_self
  case stale0 => simp
  case stale1 =>
    intro q J w hJ hh hW
    obtain ⟨J₀, e₁, e₂⟩ := ikey q J hJ
    exact h.stale1 q J₀ w e₁ (e₂.trans hh) hW
  case stale2 =>
    intro q J hq hJ
    obtain ⟨J₀, e₁, e₂⟩ := ikey q J hJ
    obtain ⟨w, a, b⟩ := h.stale2 q J₀ hq e₁
    exact ⟨w, e₂ ▸ a, .inl (b.resolve_right (by simp))⟩
  case seen =>
    rintro d q (hd | ⟨rfl, rfl⟩)
    · obtain ⟨Y, U, e₁, e₂, e₃, e₄⟩ := h.seen d q hd
      obtain ⟨Y', e₅, e₆⟩ := key' d Y e₁
      exact ⟨Y', U, e₅, by dsimp only; rw [e₆]; exact e₂, e₃, List.mem_cons_of_mem _ e₄⟩
    · exact ⟨_, W, Function.update_self _ _ _, hW, e2, List.mem_cons_self⟩

/-- A new instance. -/
theorem Inv.create (h : Inv St Sn s []) (hSt : ¬ St (s.next + 1)) (a : Attrs V) (b : B) :
    Inv St Sn (s.create a b) [.ref (.obj (s.next + 1))] := by
  have iup : ∀ q, (s.create a b).inst q = if q = s.next + 1 then some ⟨a, .own s.next, 1⟩ else s.inst q :=
    fun v => by simp [State.create, Function.update_apply]
  have wup : ∀ q, (s.create a b).wrap q = if q = s.next then some ⟨b, s.next + 1, none⟩ else s.wrap q :=
    fun v => by simp [State.create, Function.update_apply]
  have hi := h.instLt (s.next + 1) (by omega)
  have hw := h.wrapLt s.next le_rfl
  have ikey' : ∀ q J, s.inst q = some J → (s.create a b).inst q = some J := by
    intro q J hJ; rw [iup]; grind
  have wkey' : ∀ q J, s.wrap q = some J → (s.create a b).wrap q = some J := by
    intro q J hJ; rw [wup]; grind
  have iv : some (Ref.obj (s.next + 1)) ∉ s.vars := fun e => h.instVar _ e hi
  have hb : (s.create a b).box = s.box := rfl
  have hv : (s.create a b).vars = s.vars := rfl
  have hl : (s.create a b).life = s.life := rfl
  have hn : (s.create a b).next = s.next + 2 := rfl
  constructor
  case instLt => intro q hq; rw [hn] at hq; rw [iup, if_neg (by omega)]; exact h.instLt q (by omega)
  case wrapLt => intro q hq; rw [hn] at hq; rw [wup, if_neg (by omega)]; exact h.wrapLt q (by omega)
  case boxLt => intro q hq; rw [hn] at hq; exact h.boxLt q (by omega)
  case heldLt =>
    intro q J hJ
    rw [iup] at hJ
    split at hJ
    · cases hJ; simp [Held.target, hn]
    · have := h.heldLt q J hJ; rw [hn]; omega
  case instRc =>
    intro q J hJ
    rw [iup] at hJ
    by_cases hq : q = s.next + 1
    · subst hq
      rw [if_pos rfl] at hJ; cases hJ
      rw [hv, List.count_eq_zero.2 iv]
      simp [State.owned]
    · rw [if_neg hq] at hJ
      have ha := h.instRc q J hJ
      have o : (s.create a b).owned J = s.owned J := by
        have := h.heldLt q J hJ
        unfold State.owned
        cases hh : J.held with
        | own w => rfl
        | ptr w =>
          rw [hh] at this
          simp only [Held.target] at this
          have hx : w ≠ s.next := by omega
          simp only [wup, hx, if_false]
      rw [o, hv]
      simp [Ne.symm hq] at ha ⊢
      exact ha
  case instVar =>
    intro q hq
    obtain ⟨J, hJ⟩ := Option.ne_none_iff_exists'.1 (h.instVar q hq)
    rw [ikey' q J hJ]; simp
  case instDead => intro q hq; simp at hq; subst hq; rw [iup]; simp
  case boxRc => rw [hb, hv, hl]; intro c X hX; have := h.boxRc c X hX; simpa using this
  case boxVar => exact h.boxVar
  case boxDead => simp
  case boxLife => exact h.boxLife
  case lifeInst =>
    rw [hb, hl]
    intro q d hq
    obtain ⟨J, v, e₁, e₂, e₃⟩ := h.lifeInst q d hq
    refine ⟨J, v, ikey' _ _ e₁, e₂, fun Y hY => ?_⟩
    have := h.heldLt q J e₁
    rw [e₂] at this
    simp only [Held.target] at this
    rw [wup, if_neg (by omega)]
    have := e₃ Y hY
    simpa using this
  case wrapSelf =>
    intro w W hW hO
    rw [wup] at hW
    split at hW
    · rename_i e; subst e; cases hW
      exact .inr ⟨⟨a, .own s.next, 1⟩, by rw [iup]; simp, rfl⟩
    · obtain ⟨J, e₁, e₂⟩ := (h.wrapSelf w W hW hO).resolve_left (by simp)
      exact .inr ⟨J, ikey' _ _ e₁, e₂⟩
  case wrapOwn =>
    intro w W q hW hO
    rw [wup] at hW
    split at hW
    · cases hW; simp at hO
    · obtain ⟨e, ⟨J, e₁, e₂⟩, e₃⟩ := h.wrapOwn w W q hW hO
      exact ⟨e, ⟨J, ikey' _ _ e₁, e₂⟩, .inr (e₃.resolve_left (by simp))⟩
  case own =>
    intro q J w hJ hh
    rw [iup] at hJ
    split at hJ
    · rename_i e; subst e; cases hJ; cases hh
      exact ⟨⟨⟨b, s.next + 1, none⟩, by rw [wup]; simp, rfl, rfl⟩, by simp⟩
    · obtain ⟨⟨W, e₁, e₂⟩, e₃⟩ := h.own q J w hJ hh
      exact ⟨⟨W, wkey' _ _ e₁, e₂⟩, by simp⟩
  case ptr =>
    intro q J w W hJ hh hW
    rw [iup] at hJ
    split at hJ
    · cases hJ; cases hh
    · have := h.heldLt q J hJ
      rw [hh] at this
      simp only [Held.target] at this
      rw [wup, if_neg (by omega)] at hW
      exact h.ptr q J w W hJ hh hW
  case slot =>
    rw [hb]
    intro d Y hY
    obtain ⟨⟨W, q, e₁, e₂⟩, e₃⟩ := h.slot d Y hY
    exact ⟨⟨W, q, wkey' _ _ e₁, e₂⟩, by simp⟩
  case slotInj => exact h.slotInj
  case pend => simp
  case pendOne => simp
  case aliased =>
    rw [hb, hl, hv]
    intro d Y U q hY hU hO hh
    obtain ⟨⟨W, p, e₁, e₂⟩, e₃⟩ := h.slot d Y hY
    rw [wkey' _ _ e₁] at hU
    have hU := Option.some.inj hU
    subst hU
    rw [e₂] at hO
    have hO := Option.some.inj hO
    subst hO
    obtain ⟨_, ⟨J, a₁, a₂⟩, _⟩ := h.wrapOwn _ W p e₁ e₂
    refine h.aliased d Y W p hY e₁ e₂ (.inl ?_)
    rcases hh with hh | hh
    · exact hh
    · simp at hh; rw [hh, hi] at a₁; cases a₁
  case stale0 => simp
  case stale1 =>
    intro q J w hJ hh hW
    rw [iup] at hJ
    split at hJ
    · cases hJ; cases hh
    · have := h.heldLt q J hJ
      rw [hh] at this
      simp only [Held.target] at this
      rw [wup, if_neg (by omega)] at hW
      exact h.stale1 q J w hJ hh hW
  case stale2 =>
    intro q J hq hJ
    rw [iup] at hJ
    split at hJ
    · rename_i e; subst e; exact absurd hq hSt
    · obtain ⟨w, a₁, a₂⟩ := h.stale2 q J hq hJ
      have := h.heldLt q J hJ
      rw [a₁] at this
      simp only [Held.target] at this
      refine ⟨w, a₁, .inl ?_⟩
      rw [wup, if_neg (by omega)]
      exact a₂.resolve_right (by simp)
  case seen =>
    intro d q hd
    obtain ⟨Y, U, e₁, e₂, e₃, e₄⟩ := h.seen d q hd
    exact ⟨Y, U, e₁, wkey' _ _ e₂, e₃, e₄⟩

/-- A new C++ part `t` with its instance `p` and a new problem `c` that holds it. -/
theorem Inv.newBox {t p c m : ℕ} {a : Attrs V} {b : B} (h : Inv St Sn s []) (hSt : ¬ St p) (ht : s.next ≤ t)
    (hp : s.next ≤ p) (hc : s.next ≤ c) (htm : t < m) (hpm : p < m) (hcm : c < m) :
    Inv St Sn { s with
      wrap := Function.update s.wrap t (some ⟨b, p, some p⟩)
      inst := Function.update s.inst p (some ⟨a, .ptr t, 1⟩)
      box := Function.update s.box c (some ⟨t, 1⟩)
      next := m } [.ref (.prob c)] := by
  have iup : ∀ q, Function.update s.inst p (some ⟨a, .ptr t, 1⟩) q = if q = p then some ⟨a, .ptr t, 1⟩ else s.inst q :=
    fun v => by simp [Function.update_apply]
  have wup : ∀ q, Function.update s.wrap t (some ⟨b, p, some p⟩) q = if q = t then some ⟨b, p, some p⟩ else s.wrap q :=
    fun v => by simp [Function.update_apply]
  have bup : ∀ q, Function.update s.box c (some ⟨t, 1⟩) q = if q = c then some ⟨t, 1⟩ else s.box q :=
    fun v => by simp [Function.update_apply]
  have hi := h.instLt p hp
  have hw := h.wrapLt t ht
  have hb := h.boxLt c hc
  have ikey' : ∀ q J, s.inst q = some J → Function.update s.inst p (some ⟨a, .ptr t, 1⟩) q = some J := by
    intro q J hJ; rw [iup]; grind
  have wkey' : ∀ q J, s.wrap q = some J → Function.update s.wrap t (some ⟨b, p, some p⟩) q = some J := by
    intro q J hJ; rw [wup]; grind
  have bkey' : ∀ q J, s.box q = some J → Function.update s.box c (some ⟨t, 1⟩) q = some J := by
    intro q J hJ; rw [bup]; grind
  have iv : some (Ref.obj p) ∉ s.vars := fun e => h.instVar _ e hi
  have bv : some (Ref.prob c) ∉ s.vars := fun e => h.boxVar _ e hb
  have bl : ∀ q, (q, c) ∉ s.life := fun q e => h.boxLife q c e hb
  have held : ∀ q J w, s.inst q = some J → J.held = .ptr w → w ≠ t := by
    intro q J w hJ hh
    have := h.heldLt q J hJ
    rw [hh] at this
    simp only [Held.target] at this
    omega
  constructor
  case instLt =>
    intro q hq; dsimp only at hq ⊢; rw [iup, if_neg (by omega)]; exact h.instLt q (by omega)
  case wrapLt => intro q hq; dsimp only at hq ⊢; rw [wup, if_neg (by omega)]; exact h.wrapLt q (by omega)
  case boxLt => intro q hq; dsimp only at hq ⊢; rw [bup, if_neg (by omega)]; exact h.boxLt q (by omega)
  case heldLt =>
    intro q J hJ
    dsimp only at hJ ⊢
    rw [iup] at hJ
    split at hJ
    · cases hJ; exact htm
    · have := h.heldLt q J hJ; omega
  case instRc =>
    intro q J hJ
    dsimp only at hJ
    rw [iup] at hJ
    by_cases hq : q = p
    · subst hq
      rw [if_pos rfl] at hJ; cases hJ
      dsimp only
      rw [List.count_eq_zero.2 iv]
      simp [State.owned]
    · rw [if_neg hq] at hJ
      have a := h.instRc q J hJ
      unfold State.owned at a ⊢
      cases hh : J.held with
      | own w => rw [hh] at a; simpa using a
      | ptr w =>
        rw [hh] at a
        dsimp only at a ⊢
        simp only [wup, held q J w hJ hh, if_false]
        simpa using a
  case instVar =>
    intro q hq
    obtain ⟨J, hJ⟩ := Option.ne_none_iff_exists'.1 (h.instVar q hq)
    dsimp only
    rw [ikey' q J hJ]; simp
  case instDead => simp
  case boxRc =>
    intro d X hX
    dsimp only at hX ⊢
    rw [bup] at hX
    by_cases hd : d = c
    · subst hd
      rw [if_pos rfl] at hX; cases hX
      have : s.life.countP (fun e => e.2 = d) = 0 := by
        rw [List.countP_eq_zero]
        rintro ⟨q, e⟩ he hx
        simp at hx; subst hx; exact bl q he
      rw [List.count_eq_zero.2 bv, this]
      simp
    · rw [if_neg hd] at hX
      have := h.boxRc d X hX
      simpa [Ne.symm hd] using this
  case boxVar =>
    intro q hq
    obtain ⟨J, hJ⟩ := Option.ne_none_iff_exists'.1 (h.boxVar q hq)
    dsimp only
    rw [bkey' q J hJ]; simp
  case boxDead => intro q hq; simp at hq; subst hq; simp
  case boxLife =>
    intro q d hq
    obtain ⟨J, hJ⟩ := Option.ne_none_iff_exists'.1 (h.boxLife q d hq)
    dsimp only
    rw [bkey' d J hJ]; simp
  case lifeInst =>
    intro q d hq
    obtain ⟨J, v, e₁, e₂, e₃⟩ := h.lifeInst q d hq
    refine ⟨J, v, ikey' _ _ e₁, e₂, fun Y hY => ?_⟩
    dsimp only at hY ⊢
    rw [wup, if_neg (held q J v e₁ e₂)]
    rw [bup, if_neg (by rintro rfl; exact bl q hq)] at hY
    have := e₃ Y hY
    simpa using this
  case wrapSelf =>
    intro w W hW hO
    dsimp only at hW
    rw [wup] at hW
    split at hW
    · cases hW; simp at hO
    · obtain ⟨J, e₁, e₂⟩ := (h.wrapSelf w W hW hO).resolve_left (by simp)
      exact .inr ⟨J, ikey' _ _ e₁, e₂⟩
  case wrapOwn =>
    intro w W q hW hO
    dsimp only at hW
    rw [wup] at hW
    split at hW
    · rename_i e; subst e; cases hW; cases hO
      exact ⟨rfl, ⟨_, Function.update_self _ _ _, rfl⟩, .inr ⟨c, ⟨w, 1⟩, by simp, rfl⟩⟩
    · obtain ⟨e, ⟨J, e₁, e₂⟩, e₃⟩ := h.wrapOwn w W q hW hO
      obtain ⟨d, Y, e₄, e₅⟩ := e₃.resolve_left (by simp)
      exact ⟨e, ⟨J, ikey' _ _ e₁, e₂⟩, .inr ⟨d, Y, bkey' _ _ e₄, e₅⟩⟩
  case own =>
    intro q J w hJ hh
    dsimp only at hJ
    rw [iup] at hJ
    split at hJ
    · cases hJ; cases hh
    · obtain ⟨⟨W, e₁, e₂⟩, e₃⟩ := h.own q J w hJ hh
      exact ⟨⟨W, wkey' _ _ e₁, e₂⟩, by simp⟩
  case ptr =>
    intro q J w W hJ hh hW
    dsimp only at hJ hW
    rw [iup] at hJ
    split at hJ
    · rename_i e; cases hJ; cases hh
      rw [wup, if_pos rfl] at hW; cases hW
      exact ⟨e.symm, by rw [e]⟩
    · rw [wup, if_neg (held q J w hJ hh)] at hW
      exact h.ptr q J w W hJ hh hW
  case slot =>
    intro d Y hY
    dsimp only at hY ⊢
    rw [bup] at hY
    split at hY
    · cases hY
      exact ⟨⟨_, p, Function.update_self _ _ _, rfl⟩, by simp⟩
    · obtain ⟨⟨W, q, e₁, e₂⟩, e₃⟩ := h.slot d Y hY
      exact ⟨⟨W, q, wkey' _ _ e₁, e₂⟩, by simp⟩
  case slotInj =>
    intro d d' Y Y' hY hY' he
    dsimp only at hY hY'
    rw [bup] at hY hY'
    split at hY <;> split at hY'
    · omega
    · cases hY
      obtain ⟨⟨W, q, e₁, e₂⟩, e₃⟩ := h.slot d' Y' hY'
      rw [← he, hw] at e₁; cases e₁
    · cases hY'
      obtain ⟨⟨W, q, e₁, e₂⟩, e₃⟩ := h.slot d Y hY
      rw [he, hw] at e₁; cases e₁
    · exact h.slotInj d d' Y Y' hY hY' he
  case pend => simp
  case pendOne => simp
  case aliased =>
    intro d Y U q hY hU hO hh
    dsimp only at hY hU ⊢
    have hh : some (Ref.obj q) ∈ s.vars := hh.resolve_right (by simp)
    rw [bup] at hY
    split at hY
    · cases hY
      rw [wup, if_pos rfl] at hU; cases hU; cases hO
      exact absurd hh iv
    · obtain ⟨⟨W, q', e₁, e₂⟩, e₃⟩ := h.slot d Y hY
      rw [wkey' _ _ e₁] at hU
      have hU := Option.some.inj hU
      subst hU
      exact h.aliased d Y W q hY e₁ hO (.inl hh)
  case stale0 => simp
  case stale1 =>
    intro q J w hJ hh hW
    dsimp only at hJ hW
    rw [iup] at hJ
    split at hJ
    · cases hJ; cases hh; simp at hW
    · rw [wup, if_neg (held q J w hJ hh)] at hW
      exact h.stale1 q J w hJ hh hW
  case stale2 =>
    intro q J hq hJ
    dsimp only at hJ ⊢
    rw [iup] at hJ
    split at hJ
    · rename_i e; subst e; exact absurd hq hSt
    · obtain ⟨w, a₁, a₂⟩ := h.stale2 q J hq hJ
      refine ⟨w, a₁, .inl ?_⟩
      rw [wup, if_neg (held q J w hJ a₁)]
      exact a₂.resolve_right (by simp)
  case seen =>
    intro d q hd
    obtain ⟨Y, U, e₁, e₂, e₃, e₄⟩ := h.seen d q hd
    exact ⟨Y, U, bkey' _ _ e₁, wkey' _ _ e₂, e₃, e₄⟩

/-- A new C++ part `t` with its instance `p` goes into the problem `c`, whose old one is to be destroyed. -/
theorem Inv.assign {t p c m : ℕ} {a : Attrs V} {b : B} {X : Box} {W : Wrap B} (h : Inv St Sn s []) (hSt : ¬ St p)
    (ht : s.next ≤ t) (hp : s.next ≤ p) (htm : t < m) (hpm : p < m) (hX : s.box c = some X)
    (hW : s.wrap X.slot = some W) :
    Inv (fun q => St q ∨ q = W.self) (fun d q => d ≠ c ∧ Sn d q) { s with
      wrap := Function.update s.wrap t (some ⟨b, p, some p⟩)
      inst := Function.update s.inst p (some ⟨a, .ptr t, 1⟩)
      box := Function.update s.box c (some { X with slot := t })
      next := m } [.wrap X.slot] := by
  obtain ⟨⟨W', p', e1, e2⟩, -⟩ := h.slot c X hX
  rw [hW] at e1; cases e1
  obtain ⟨e3, ⟨I', e4, e5⟩, -⟩ := h.wrapOwn _ W p' hW e2
  subst e3
  have iup : ∀ q, Function.update s.inst p (some ⟨a, .ptr t, 1⟩) q = if q = p then some ⟨a, .ptr t, 1⟩ else s.inst q :=
    fun v => by simp [Function.update_apply]
  have wup : ∀ q, Function.update s.wrap t (some ⟨b, p, some p⟩) q = if q = t then some ⟨b, p, some p⟩ else s.wrap q :=
    fun v => by simp [Function.update_apply]
  have bup : ∀ q, Function.update s.box c (some { X with slot := t }) q =
      if q = c then some { X with slot := t } else s.box q :=
    fun v => by simp [Function.update_apply]
  have hi := h.instLt p hp
  have hw := h.wrapLt t ht
  have ikey' : ∀ q J, s.inst q = some J → Function.update s.inst p (some ⟨a, .ptr t, 1⟩) q = some J := by
    intro q J hJ; rw [iup]; grind
  have wkey' : ∀ q J, s.wrap q = some J → Function.update s.wrap t (some ⟨b, p, some p⟩) q = some J := by
    intro q J hJ; rw [wup]; grind
  have bkey0 : ∀ q, s.box q ≠ none → Function.update s.box c (some { X with slot := t }) q ≠ none := by
    intro q hq; rw [bup]; grind
  have iv : some (Ref.obj p) ∉ s.vars := fun e => h.instVar _ e hi
  have held : ∀ q J w, s.inst q = some J → J.held = .ptr w → w ≠ t := by
    intro q J w hJ hh
    have := h.heldLt q J hJ
    rw [hh] at this
    simp only [Held.target] at this
    omega
  have hne : X.slot ≠ t := fun e => by rw [e, hw] at hW; cases hW
  constructor
  case instLt =>
    intro q hq; dsimp only at hq ⊢; rw [iup, if_neg (by omega)]; exact h.instLt q (by omega)
  case wrapLt => intro q hq; dsimp only at hq ⊢; rw [wup, if_neg (by omega)]; exact h.wrapLt q (by omega)
  case boxLt =>
    intro q hq
    dsimp only at hq ⊢
    have := h.boxLt q (by omega)
    rw [bup, if_neg (fun e => by rw [e, hX] at this; cases this)]; exact this
  case heldLt =>
    intro q J hJ
    dsimp only at hJ ⊢
    rw [iup] at hJ
    split at hJ
    · cases hJ; exact htm
    · have := h.heldLt q J hJ; omega
  case instRc =>
    intro q J hJ
    dsimp only at hJ
    rw [iup] at hJ
    by_cases hq : q = p
    · subst hq
      rw [if_pos rfl] at hJ; cases hJ
      dsimp only
      rw [List.count_eq_zero.2 iv]
      simp [State.owned]
    · rw [if_neg hq] at hJ
      have a := h.instRc q J hJ
      unfold State.owned at a ⊢
      cases hh : J.held with
      | own w => rw [hh] at a; simpa using a
      | ptr w =>
        rw [hh] at a
        dsimp only at a ⊢
        simp only [wup, held q J w hJ hh, if_false]
        simpa using a
  case instVar =>
    intro q hq
    obtain ⟨J, hJ⟩ := Option.ne_none_iff_exists'.1 (h.instVar q hq)
    dsimp only
    rw [ikey' q J hJ]; simp
  case instDead => simp
  case boxRc =>
    intro d Y hY
    dsimp only at hY ⊢
    rw [bup] at hY
    by_cases hd : d = c
    · subst hd
      rw [if_pos rfl] at hY; cases hY
      have := h.boxRc d X hX
      simpa using this
    · rw [if_neg hd] at hY
      have := h.boxRc d Y hY
      simpa using this
  case boxVar => intro q hq; exact bkey0 q (h.boxVar q hq)
  case boxDead => simp
  case boxLife => intro q d hq; exact bkey0 d (h.boxLife q d hq)
  case lifeInst =>
    intro q d hq
    obtain ⟨J, v, e₁, e₂, e₃⟩ := h.lifeInst q d hq
    refine ⟨J, v, ikey' _ _ e₁, e₂, fun Y hY => ?_⟩
    dsimp only at hY ⊢
    rw [wup, if_neg (held q J v e₁ e₂)]
    rw [bup] at hY
    split at hY
    · rename_i e; subst e
      have := e₃ X hX
      cases hY
      simp at this ⊢
      rcases this with e | e
      · exact .inl e
      · exact .inr (.inl e.symm)
    · have := e₃ Y hY
      simp at this ⊢
      tauto
  case wrapSelf =>
    intro w U hU hO
    dsimp only at hU
    rw [wup] at hU
    split at hU
    · cases hU; simp at hO
    · obtain ⟨J, e₁, e₂⟩ := (h.wrapSelf w U hU hO).resolve_left (by simp)
      exact .inr ⟨J, ikey' _ _ e₁, e₂⟩
  case wrapOwn =>
    intro w U q hU hO
    dsimp only at hU
    rw [wup] at hU
    split at hU
    · rename_i e; subst e; cases hU; cases hO
      exact ⟨rfl, ⟨_, Function.update_self _ _ _, rfl⟩, .inr ⟨c, _, Function.update_self _ _ _, rfl⟩⟩
    · obtain ⟨e, ⟨J, e₁, e₂⟩, e₃⟩ := h.wrapOwn w U q hU hO
      obtain ⟨d, Y, e₄, e₅⟩ := e₃.resolve_left (by simp)
      refine ⟨e, ⟨J, ikey' _ _ e₁, e₂⟩, ?_⟩
      by_cases hd : d = c
      · subst hd; rw [hX] at e₄; cases e₄; left; simp [e₅]
      · exact .inr ⟨d, Y, by dsimp only; rw [bup, if_neg hd]; exact e₄, e₅⟩
  case own =>
    intro q J w hJ hh
    dsimp only at hJ
    rw [iup] at hJ
    split at hJ
    · cases hJ; cases hh
    · obtain ⟨⟨U, e₁, e₂⟩, e₃⟩ := h.own q J w hJ hh
      refine ⟨⟨U, wkey' _ _ e₁, e₂⟩, ?_⟩
      simp
      intro e
      rw [e, hW] at e₁; cases e₁
      rw [e2] at e₂
      exact absurd e₂.2 (by simp)
  case ptr =>
    intro q J w U hJ hh hU
    dsimp only at hJ hU
    rw [iup] at hJ
    split at hJ
    · rename_i e; cases hJ; cases hh
      rw [wup, if_pos rfl] at hU; cases hU
      exact ⟨e.symm, by rw [e]⟩
    · rw [wup, if_neg (held q J w hJ hh)] at hU
      exact h.ptr q J w U hJ hh hU
  case slot =>
    intro d Y hY
    dsimp only at hY ⊢
    rw [bup] at hY
    split at hY
    · cases hY
      exact ⟨⟨_, p, Function.update_self _ _ _, rfl⟩, by simp [Ne.symm hne]⟩
    · rename_i hd
      obtain ⟨⟨U, q, e₁, e₂⟩, e₃⟩ := h.slot d Y hY
      refine ⟨⟨U, q, wkey' _ _ e₁, e₂⟩, ?_⟩
      simp
      intro e
      exact hd (h.slotInj d c Y X hY hX e)
  case slotInj =>
    intro d d' Y Y' hY hY' he
    dsimp only at hY hY'
    rw [bup] at hY hY'
    split at hY <;> split at hY'
    · omega
    · cases hY
      obtain ⟨⟨U, q, e₁, e₂⟩, e₃⟩ := h.slot d' Y' hY'
      rw [← he, hw] at e₁; cases e₁
    · cases hY'
      obtain ⟨⟨U, q, e₁, e₂⟩, e₃⟩ := h.slot d Y hY
      rw [he, hw] at e₁; cases e₁
    · exact h.slotInj d d' Y Y' hY hY' he
  case pend =>
    intro w hw
    simp at hw
    subst hw
    dsimp only
    rw [wkey' _ _ hW]; simp
  case pendOne =>
    intro w
    rw [List.count_singleton]
    split <;> omega
  case aliased =>
    intro d Y U q hY hU hO hh
    dsimp only at hY hU ⊢
    have hh : some (Ref.obj q) ∈ s.vars := hh.resolve_right (by simp)
    rw [bup] at hY
    split at hY
    · cases hY
      rw [wup, if_pos rfl] at hU; cases hU; cases hO
      exact absurd hh iv
    · obtain ⟨⟨U', q', e₁, e₂⟩, e₃⟩ := h.slot d Y hY
      rw [wkey' _ _ e₁] at hU
      have hU := Option.some.inj hU
      subst hU
      exact h.aliased d Y U' q hY e₁ hO (.inl hh)
  case stale0 =>
    intro w U q hw' hU hO
    simp at hw'
    subst hw'
    dsimp only at hU
    rw [wkey' _ _ hW] at hU; cases hU
    rw [e2] at hO; cases hO
    exact .inl (.inr rfl)
  case stale1 =>
    intro q J w hJ hh hU
    dsimp only at hJ hU
    rw [iup] at hJ
    split at hJ
    · cases hJ; cases hh; simp at hU
    · rw [wup, if_neg (held q J w hJ hh)] at hU
      exact (h.stale1 q J w hJ hh hU).imp .inl id
  case stale2 =>
    intro q J hq hJ
    dsimp only at hJ ⊢
    rw [iup] at hJ
    split at hJ
    · rename_i e; subst e
      rcases hq with hq | hq
      · exact absurd hq hSt
      · rw [← hq, hi] at e4; cases e4
    · rcases hq with hq | hq
      · obtain ⟨w, a₁, a₂⟩ := h.stale2 q J hq hJ
        refine ⟨w, a₁, .inl ?_⟩
        rw [wup, if_neg (held q J w hJ a₁)]
        exact a₂.resolve_right (by simp)
      · subst hq
        rw [e4] at hJ; cases hJ
        exact ⟨_, e5, .inr (by simp)⟩
  case seen =>
    rintro d q ⟨hd, hs⟩
    obtain ⟨Y, U, e₁, e₂, e₃, e₄⟩ := h.seen d q hs
    exact ⟨Y, U, by dsimp only; rw [bup, if_neg hd]; exact e₁, wkey' _ _ e₂, e₃, e₄⟩

end Aligator.PyObj
