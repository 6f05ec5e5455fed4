import Verif.Spec.Arena
import Mathlib.Tactic.Common

/-!
# Arena matrices (C50)
-/

namespace Aligator.Arena

open Spec Function

/-- Ownership of blocks. -/
structure Inv (h : Heap) (vars : ℕ → Option Mat) : Prop where
  live : ∀ i m p, vars i = some m → m.data = some p → h.blocks p = some (m.alloc, m.allocSize) ∧ m.size = m.allocSize
  distinct : ∀ i j m m' p, vars i = some m → vars j = some m' → m.data = some p → m'.data = some p → i = j
  noLeak : ∀ p, h.blocks p ≠ none → ∃ i m, vars i = some m ∧ m.data = some p
  fresh : ∀ p, h.blocks p ≠ none → p < h.next

/-- A matrix and what the client remembers about it. -/
def Agree (a : Abs) (m : Mat) : Prop :=
  m.alloc = a.alloc ∧
  match a.tag with
  | .usable => m.allocSize = a.size ∧ m.size = a.size ∧ (m.data = none → a.size = 0)
  | .movedByConstruction => m.data = none ∧ m.allocSize = 0 ∧ a.size = 0
  | .movedByAssignment => m.data = none

theorem Agree.usable {b n : ℕ} {m : Mat} (h1 : m.alloc = b) (h2 : m.allocSize = n) (h3 : m.size = n)
    (h4 : m.data = none → n = 0) : Agree ⟨b, n, .usable⟩ m := ⟨h1, h2, h3, h4⟩

/-- The variables and what the client remembers. -/
def Agrees (v : View) (vars : ℕ → Option Mat) : Prop :=
  ∀ i, match v i, vars i with
    | none, none => True
    | some a, some m => Agree a m
    | _, _ => False

theorem Agrees.get {v : View} {vars} (h : Agrees v vars) {i a} (hi : v i = some a) : ∃ m, vars i = some m ∧ Agree a m := by
  have := h i
  rw [hi] at this
  cases hm : vars i with
  | none => rw [hm] at this; exact this.elim
  | some m => rw [hm] at this; exact ⟨m, rfl, this⟩

theorem Agrees.absent {v : View} {vars} (h : Agrees v vars) {i} (hi : v i = none) : vars i = none := by
  have := h i
  rw [hi] at this
  cases hm : vars i with
  | none => rfl
  | some m => rw [hm] at this; exact this.elim

theorem Agrees.put {v : View} {vars} (h : Agrees v vars) (i : ℕ) (a : Abs) (m : Mat) (ha : Agree a m) :
    Agrees (update v i (some a)) (update vars i (some m)) := by
  intro k
  by_cases hk : k = i
  · subst hk; simpa using ha
  · rw [update_of_ne hk, update_of_ne hk]; exact h k

theorem Agrees.drop {v : View} {vars} (h : Agrees v vars) (i : ℕ) : Agrees (update v i none) (update vars i none) := by
  intro k
  by_cases hk : k = i
  · subst hk; simp
  · rw [update_of_ne hk, update_of_ne hk]; exact h k

/-! ### Primitive steps -/

theorem upd_some {vars : ℕ → Option Mat} {i k : ℕ} {x : Option Mat} {m : Mat} (h : update vars i x k = some m) :
    (k = i ∧ x = some m) ∨ (k ≠ i ∧ vars k = some m) := by
  by_cases hk : k = i
  · subst hk; rw [update_self] at h; exact .inl ⟨rfl, h⟩
  · rw [update_of_ne hk] at h; exact .inr ⟨hk, h⟩

/-- Freeing the memory of a variable. -/
theorem Inv.release {h : Heap} {vars} (hI : Inv h vars) (i : ℕ) (m : Mat) (hm : vars i = some m) :
    ∃ h', deallocate h m = .ok h' ∧ Inv h' (update vars i none) ∧ h'.next = h.next := by
  unfold deallocate
  cases hd : m.data with
  | none =>
    refine ⟨h, rfl, ⟨fun k a p hk hp => ?_, fun j k a b p hj hk ha hb => ?_, fun p hp => ?_, hI.fresh⟩, rfl⟩
    · rcases upd_some hk with ⟨-, h⟩ | ⟨-, h⟩
      · simp at h
      · exact hI.live k a p h hp
    · rcases upd_some hj with ⟨-, h⟩ | ⟨-, h⟩
      · simp at h
      rcases upd_some hk with ⟨-, h'⟩ | ⟨-, h'⟩
      · simp at h'
      exact hI.distinct j k a b p h h' ha hb
    · obtain ⟨k, a, hk, ha⟩ := hI.noLeak p hp
      refine ⟨k, a, ?_, ha⟩
      rw [update_of_ne, hk]
      rintro rfl
      rw [hm, Option.some.injEq] at hk
      subst hk
      rw [hd] at ha
      simp at ha
  | some p =>
    obtain ⟨h1, h2⟩ := hI.live i m p hm hd
    simp only [Heap.free, h2, h1, if_true]
    refine ⟨_, rfl, ⟨fun k a q hk hq => ?_, fun j k a b q hj hk ha hb => ?_, fun q hq => ?_, fun q hq => ?_⟩, rfl⟩
    · rcases upd_some hk with ⟨-, h⟩ | ⟨hne, h⟩
      · simp at h
      have hqp : q ≠ p := fun he => hne (hI.distinct k i a m p h hm (he ▸ hq) hd)
      simp only [update_of_ne hqp]
      exact hI.live k a q h hq
    · rcases upd_some hj with ⟨-, h⟩ | ⟨-, h⟩
      · simp at h
      rcases upd_some hk with ⟨-, h'⟩ | ⟨-, h'⟩
      · simp at h'
      exact hI.distinct j k a b q h h' ha hb
    · by_cases hqp : q = p
      · subst hqp; simp at hq
      · simp only [update_of_ne hqp] at hq
        obtain ⟨k, a, hk, ha⟩ := hI.noLeak q hq
        refine ⟨k, a, ?_, ha⟩
        rw [update_of_ne, hk]
        rintro rfl
        rw [hm, Option.some.injEq] at hk
        subst hk
        rw [hd, Option.some.injEq] at ha
        exact hqp ha.symm
    · by_cases hqp : q = p
      · subst hqp; simp at hq
      · simp only [update_of_ne hqp] at hq
        exact hI.fresh q hq

/-- A new block for an absent variable. -/
theorem Inv.acquire {h : Heap} {vars} (hI : Inv h vars) (i : ℕ) (hi : vars i = none) (r c a : ℕ) :
    Inv (h.allocate a (r * c)).2 (update vars i (some ⟨some (h.allocate a (r * c)).1, r, c, a, r * c⟩)) := by
  have hfr : h.blocks h.next = none := by
    by_contra hc
    exact absurd (hI.fresh _ hc) (Nat.lt_irrefl _)
  have hown : ∀ k m, vars k = some m → m.data ≠ some h.next := fun k m hk hd => by
    rw [(hI.live k m _ hk hd).1] at hfr; simp at hfr
  simp only [Heap.allocate]
  refine ⟨fun k m p hk hp => ?_, fun j k m m' p hj hk hm hm' => ?_, fun p hp => ?_, fun p hp => ?_⟩
  · rcases upd_some hk with ⟨-, h'⟩ | ⟨-, h'⟩
    · simp only [Option.some.injEq] at h'; subst h'
      simp only [Option.some.injEq] at hp; subst hp
      simp [Mat.size]
    · have hpn : p ≠ h.next := fun he => hown k m h' (he ▸ hp)
      simp only [update_of_ne hpn]
      exact hI.live k m p h' hp
  · rcases upd_some hj with ⟨rfl, h1⟩ | ⟨-, h1⟩ <;> rcases upd_some hk with ⟨rfl, h2⟩ | ⟨-, h2⟩
    · rfl
    · simp only [Option.some.injEq] at h1; subst h1
      simp only [Option.some.injEq] at hm; subst hm
      exact absurd hm' (hown k m' h2)
    · simp only [Option.some.injEq] at h2; subst h2
      simp only [Option.some.injEq] at hm'; subst hm'
      exact absurd hm (hown j m h1)
    · exact hI.distinct j k m m' p h1 h2 hm hm'
  · by_cases hpn : p = h.next
    · exact ⟨i, _, update_self .., by simp [hpn]⟩
    · simp only [update_of_ne hpn] at hp
      obtain ⟨k, m, hk, hm⟩ := hI.noLeak p hp
      refine ⟨k, m, ?_, hm⟩
      rw [update_of_ne, hk]
      rintro rfl
      rw [hi] at hk
      simp at hk
  · by_cases hpn : p = h.next
    · subst hpn; exact Nat.lt_succ_self _
    · simp only [update_of_ne hpn] at hp
      exact Nat.lt_succ_of_lt (hI.fresh p hp)

/-- A matrix without memory for an absent variable. -/
theorem Inv.void {h : Heap} {vars} (hI : Inv h vars) (i : ℕ) (hi : vars i = none) (m : Mat) (hm : m.data = none) :
    Inv h (update vars i (some m)) := by
  refine ⟨fun k a p hk hp => ?_, fun j k a b p hj hk ha hb => ?_, fun p hp => ?_, hI.fresh⟩
  · rcases upd_some hk with ⟨-, h'⟩ | ⟨-, h'⟩
    · simp only [Option.some.injEq] at h'; subst h'; rw [hm] at hp; simp at hp
    · exact hI.live k a p h' hp
  · rcases upd_some hj with ⟨-, h1⟩ | ⟨-, h1⟩
    · simp only [Option.some.injEq] at h1; subst h1; rw [hm] at ha; simp at ha
    rcases upd_some hk with ⟨-, h2⟩ | ⟨-, h2⟩
    · simp only [Option.some.injEq] at h2; subst h2; rw [hm] at hb; simp at hb
    exact hI.distinct j k a b p h1 h2 ha hb
  · obtain ⟨k, a, hk, ha⟩ := hI.noLeak p hp
    refine ⟨k, a, ?_, ha⟩
    rw [update_of_ne, hk]
    rintro rfl
    rw [hi] at hk
    simp at hk

/-- The memory of `j` goes to the absent variable `i`. -/
theorem Inv.transfer {h : Heap} {vars} (hI : Inv h vars) (i j : ℕ) (hij : i ≠ j) (hi : vars i = none) (o o' : Mat)
    (hj : vars j = some o) (ho' : o'.data = none) :
    Inv h (update (update vars j (some o')) i (some o)) := by
  have look : ∀ k m p, update (update vars j (some o')) i (some o) k = some m → m.data = some p →
      (k = i ∧ m = o) ∨ (k ≠ i ∧ k ≠ j ∧ vars k = some m) := by
    intro k m p hk hp
    rcases upd_some hk with ⟨h1, h2⟩ | ⟨h1, h2⟩
    · simp only [Option.some.injEq] at h2; exact .inl ⟨h1, h2.symm⟩
    · rcases upd_some h2 with ⟨h3, h4⟩ | ⟨h3, h4⟩
      · simp only [Option.some.injEq] at h4; subst h4; rw [ho'] at hp; simp at hp
      · exact .inr ⟨h1, h3, h4⟩
  refine ⟨fun k a p hk hp => ?_, fun k l a b p hk hl ha hb => ?_, fun p hp => ?_, hI.fresh⟩
  · rcases look k a p hk hp with ⟨-, rfl⟩ | ⟨-, -, h'⟩
    · exact hI.live j a p hj hp
    · exact hI.live k a p h' hp
  · rcases look k a p hk ha with ⟨h1, rfl⟩ | ⟨-, h2, h1⟩ <;> rcases look l b p hl hb with ⟨h3, rfl⟩ | ⟨-, h4, h3⟩
    · rw [h1, h3]
    · exact absurd (hI.distinct j l a b p hj h3 ha hb).symm h4
    · exact absurd (hI.distinct k j a b p h1 hj ha hb) h2
    · exact hI.distinct k l a b p h1 h3 ha hb
  · obtain ⟨k, a, hk, ha⟩ := hI.noLeak p hp
    by_cases hkj : k = j
    · subst hkj
      rw [hj, Option.some.injEq] at hk
      subst hk
      exact ⟨i, o, update_self .., ha⟩
    · refine ⟨k, a, ?_, ha⟩
      rw [update_of_ne, update_of_ne hkj, hk]
      rintro rfl
      rw [hi] at hk
      simp at hk

/-- Changing only the shape, within the same size. -/
theorem Inv.reshape {h : Heap} {vars} (hI : Inv h vars) (i : ℕ) (m : Mat) (hm : vars i = some m) (r c : ℕ)
    (hs : m.allocSize = r * c) : Inv h (update vars i (some { m with rows := r, cols := c })) := by
  have look : ∀ k a, update vars i (some { m with rows := r, cols := c }) k = some a →
      (k = i ∧ a = { m with rows := r, cols := c }) ∨ (k ≠ i ∧ vars k = some a) := by
    intro k a hk
    rcases upd_some hk with ⟨h1, h2⟩ | h1
    · simp only [Option.some.injEq] at h2; exact .inl ⟨h1, h2.symm⟩
    · exact .inr h1
  refine ⟨fun k a p hk hp => ?_, fun k l a b p hk hl ha hb => ?_, fun p hp => ?_, hI.fresh⟩
  · rcases look k a hk with ⟨-, rfl⟩ | ⟨-, h'⟩
    · exact ⟨(hI.live i m p hm hp).1, hs.symm⟩
    · exact hI.live k a p h' hp
  · rcases look k a hk with ⟨h1, rfl⟩ | ⟨-, h1⟩ <;> rcases look l b hl with ⟨h3, rfl⟩ | ⟨-, h3⟩
    · rw [h1, h3]
    · rw [h1]; exact hI.distinct i l m b p hm h3 ha hb
    · rw [h3]; exact hI.distinct k i a m p h1 hm ha hb
    · exact hI.distinct k l a b p h1 h3 ha hb
  · obtain ⟨k, a, hk, ha⟩ := hI.noLeak p hp
    by_cases hki : k = i
    · subst hki
      rw [hm, Option.some.injEq] at hk
      subst hk
      exact ⟨k, _, update_self .., ha⟩
    · exact ⟨k, a, by rw [update_of_ne hki, hk], ha⟩

/-- `resize` on a matrix that was not the argument of a move assignment. -/
theorem resize_spec {h : Heap} {vars} (hI : Inv h vars) (i : ℕ) (m : Mat) (hm : vars i = some m) (a : Abs)
    (ha : Agree a m) (ht : a.tag ≠ .movedByAssignment) (r c : ℕ) :
    ∃ h' m', resize h m r c = .ok (h', m') ∧ Inv h' (update vars i (some m')) ∧
      Agree ⟨a.alloc, r * c, .usable⟩ m' ∧ m'.rows = r ∧ m'.cols = c := by
  unfold resize
  split
  · obtain ⟨h1, e1, hI1, -⟩ := hI.release i m hm
    rw [e1]
    have := hI1.acquire i (update_self ..) r c m.alloc
    rw [update_idem] at this
    exact ⟨_, _, rfl, this, ⟨ha.1, rfl, rfl, by simp⟩, rfl, rfl⟩
  · rename_i hs
    rw [not_not] at hs
    refine ⟨h, _, rfl, hI.reshape i m hm r c hs, ⟨ha.1, hs, rfl, fun hd => ?_⟩, rfl, rfl⟩
    obtain ⟨-, ha2⟩ := ha
    simp only at hd ⊢
    cases hta : a.tag with
    | usable => rw [hta] at ha2; obtain ⟨h1, -, h3⟩ := ha2; rw [← hs, h1]; exact h3 hd
    | movedByConstruction => rw [hta] at ha2; rw [← hs]; exact ha2.2.1
    | movedByAssignment => exact absurd hta ht

theorem touch_ok (a : Abs) (m : Mat) (ha : Agree a m) (ht : a.tag = .usable) : touch m = .ok () := by
  obtain ⟨-, ha⟩ := ha
  rw [ht] at ha
  unfold touch
  rw [if_neg]
  rintro ⟨h1, h2⟩
  exact h2 (ha.2.1.trans (ha.2.2 h1))

/-- One careful operation. -/
theorem step_sound (v v' : View) (o : Op) (hs : Step v o v') (s : State) (hI : Inv s.heap s.vars)
    (hA : Agrees v s.vars) : ∃ s', s.step o = .ok s' ∧ Inv s'.heap s'.vars ∧ Agrees v' s'.vars := by
  cases hs with
  | empty i a hi =>
    have hn := hA.absent hi
    simp only [State.step, State.absent, hn]
    exact ⟨_, rfl, hI.void i hn _ rfl, hA.put i _ _ (.usable rfl rfl rfl fun _ => rfl)⟩
  | construct i r c a hi =>
    have hn := hA.absent hi
    simp only [State.step, State.absent, hn]
    exact ⟨_, rfl, hI.acquire i hn r c a, hA.put i _ _ (.usable rfl rfl rfl (by simp [construct]))⟩
  | copy i j a b n hi hj =>
    have hn := hA.absent hi
    obtain ⟨m, hm, ha⟩ := hA.get hj
    simp only [State.step, State.absent, hn, State.get, hm]
    refine ⟨s.put (construct s.heap m.rows m.cols a).2 i (construct s.heap m.rows m.cols a).1, ?_,
      hI.acquire i hn m.rows m.cols a, hA.put i _ _ (.usable rfl ?_ ?_ (by simp [construct]))⟩
    · simp only [bind, Except.bind, touch_ok _ m ha rfl]
    · exact ha.2.2.1
    · exact ha.2.2.1
  | move i j b n hi hj =>
    have hn := hA.absent hi
    obtain ⟨m, hm, ha⟩ := hA.get hj
    have hij : i ≠ j := by rintro rfl; rw [hi] at hj; simp at hj
    simp only [State.step, State.absent, hn, State.get, hm]
    exact ⟨_, rfl, hI.transfer i j hij hn m _ hm rfl, (hA.put j ⟨b, 0, .movedByConstruction⟩ { m with data := none, allocSize := 0 } ⟨ha.1, rfl, rfl, rfl⟩).put i _ _ ha⟩
  | moveAlloc i j b n hi hj =>
    have hn := hA.absent hi
    obtain ⟨m, hm, ha⟩ := hA.get hj
    have hij : i ≠ j := by rintro rfl; rw [hi] at hj; simp at hj
    have hb : b = m.alloc := ha.1.symm
    have hmm : ({ m with alloc := b } : Mat) = m := by rw [hb]
    simp only [State.step, State.absent, hn, State.get, hm]
    refine ⟨(s.put s.heap j { m with data := none, allocSize := 0 }).put s.heap i m, ?_,
      hI.transfer i j hij hn m _ hm rfl, (hA.put j ⟨b, 0, .movedByConstruction⟩ { m with data := none, allocSize := 0 } ⟨ha.1, rfl, rfl, rfl⟩).put i _ _ ha⟩
    simp only [bind, Except.bind, hb, if_true]
  | assign i r c b n t hi ht =>
    obtain ⟨m, hm, ha⟩ := hA.get hi
    obtain ⟨h', m', e1, e2, e3, -⟩ := resize_spec hI i m hm _ ha ht r c
    simp only [State.step, State.get, hm, assign]
    refine ⟨s.put h' i m', ?_, e2, hA.put i _ _ e3⟩
    simp only [bind, Except.bind, e1, touch_ok _ m' e3 rfl]
  | copyAssign i j b n t b' n' hi ht hj =>
    obtain ⟨m, hm, ha⟩ := hA.get hi
    obtain ⟨o, ho, hb⟩ := hA.get hj
    obtain ⟨h', m', e1, e2, e3, -⟩ := resize_spec hI i m hm _ ha ht o.rows o.cols
    have hsz : o.rows * o.cols = n' := hb.2.2.1
    rw [hsz] at e3
    simp only [State.step, State.get, hm, ho]
    refine ⟨s.put h' i m', ?_, e2, hA.put i _ _ e3⟩
    have ht1 : touch (if i = j then m' else o) = .ok () := by
      split
      · exact touch_ok _ m' e3 rfl
      · exact touch_ok _ o hb rfl
    simp only [bind, Except.bind, e1, touch_ok _ m' e3 rfl, ht1]
  | moveAssign i j b n t n' hij hi hj =>
    obtain ⟨m, hm, ha⟩ := hA.get hi
    obtain ⟨o, ho, hb⟩ := hA.get hj
    obtain ⟨h', e1, e2, -⟩ := hI.release i m hm
    have hab : m.alloc = o.alloc := ha.1.trans hb.1.symm
    have ho2 : update s.vars i none j = some o := by rw [update_of_ne (Ne.symm hij)]; exact ho
    have key := e2.transfer i j hij (update_self ..) o { o with data := none } ho2 rfl
    rw [update_comm hij, update_idem] at key
    have hmo : ({ o with alloc := m.alloc } : Mat) = o := by rw [hab]
    simp only [State.step, State.get, hm, ho]
    refine ⟨(s.put h' j { o with data := none }).put h' i o, ?_, ?_,
      (hA.put j ⟨b, n', .movedByAssignment⟩ { o with data := none } ⟨hb.1, rfl⟩).put i _ _ hb⟩
    · simp only [bind, Except.bind, hij, if_false, hab, if_true, e1]
    · simpa [State.put] using key
  | moveSelf i x hi =>
    obtain ⟨m, hm, -⟩ := hA.get hi
    simp only [State.step, State.get, hm]
    exact ⟨s, by simp [bind, Except.bind], hI, hA⟩
  | resize i r c b n t hi ht =>
    obtain ⟨m, hm, ha⟩ := hA.get hi
    obtain ⟨h', m', e1, e2, e3, -⟩ := resize_spec hI i m hm _ ha ht r c
    simp only [State.step, State.get, hm]
    exact ⟨s.put h' i m', by simp only [bind, Except.bind, e1], e2, hA.put i _ _ e3⟩
  | conservativeResize i r c b n t hi ht hle =>
    obtain ⟨m, hm, ha⟩ := hA.get hi
    have hsz : m.allocSize = n ∧ (m.data = none → n = 0) := by
      obtain ⟨-, h2⟩ := ha
      cases t with
      | usable => exact ⟨h2.1, h2.2.2⟩
      | movedByConstruction => exact ⟨h2.2.1.trans h2.2.2.symm, fun _ => h2.2.2⟩
      | movedByAssignment => exact absurd rfl ht
    simp only [State.step, State.get, hm]
    by_cases hlt : m.allocSize < r * c
    · have hnull : ¬(m.data = none ∧ m.allocSize ≠ 0) := fun ⟨h1, h2⟩ => h2 (hsz.1.trans (hsz.2 h1))
      -- allocate first, then free: the same heap as freeing first
      have hfr : s.heap.blocks s.heap.next = none := by
        by_contra hc
        exact absurd (hI.fresh _ hc) (Nat.lt_irrefl _)
      obtain ⟨h1, e1, hI1, hnx⟩ := hI.release i m hm
      have hcomm : deallocate (s.heap.allocate m.alloc (r * c)).2 m = .ok (h1.allocate m.alloc (r * c)).2 := by
        unfold deallocate at e1 ⊢
        cases hd : m.data with
        | none => simp only [hd, Except.ok.injEq] at e1 ⊢; rw [e1]
        | some p =>
          have hpn : p ≠ s.heap.next := by
            rintro rfl
            rw [(hI.live i m _ hm hd).1] at hfr
            simp at hfr
          simp only [hd, Heap.free, Heap.allocate, update_of_ne hpn] at e1 ⊢
          split at e1
          · rename_i hb
            simp only [Except.ok.injEq] at e1
            subst e1
            rw [if_pos hb]
            simp only [Except.ok.injEq, Heap.mk.injEq, and_true]
            exact update_comm (Ne.symm hpn) _ _ _
          · simp at e1
      have key := hI1.acquire i (update_self ..) r c m.alloc
      rw [update_idem] at key
      have hp : (h1.allocate m.alloc (r * c)).1 = (s.heap.allocate m.alloc (r * c)).1 := hnx
      rw [hp] at key
      refine ⟨s.put (h1.allocate m.alloc (r * c)).2 i ⟨some (s.heap.allocate m.alloc (r * c)).1, r, c, m.alloc, r * c⟩,
        ?_, key, hA.put i _ _ (.usable ha.1 rfl rfl (by simp))⟩
      simp only [bind, Except.bind, Arena.conservativeResize, if_pos hlt, if_neg hnull, hcomm]
    · have heq : m.allocSize = r * c := by omega
      exact ⟨s.put s.heap i { m with rows := r, cols := c }, by
          simp only [bind, Except.bind, Arena.conservativeResize, if_neg hlt], hI.reshape i m hm r c heq,
        hA.put i _ _ (.usable ha.1 heq rfl fun hd => by have := hsz.2 hd; omega)⟩
  | destroy i x hi =>
    obtain ⟨m, hm, -⟩ := hA.get hi
    obtain ⟨h', e1, e2, -⟩ := hI.release i m hm
    simp only [State.step, State.get, hm]
    exact ⟨⟨h', update s.vars i none⟩, by simp only [bind, Except.bind, e1], e2, hA.drop i⟩

theorem run_sound (v v' : View) (os : List Op) (hr : Run v os v') (s : State) (hI : Inv s.heap s.vars)
    (hA : Agrees v s.vars) : ∃ s', s.run os = .ok s' ∧ Inv s'.heap s'.vars ∧ Agrees v' s'.vars := by
  induction hr generalizing s with
  | nil v => exact ⟨s, rfl, hI, hA⟩
  | cons v v' v'' o os hs _ ih =>
    obtain ⟨s1, h1, h2, h3⟩ := step_sound v v' o hs s hI hA
    obtain ⟨s2, h4, h5⟩ := ih s1 h2 h3
    exact ⟨s2, by simp only [State.run, bind, Except.bind, h1, h4], h5⟩

theorem init_inv : Inv State.init.heap State.init.vars :=
  ⟨by simp [State.init], by simp [State.init], by simp [State.init], by simp [State.init]⟩

/-- **C50 for careful clients.**  A client that moves only between matrices with equal allocators, does not shrink with
`conservativeResize`, and only destroys or overwrites moved-from matrices (after a move assignment: only destroys them
or moves into them) meets no bad free and no access through a null pointer, for programs of any length; afterwards every
non-empty usable matrix owns a live block of its size, no block is shared, none is lost.  Missing: the other clients
(`C50_shrink_bad_free`, `C50_leak`, `C50_moved_from_reuse`, `C50_copy_of_moved_from`). -/
theorem C50_memory_partial (os : List Op) (v : View) (hr : Run (fun _ => none) os v) :
    ∃ s, State.init.run os = .ok s ∧ Sound v s := by
  obtain ⟨s, h1, h2, h3⟩ := run_sound _ v os hr State.init init_inv (fun _ => trivial)
  refine ⟨s, h1, fun i => ?_, fun i m n b hm hv hn => ?_, h2.distinct, h2.noLeak⟩
  · have := h3 i
    cases hv : v i <;> cases hm : s.vars i <;> simp [hv, hm] at this ⊢
  · obtain ⟨m', hm', ha⟩ := h3.get hv
    rw [hm, Option.some.injEq] at hm'
    subst hm'
    obtain ⟨a1, a2, a3, a4⟩ := ha
    simp only at a2 a3 a4
    cases hd : m.data with
    | none => exact absurd (a4 hd) hn
    | some p =>
      refine ⟨a3, p, rfl, ?_⟩
      rw [(h2.live i m p hm hd).1, a1, a2]

/-- **C50, nothing remains.**  When a careful client has destroyed all its matrices, no block is live. -/
theorem C50_no_leak_partial (os : List Op) (v : View) (hr : Run (fun _ => none) os v) (hv : ∀ i, v i = none) :
    ∃ s, State.init.run os = .ok s ∧ ∀ p, s.heap.blocks p = none := by
  obtain ⟨s, h1, h2⟩ := C50_memory_partial os v hr
  refine ⟨s, h1, fun p => ?_⟩
  by_contra hp
  obtain ⟨i, m, hm, -⟩ := h2.noLeak p hp
  have := h2.same i
  rw [hm, hv i] at this
  simp at this

/-- The dimensions of the variables. -/
def dims (s : State) : ℕ → Option (ℕ × ℕ) := fun i => (s.vars i).map fun m => (m.rows, m.cols)

theorem dims_put (s : State) (h : Heap) (i : ℕ) (m : Mat) :
    dims (s.put h i m) = Function.update (dims s) i (some (m.rows, m.cols)) := by
  funext k
  by_cases hk : k = i
  · subst hk; simp [dims, State.put]
  · simp [dims, State.put, hk]

theorem resize_dims {h h' : Heap} {m m' : Mat} {r c : ℕ} (e : resize h m r c = .ok (h', m')) :
    m'.rows = r ∧ m'.cols = c := by
  simp only [resize, bind, Except.bind] at e
  split at e
  · split at e
    · cases e
    · cases e; exact ⟨rfl, rfl⟩
  · cases e; exact ⟨rfl, rfl⟩

theorem conservativeResize_dims {h h' : Heap} {m m' : Mat} {r c : ℕ} (e : conservativeResize h m r c = .ok (h', m')) :
    m'.rows = r ∧ m'.cols = c := by
  simp only [conservativeResize, bind, Except.bind] at e
  split at e
  · split at e
    · cases e
    · split at e
      · cases e
      · cases e; exact ⟨rfl, rfl⟩
  · cases e; exact ⟨rfl, rfl⟩

theorem update_dims_self (s : State) {i : ℕ} {m : Mat} (h : s.vars i = some m) :
    Function.update (dims s) i (some (m.rows, m.cols)) = dims s := by
  funext k
  by_cases hk : k = i
  · subst hk; simp [dims, h]
  · simp [hk]

theorem get_ok {s : State} {i : ℕ} {m : Mat} (e : s.get i = .ok m) : s.vars i = some m := by
  simp only [State.get] at e
  split at e
  · cases e; assumption
  · cases e

theorem step_dims {s s' : State} {o : Op} (e : s.step o = .ok s') : dims s' = shapes (dims s) o := by
  have hget : ∀ {i : ℕ} {m : Mat}, s.vars i = some m → dims s i = some (m.rows, m.cols) := by
    intro i m h; simp [dims, h]
  have hset : ∀ {h : Heap} {i : ℕ} {m : Mat} {d a n}, s.vars i = some m →
      dims (s.put h i ⟨d, m.rows, m.cols, a, n⟩) = dims s := by
    intro h i m d a n hm
    rw [dims_put, update_dims_self s hm]
  cases o with
  | empty i a =>
    simp only [State.step, bind, Except.bind] at e
    split at e
    · cases e
    · cases e; rw [dims_put]; rfl
  | construct i r c a =>
    simp only [State.step, bind, Except.bind] at e
    split at e
    · cases e
    · cases e; rw [dims_put]; rfl
  | copy i j a =>
    simp only [State.step, bind, Except.bind] at e
    split at e
    · cases e
    split at e
    · cases e
    rename_i o ho
    split at e
    · cases e
    cases e
    rw [dims_put, shapes, hget (get_ok ho)]; rfl
  | move i j =>
    simp only [State.step, bind, Except.bind] at e
    split at e
    · cases e
    split at e
    · cases e
    rename_i o ho
    cases e
    rw [dims_put, shapes, hget (get_ok ho), hset (get_ok ho)]
  | moveAlloc i j a =>
    simp only [State.step, bind, Except.bind] at e
    split at e
    · cases e
    split at e
    · cases e
    rename_i o ho
    split at e
    · cases e
      rw [dims_put, shapes, hget (get_ok ho), hset (get_ok ho)]
    · split at e
      · cases e
      rename_i r hr
      split at e
      · cases e
      cases e
      obtain ⟨e₁, e₂⟩ := resize_dims (h' := r.1) (m' := r.2) hr
      rw [dims_put, shapes, hget (get_ok ho), hset (get_ok ho), e₁, e₂]
  | assign i r c =>
    simp only [State.step, bind, Except.bind, assign] at e
    split at e
    · cases e
    split at e
    · cases e
    rename_i q hq
    split at hq
    · cases hq
    rename_i q' hq'
    split at hq
    · cases hq
    cases hq
    cases e
    obtain ⟨e₁, e₂⟩ := resize_dims (h' := q'.1) (m' := q'.2) hq'
    rw [dims_put, shapes, e₁, e₂]
  | copyAssign i j =>
    simp only [State.step, bind, Except.bind] at e
    split at e
    · cases e
    split at e
    · cases e
    rename_i o ho
    split at e
    · cases e
    rename_i q hq
    split at e
    · cases e
    split at e
    · cases e
    cases e
    obtain ⟨e₁, e₂⟩ := resize_dims (h' := q.1) (m' := q.2) hq
    rw [dims_put, shapes, hget (get_ok ho), e₁, e₂]
  | moveAssign i j =>
    simp only [State.step, bind, Except.bind] at e
    split at e
    · cases e
    rename_i m hm
    split at e
    · cases e
    rename_i o ho
    split at e
    · rename_i hij
      cases e
      subst hij
      rw [shapes, Function.update_eq_self]
    · split at e
      · split at e
        · cases e
        cases e
        rw [dims_put, shapes, hget (get_ok ho), hset (get_ok ho)]
      · split at e
        · cases e
        rename_i q hq
        split at e
        · cases e
        split at e
        · cases e
        cases e
        obtain ⟨e₁, e₂⟩ := resize_dims (h' := q.1) (m' := q.2) hq
        rw [dims_put, shapes, hget (get_ok ho), hset (get_ok ho), e₁, e₂]
  | resize i r c =>
    simp only [State.step, bind, Except.bind] at e
    split at e
    · cases e
    split at e
    · cases e
    rename_i q hq
    cases e
    obtain ⟨e₁, e₂⟩ := resize_dims (h' := q.1) (m' := q.2) hq
    rw [dims_put, shapes, e₁, e₂]
  | conservativeResize i r c =>
    simp only [State.step, bind, Except.bind] at e
    split at e
    · cases e
    split at e
    · cases e
    rename_i q hq
    cases e
    obtain ⟨e₁, e₂⟩ := conservativeResize_dims (h' := q.1) (m' := q.2) hq
    rw [dims_put, shapes, e₁, e₂]
  | destroy i =>
    simp only [State.step, bind, Except.bind] at e
    split at e
    · cases e
    split at e
    · cases e
    cases e
    funext k
    by_cases hk : k = i
    · subst hk; simp [dims, shapes]
    · simp [dims, shapes, hk]

/-- **C50, dimensions.**  After any program that meets no error, careful or not, every matrix has the rows and columns
of the last operation on it. -/
theorem C50_shapes (os : List Op) (s : State) (h : State.init.run os = .ok s) :
    dims s = os.foldl shapes (fun _ => none) := by
  have key : ∀ (os : List Op) (s₀ s : State), s₀.run os = .ok s → dims s = os.foldl shapes (dims s₀) := by
    intro os
    induction os with
    | nil => intro s₀ s h; cases h; rfl
    | cons o os ih =>
      intro s₀ s h
      simp only [State.run, bind, Except.bind] at h
      split at h
      · cases h
      · rename_i s₁ h₁
        rw [ih s₁ s h, step_dims h₁]
        rfl
  exact key os _ s h

example : ∃ s, State.init.run [.construct 0 2 3 7, .empty 1 7, .resize 1 3 4, .copyAssign 0 1] = .ok s ∧
    dims s 0 = some (3, 4) := ⟨_, rfl, rfl⟩

/-- Whether a run ends in the given error. -/
def fails (os : List Op) (e : Err) : Bool :=
  match State.init.run os with
  | .error e' => e == e'
  | .ok _ => false

/-- Whether a run ends well with a live block at the address. -/
def leaves (os : List Op) (p : ℕ) (b : ℕ × ℕ) : Bool :=
  match State.init.run os with
  | .error _ => false
  | .ok s => s.heap.blocks p == some b

/-- **C50 is violated by `conservativeResize`.**  Shrinking keeps the block, and the destructor frees it with the new
size; so does a later `resize`. -/
theorem C50_shrink_bad_free :
    fails [.construct 0 4 1 0, .conservativeResize 0 2 1, .destroy 0] .badFree = true ∧
      fails [.construct 0 4 1 0, .conservativeResize 0 2 1, .resize 0 3 1] .badFree = true := ⟨by decide, by decide⟩

/-- **C50 is violated by moves between allocators.**  The argument forgets its memory without freeing it: all matrices
are destroyed, the block of resource 0 remains (move assignment and extended move constructor). -/
theorem C50_leak :
    leaves [.construct 0 4 1 0, .empty 1 1, .moveAssign 1 0, .destroy 0, .destroy 1] 0 (0, 4) = true ∧
      leaves [.construct 0 4 1 0, .moveAlloc 1 0 1, .destroy 0, .destroy 1] 0 (0, 4) = true := ⟨by decide, by decide⟩

/-- **C50 is violated by moves between allocators**, in every state: the extended move constructor with another resource
than that of its argument makes a matrix of the same shape with a block of its own, the argument becomes an empty matrix in
memory (which later operations may use, as after the move constructor), and the block it had stays allocated although no
matrix refers to it. -/
theorem C50_move_across_resources (s : State) (hf : ∀ p, s.heap.blocks p ≠ none → p < s.heap.next) (i j b p : ℕ) (m : Mat)
    (hi : s.vars i = none) (hj : s.vars j = some m) (hb : b ≠ m.alloc) (hp : m.data = some p) (hm : m.size ≠ 0)
    (hown : ∀ k m', s.vars k = some m' → m'.data = some p → k = j) (hl : s.heap.blocks p ≠ none) :
    ∃ s', s.step (.moveAlloc i j b) = .ok s' ∧ s'.vars i = some ⟨some s.heap.next, m.rows, m.cols, b, m.size⟩ ∧
      s'.heap.blocks s.heap.next = some (b, m.size) ∧ Agree ⟨m.alloc, 0, .movedByConstruction⟩ ((s'.vars j).getD m) ∧
      s'.heap.blocks p = s.heap.blocks p ∧ ∀ k m', s'.vars k = some m' → m'.data ≠ some p := by
  have hij : i ≠ j := by rintro rfl; rw [hi] at hj; simp at hj
  have hpn : p ≠ s.heap.next := Nat.ne_of_lt (hf p hl)
  have hsz : ¬ (0 : ℕ) = m.rows * m.cols := fun e => hm e.symm
  have ht : ¬ (m.data = none ∧ m.size ≠ 0) := by simp [hp]
  refine ⟨(s.put (s.heap.allocate b m.size).2 j { m with data := none, allocSize := 0 }).put (s.heap.allocate b m.size).2 i
    ⟨some s.heap.next, m.rows, m.cols, b, m.size⟩, ?_, ?_, ?_, ?_, ?_, fun k m' hk e => ?_⟩
  · have hr : resize s.heap (Mat.empty b) m.rows m.cols =
        .ok ((s.heap.allocate b m.size).2, ⟨some s.heap.next, m.rows, m.cols, b, m.size⟩) := by
      unfold resize
      rw [if_pos (show (Mat.empty b).allocSize ≠ m.rows * m.cols from hsz)]
      rfl
    simp only [State.step, State.absent, hi, State.get, hj, bind, Except.bind, if_neg hb, hr, touch, if_neg ht]
  · simp [State.put]
  · simp [State.put, Heap.allocate]
  · simp only [State.put, update_of_ne hij.symm, update_self, Option.getD_some]
    exact ⟨rfl, rfl, rfl, rfl⟩
  · simp [State.put, Heap.allocate, update_of_ne hpn]
  · simp only [State.put] at hk
    by_cases hki : k = i
    · subst hki
      rw [update_self] at hk
      simp only [Option.some.injEq] at hk
      subst hk
      exact hpn (Option.some.inj e).symm
    · rw [update_of_ne hki] at hk
      by_cases hkj : k = j
      · subst hkj
        rw [update_self] at hk
        simp only [Option.some.injEq] at hk
        subst hk
        simp at e
      · rw [update_of_ne hkj] at hk
        exact hkj (hown k m' hk e)

/-- The hypotheses of `C50_move_across_resources` hold for a matrix with four entries and another resource. -/
example : ∃ s s', State.init.run [.construct 0 4 1 0] = .ok s ∧ s.step (.moveAlloc 1 0 7) = .ok s' ∧
    s'.heap.blocks 0 = some (0, 4) ∧ ∀ k m', s'.vars k = some m' → m'.data ≠ some 0 := by
  obtain ⟨s', e1, -, -, -, e2, e3⟩ := C50_move_across_resources
    ((State.init.put (construct State.init.heap 4 1 0).2 0 (construct State.init.heap 4 1 0).1)) (fun p hp => by
      by_cases h : p = 0
      · subst h; decide
      · simp [State.put, construct, Heap.allocate, State.init, update_of_ne h] at hp) 1 0 7 0 ⟨some 0, 4, 1, 0, 4⟩
    (by simp [State.put, State.init]) (by simp [State.put, construct, Heap.allocate, State.init]) (by decide) rfl (by decide)
    (fun k m' hk e => by
      by_contra h
      simp [State.put, State.init, update_of_ne h] at hk) (by simp [State.put, construct, Heap.allocate, State.init])
  exact ⟨_, s', rfl, e1, e2.trans (by simp [State.put, construct, Heap.allocate, State.init]), e3⟩

/-- **C50 is violated by reusing the argument of a move assignment.**  Its allocated size is not reset: assigning a
matrix of the same size writes through a null pointer. -/
theorem C50_moved_from_reuse :
    fails [.construct 0 2 2 0, .empty 1 0, .moveAssign 1 0, .assign 0 2 2] .nullAccess = true := by decide

/-- **C50 is violated by copying a moved-from matrix.**  Its dimensions are kept: the copy reads through a null
pointer. -/
theorem C50_copy_of_moved_from :
    fails [.construct 0 2 2 0, .move 1 0, .copy 2 0 0] .nullAccess = true := by decide

/-- Hypotheses of `C50_no_leak_partial`: a program with every kind of operation. -/
example : ∃ s, State.init.run [.construct 0 2 3 7, .empty 1 7, .copyAssign 1 0, .moveAssign 1 0, .move 2 1,
    .conservativeResize 2 3 3, .assign 1 1 1, .destroy 0, .destroy 1, .destroy 2] = .ok s ∧
    ∀ p, s.heap.blocks p = none := by
  refine C50_no_leak_partial _ _ (.cons _ _ _ _ _ (.construct _ 0 2 3 7 rfl)
    (.cons _ _ _ _ _ (.empty _ 1 7 rfl)
    (.cons _ _ _ _ _ (.copyAssign _ 1 0 7 0 .usable 7 6 rfl (by decide) rfl)
    (.cons _ _ _ _ _ (.moveAssign _ 1 0 7 6 .usable 6 (by decide) rfl rfl)
    (.cons _ _ _ _ _ (.move _ 2 1 7 6 rfl rfl)
    (.cons _ _ _ _ _ (.conservativeResize _ 2 3 3 7 6 .usable rfl (by decide) (by decide))
    (.cons _ _ _ _ _ (.assign _ 1 1 1 7 0 .movedByConstruction rfl (by decide))
    (.cons _ _ _ _ _ (.destroy _ 0 _ rfl)
    (.cons _ _ _ _ _ (.destroy _ 1 _ rfl)
    (.cons _ _ _ _ _ (.destroy _ 2 _ rfl) (.nil _))))))))))) fun i => ?_
  match i with
  | 0 => rfl
  | 1 => rfl
  | 2 => rfl
  | i + 3 => rfl

end Aligator.Arena
