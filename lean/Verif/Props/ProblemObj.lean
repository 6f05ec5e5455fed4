import Verif.Spec.ProblemObj

/-!
# Properties of the problem object (C81)
-/

namespace Aligator.PObj

open Spec

variable {K : Type}

/-- The cell of the initial state. -/
def Prob.addr (p : Prob K) : Option ℕ :=
  match p.init with
  | some (.stateError _ _ a) => some a
  | _ => none

/-- A problem object shows a problem. -/
def Shows (w : World K) (p : Prob K) (s : SProb K) : Prop :=
  p.stages = s.stages.map some ∧ p.term = some s.term ∧ p.cstrs = s.cstrs ∧ p.unone = s.term.nu ∧
    match s.init with
    | .state sp nu x0 => p.cached = true ∧ ∃ a, p.init = some (.stateError sp nu a) ∧ w.cell a = some x0
    | .other a b => p.cached = false ∧ p.init = some (.other a b)

/-- A name shows what it stands for. -/
def ObjRel (w : World K) (o : Option (Prob K)) : SObj K → Prop
  | .absent => o = none
  | .moved => ∃ p, o = some p ∧ p.init = none
  | .live s => ∃ p, o = some p ∧ Shows w p s

/-- The world shows the values; no cell is shared. -/
structure Rel (w : World K) (σ : ℕ → SObj K) : Prop where
  obj : ∀ n, ObjRel w (w.obj n) (σ n)
  lt : ∀ n p a, w.obj n = some p → p.addr = some a → a < w.next
  sep : ∀ n m p q a, w.obj n = some p → w.obj m = some q → p.addr = some a → q.addr = some a → n = m

theorem Shows.cells {w w' : World K} {p : Prob K} {s : SProb K} (h : Shows w p s)
    (hc : ∀ a, p.addr = some a → w'.cell a = w.cell a) : Shows w' p s := by
  obtain ⟨h1, h2, h3, h4, h5⟩ := h
  refine ⟨h1, h2, h3, h4, ?_⟩
  cases hi : s.init with
  | other a b => simpa [hi] using h5
  | state sp nu x0 =>
    rw [hi] at h5
    obtain ⟨c, a, ha, hx⟩ := h5
    refine ⟨c, a, ha, ?_⟩
    rw [hc a (by simp [Prob.addr, ha]), hx]

theorem ObjRel.cells {w w' : World K} {o : Option (Prob K)} {so : SObj K} (h : ObjRel w o so)
    (hc : ∀ p a, o = some p → p.addr = some a → w'.cell a = w.cell a) : ObjRel w' o so := by
  cases so with
  | absent => exact h
  | moved => exact h
  | live s =>
    obtain ⟨p, hp, hs⟩ := h
    exact ⟨p, hp, hs.cells fun a ha => hc p a hp ha⟩

theorem Rel.update {w : World K} {σ : ℕ → SObj K} (h : Rel w σ) (n : ℕ) (o : Option (Prob K)) (so : SObj K) (w' : World K)
    (hobj : w'.obj = Function.update w.obj n o) (hnext : w.next ≤ w'.next)
    (hcell : ∀ m p a, m ≠ n → w.obj m = some p → p.addr = some a → w'.cell a = w.cell a) (hnew : ObjRel w' o so)
    (hlt : ∀ p a, o = some p → p.addr = some a → a < w'.next ∧ ∀ m q, m ≠ n → w.obj m = some q → q.addr ≠ some a) :
    Rel w' (Function.update σ n so) := by
  refine ⟨fun m => ?_, fun m p a hm ha => ?_, fun m k p q a hm hk hp hq => ?_⟩
  · rw [hobj]
    by_cases hmn : m = n
    · subst hmn; simpa using hnew
    · rw [Function.update_of_ne hmn, Function.update_of_ne hmn]
      exact (h.obj m).cells fun p a hp ha => hcell m p a hmn hp ha
  · rw [hobj] at hm
    by_cases hmn : m = n
    · subst hmn; rw [Function.update_self] at hm; exact (hlt p a hm ha).1
    · rw [Function.update_of_ne hmn] at hm; exact (h.lt m p a hm ha).trans_le hnext
  · rw [hobj] at hm hk
    by_cases hmn : m = n <;> by_cases hkn : k = n
    · rw [hmn, hkn]
    · subst hmn
      rw [Function.update_self] at hm
      rw [Function.update_of_ne hkn] at hk
      exact absurd hq ((hlt p a hm hp).2 k q hkn hk)
    · subst hkn
      rw [Function.update_self] at hk
      rw [Function.update_of_ne hmn] at hm
      exact absurd hp ((hlt q a hk hq).2 m p hmn hm)
    · rw [Function.update_of_ne hmn] at hm
      rw [Function.update_of_ne hkn] at hk
      exact h.sep m k p q a hm hk hp hq

/-- A change of an object that keeps its initial condition and the heap. -/
theorem Rel.keep {w : World K} {σ : ℕ → SObj K} (h : Rel w σ) (n : ℕ) (p p' : Prob K) (s' : SProb K)
    (hp : w.obj n = some p) (hi : p'.init = p.init) (hs : Shows w p' s') :
    Rel (w.put n (some p')) (Function.update σ n (.live s')) := by
  have ha : p'.addr = p.addr := by unfold Prob.addr; rw [hi]
  refine h.update n (some p') (.live s') _ rfl le_rfl (fun _ _ _ _ _ _ => rfl) ⟨p', rfl, hs.cells fun _ _ => rfl⟩ ?_
  intro q a hq hqa
  cases hq
  rw [ha] at hqa
  exact ⟨h.lt n p a hp hqa, fun m q hm hq hqa' => hm (h.sep m n q p a hq hp hqa' hqa)⟩

/-- A new object, possibly in place of an old one, whose initial state is in the next cell, if it has one. -/
theorem Rel.fresh {w : World K} {σ : ℕ → SObj K} (h : Rel w σ) (n : ℕ) (p : Prob K) (s : SProb K) (w' : World K)
    (hobj : w'.obj = Function.update w.obj n (some p)) (hnext : w.next ≤ w'.next) (hs : Shows w' p s)
    (hcell : ∀ m q a, m ≠ n → w.obj m = some q → q.addr = some a → w'.cell a = w.cell a)
    (ha : ∀ a, p.addr = some a → a = w.next ∧ w.next < w'.next) : Rel w' (Function.update σ n (.live s)) := by
  refine h.update n (some p) (.live s) w' hobj hnext hcell ⟨p, rfl, hs⟩ ?_
  intro q a hq hqa
  cases hq
  obtain ⟨rfl, h2⟩ := ha a hqa
  exact ⟨h2, fun m q _ hq hqa' => absurd (h.lt m q _ hq hqa') (lt_irrefl _)⟩

/-- What is returned shows the result. -/
def RetShows (w : World K) : Ret K → SRet K → Prop
  | .unit, .unit => True
  | .view v, .state x => v.read w = some x
  | .flag b, .flag p => b = true ↔ p
  | .stage s, .stage a => s = some a
  | _, _ => False

theorem chainOk_iff (t : TermCost) (s : Stage K) (r : List (Stage K)) :
    ∃ b, chainOk (some t) s (r.map some) = some b ∧ (b = true ↔ ∀ k a, (s :: r)[k]? = some a →
      (∀ c, (s :: r)[k + 1]? = some c → a.next.nx = c.xspace.nx ∧ a.next.ndx = c.xspace.ndx) ∧
      (k + 1 = (s :: r).length → a.next.nx = t.nx ∧ a.next.ndx = t.ndx)) := by
  induction r generalizing s with
  | nil =>
    refine ⟨_, rfl, ?_⟩
    constructor
    · intro h k a hk
      cases k with
      | zero =>
        cases hk
        refine ⟨fun c hc => by simp at hc, fun _ => by simpa using h⟩
      | succ k => simp at hk
    · intro h
      simpa using (h 0 s rfl).2 rfl
  | cons s' r ih =>
    obtain ⟨b, hb, hiff⟩ := ih s'
    refine ⟨_, by rw [List.map_cons, chainOk, hb]; rfl, ?_⟩
    rw [Bool.and_eq_true, hiff]
    constructor
    · rintro ⟨h0, h⟩ k a hk
      cases k with
      | zero =>
        cases hk
        refine ⟨fun c hc => ?_, fun hk => by simp at hk⟩
        have hc : s' = c := by simpa using hc
        subst hc
        simpa using h0
      | succ k =>
        obtain ⟨h1, h2⟩ := h k a (by simpa using hk)
        exact ⟨fun c hc => h1 c (by simpa using hc), fun hk => h2 (by simpa using hk)⟩
    · intro h
      refine ⟨by simpa using (h 0 s rfl).1 s' rfl, fun k a hk => ?_⟩
      obtain ⟨h1, h2⟩ := h (k + 1) a (by simpa using hk)
      exact ⟨fun c hc => h1 c (by simpa using hc), fun hk => h2 (by simpa using hk)⟩

theorem integrity_spec {w : World K} {p : Prob K} {s : SProb K} (h : Shows w p s) :
    ∃ b, p.integrity = some b ∧ (b = true ↔ Consistent s) := by
  obtain ⟨h1, h2, -, -, h5⟩ := h
  obtain ⟨i, hi, hn, hc⟩ : ∃ i, p.init = some i ∧ i.ndx1 = s.init.ndx1 ∧ p.cached = checkInit p.init := by
    cases hs : s.init with
    | state sp nu x0 =>
      rw [hs] at h5
      obtain ⟨c, a, ha, -⟩ := h5
      exact ⟨_, ha, rfl, by rw [ha, c]; rfl⟩
    | other a b =>
      rw [hs] at h5
      exact ⟨_, h5.2, rfl, by rw [h5.1, h5.2]; rfl⟩
  unfold Prob.integrity
  rw [if_neg (by simp [hc]), h1, hi, h2]
  cases hst : s.stages with
  | nil => exact ⟨true, rfl, by simp [Consistent, hst]⟩
  | cons a r =>
    obtain ⟨b, hb, hiff⟩ := chainOk_iff s.term a r
    simp only [List.map_cons]
    rw [hb]
    refine ⟨_, rfl, ?_⟩
    rw [Bool.and_eq_true, hiff]
    unfold Consistent
    rw [hst, beq_iff_eq, hn]
    constructor
    · rintro ⟨h0, h⟩ k c hk
      refine ⟨fun hk0 => ?_, (h k c hk).1, (h k c hk).2⟩
      subst hk0
      cases hk
      exact h0
    · intro h
      exact ⟨(h 0 a rfl).1 rfl, fun k c hk => (h k c hk).2⟩

theorem freeInit_obj (i : Option (Init K)) (w : World K) : (freeInit i w).obj = w.obj ∧ (freeInit i w).next = w.next := by
  unfold freeInit
  split <;> exact ⟨rfl, rfl⟩

theorem freeInit_cell (p : Prob K) (w : World K) (a : ℕ) (h : p.addr ≠ some a) : (freeInit p.init w).cell a = w.cell a := by
  unfold freeInit
  unfold Prob.addr at h
  split at h
  · rename_i hi
    rw [hi]
    exact Function.update_of_ne (fun e => h (by rw [e])) _ _
  · rename_i hi
    split
    · rename_i hi'; exact absurd hi' (hi _ _ _)
    · rfl

theorem Rel.live {w : World K} {σ : ℕ → SObj K} (h : Rel w σ) {n : ℕ} {s : SProb K} (hn : σ n = .live s) :
    ∃ p, w.obj n = some p ∧ Shows w p s := by
  have := h.obj n
  rw [hn] at this
  exact this

theorem Rel.absent {w : World K} {σ : ℕ → SObj K} (h : Rel w σ) {n : ℕ} (hn : σ n = .absent) : w.obj n = none := by
  have := h.obj n
  rw [hn] at this
  exact this

theorem Rel.present {w : World K} {σ : ℕ → SObj K} (h : Rel w σ) {n : ℕ} (hn : σ n ≠ .absent) : ∃ p, w.obj n = some p := by
  have := h.obj n
  cases hs : σ n with
  | absent => exact absurd hs hn
  | moved => rw [hs] at this; exact ⟨_, this.choose_spec.1⟩
  | live s => rw [hs] at this; exact ⟨_, this.choose_spec.1⟩

/-- Copying an initial condition. -/
theorem copyInit_spec {w : World K} {p : Prob K} {s : SProb K} (hs : Shows w p s) (hlt : ∀ a, p.addr = some a → a < w.next) :
    ∃ i w1, copyInit p.init w = some (i, w1) ∧ w1.obj = w.obj ∧ w.next ≤ w1.next ∧ (∀ a, a < w.next → w1.cell a = w.cell a) ∧
      (∀ a, ({ p with init := i } : Prob K).addr = some a → a = w.next ∧ w.next < w1.next) ∧ Shows w1 { p with init := i } s := by
  obtain ⟨h1, h2, h3, h4, h5⟩ := hs
  cases hi : s.init with
  | state sp nu x0 =>
    rw [hi] at h5
    obtain ⟨c, a, ha, hx⟩ := h5
    refine ⟨some (.stateError sp nu w.next), w.alloc x0, ?_, rfl, Nat.le_succ _, fun b hb => ?_, fun b hb => ?_,
      h1, h2, h3, h4, ?_⟩
    · unfold copyInit; rw [ha]; simp only [hx]; rfl
    · exact Function.update_of_ne (by omega) _ _
    · cases hb; exact ⟨rfl, Nat.lt_succ_self _⟩
    · rw [hi]; exact ⟨c, _, rfl, by simp [World.alloc]⟩
  | other a b =>
    rw [hi] at h5
    refine ⟨some (.other a b), w, ?_, rfl, le_rfl, fun _ _ => rfl, (fun b hb => nomatch hb), h1, h2, h3, h4, ?_⟩
    · unfold copyInit; rw [h5.2]
    · rw [hi]; exact ⟨h5.1, rfl⟩

/-- Placing an initial condition. -/
theorem create_spec {w : World K} {σ : ℕ → SObj K} (h : Rel w σ) {n : ℕ} (hn : σ n = .absent) (a : InitArg K) (i : SInit K)
    (ha : (∃ sp nu x0, a = .stateError sp nu x0 ∧ i = .state sp nu x0) ∨ ∃ k r, a = .other k r ∧ i = .other k r)
    (vs : List (Stage K)) (t : TermCost) :
    ∃ w', create n a (vs.map some) (some t) w = .ok w' .unit ∧ Rel w' (Function.update σ n (.live ⟨i, vs, t, []⟩)) := by
  unfold create
  rw [h.absent hn]
  rcases ha with ⟨sp, nu, x0, rfl, rfl⟩ | ⟨k, r, rfl, rfl⟩
  · refine ⟨_, rfl, h.fresh n _ _ _ rfl (Nat.le_succ _) ⟨rfl, rfl, rfl, rfl, rfl, _, rfl, ?_⟩ (fun m q a _ hq hqa => ?_)
      (fun a ha => ?_)⟩
    · simp [World.put, World.alloc]
    · exact Function.update_of_ne (by have := h.lt m q a hq hqa; omega) _ _
    · cases ha; exact ⟨rfl, Nat.lt_succ_self _⟩
  · exact ⟨_, rfl, h.fresh n _ _ _ rfl le_rfl ⟨rfl, rfl, rfl, rfl, rfl, rfl⟩ (fun _ _ _ _ _ _ => rfl) (fun a ha => by cases ha)⟩

theorem isStateError_spec (dbg : Bool) {p : Prob K} (h : p.cached = checkInit p.init) :
    p.isStateError dbg = some (checkInit p.init) := by
  unfold Prob.isStateError
  rw [h]
  simp

/-- One operation does to the objects what it does to the values. -/
theorem step_refines (dbg : Bool) {w : World K} {σ σ' : ℕ → SObj K} {o : Op K} {r : SRet K} (h : Rel w σ) (hs : SStep σ o σ' r) :
    (∃ w' r', step dbg w o = .ok w' r' ∧ Rel w' σ' ∧ RetShows w' r' r) ∨
      (∃ w', step dbg w o = .throws w' ∧ Rel w' σ' ∧ r = .throws) := by
  cases hs with
  | @create n sp nu x0 vs t hn =>
    obtain ⟨w', h1, h2⟩ := create_spec h hn (.stateError sp nu x0) _ (.inl ⟨_, _, _, rfl, rfl⟩) vs t
    exact .inl ⟨w', _, h1, h2, trivial⟩
  | @createOther n a b vs t hn =>
    obtain ⟨w', h1, h2⟩ := create_spec h hn (.other a b) _ (.inr ⟨_, _, rfl, rfl⟩) vs t
    exact .inl ⟨w', _, h1, h2, trivial⟩
  | @createAt n x0 s vs t hn hx =>
    obtain ⟨w', h1, h2⟩ := create_spec h hn (.stateError s.xspace s.nu x0) _ (.inl ⟨_, _, _, rfl, rfl⟩) (s :: vs) t
    refine .inl ⟨w', .unit, ?_, h2, trivial⟩
    show createStateError n s.xspace s.nu x0 _ _ w = _
    rw [createStateError, if_pos hx]
    exact h1
  | @createAtBad n x0 s vs t hn hx =>
    refine .inr ⟨w, ?_, h, rfl⟩
    show createStateError n s.xspace s.nu x0 _ _ w = _
    rw [createStateError, if_neg (by simp [hx])]
  | @createSpace n x0 nu sp t hn hx =>
    obtain ⟨w', h1, h2⟩ := create_spec h hn (.stateError sp nu x0) _ (.inl ⟨_, _, _, rfl, rfl⟩) [] t
    refine .inl ⟨w', .unit, ?_, h2, trivial⟩
    show createStateError n sp nu x0 _ _ w = _
    rw [createStateError, if_pos hx]
    exact h1
  | @createSpaceBad n x0 nu sp t hn hx =>
    refine .inr ⟨w, ?_, h, rfl⟩
    show createStateError n sp nu x0 _ _ w = _
    rw [createStateError, if_neg (by simp [hx])]
  | @copy n m s hn hm =>
    obtain ⟨p, hp, hps⟩ := h.live hn
    obtain ⟨i, w1, e, e1, e2, e3, e4, e5⟩ := copyInit_spec hps fun a ha => h.lt n p a hp ha
    refine .inl ⟨w1.put m (some { p with init := i }), .unit, ?_, ?_, trivial⟩
    · simp only [step, hp, h.absent hm, e]
    · refine h.fresh m _ _ _ (by rw [← e1]; rfl) e2 (e5.cells fun _ _ => rfl) (fun k q a _ hq hqa => ?_) e4
      exact e3 a (h.lt k q a hq hqa)
  | @assign n m s hn hm =>
    obtain ⟨p, hp, hps⟩ := h.live hn
    obtain ⟨q, hq⟩ := h.present hm
    by_cases hnm : n = m
    · subst hnm
      refine .inl ⟨w, .unit, ?_, ?_, trivial⟩
      · simp only [step, hp, if_true]
      · rw [← hn, Function.update_eq_self]; exact h
    · obtain ⟨i, w1, e, e1, e2, e3, e4, e5⟩ := copyInit_spec hps fun a ha => h.lt n p a hp ha
      obtain ⟨f1, f2⟩ := freeInit_obj q.init w1
      have hc (a : ℕ) (ha : a < w.next ∨ a = w.next) (hqa : q.addr ≠ some a) :
          ((freeInit q.init w1).put m (some { p with init := i })).cell a = w1.cell a := freeInit_cell q w1 a hqa
      refine .inl ⟨(freeInit q.init w1).put m (some { p with init := i }), .unit, ?_, ?_, trivial⟩
      · simp only [step, hp, hq, if_neg hnm, e]
      · refine h.fresh m _ _ _ (by rw [← e1, ← f1]; rfl) (by show _ ≤ (freeInit q.init w1).next; rw [f2]; exact e2)
          (e5.cells fun a ha => ?_) (fun k q' a hk hq' hqa => ?_) (fun a ha => ?_)
        · have := (e4 a ha).1
          refine hc a (.inr this) fun hqa => ?_
          have := h.lt m q a hq hqa
          omega
        · have hlt := h.lt k q' a hq' hqa
          rw [hc a (.inl hlt) fun hqa' => hk (h.sep k m q' q a hq' hq hqa hqa'), e3 a hlt]
        · have := e4 a ha
          refine ⟨this.1, ?_⟩
          show _ < (freeInit q.init w1).next
          rw [f2]; exact this.2
  | @move n m s hn hm =>
    obtain ⟨p, hp, hps⟩ := h.live hn
    have hmo := h.absent hm
    have hnm : n ≠ m := by rintro rfl; rw [hp] at hmo; cases hmo
    refine .inl ⟨(w.put m (some p)).put n (some p.moved), .unit, ?_, ?_, trivial⟩
    · simp only [step, hp, hmo]
    · have h1 : Rel (w.put n (some p.moved)) (Function.update σ n .moved) :=
        h.update n (some p.moved) .moved _ rfl le_rfl (fun _ _ _ _ _ _ => rfl) ⟨_, rfl, rfl⟩
          (fun q a hq hqa => by cases hq; cases hqa)
      refine h1.update m (some p) (.live s) _ ?_ le_rfl (fun _ _ _ _ _ _ => rfl) ⟨p, rfl, hps.cells fun _ _ => rfl⟩ ?_
      · show Function.update (Function.update w.obj m _) n _ = Function.update (Function.update w.obj n _) m _
        exact Function.update_comm hnm.symm _ _ _
      · intro q a hq hqa
        cases hq
        refine ⟨h.lt n p a hp hqa, fun k q hk hq hqa' => ?_⟩
        by_cases hkn : k = n
        · subst hkn
          have : q = p.moved := by simpa [World.put] using hq.symm
          subst this
          cases hqa'
        · have hq : w.obj k = some q := by simpa [World.put, Function.update_of_ne hkn] using hq
          exact hkn (h.sep k n q p a hq hp hqa' hqa)
  | @destroy n hn =>
    obtain ⟨p, hp⟩ := h.present hn
    obtain ⟨f1, f2⟩ := freeInit_obj p.init w
    refine .inl ⟨(freeInit p.init w).put n none, .unit, ?_, ?_, trivial⟩
    · simp only [step, hp]
    · refine h.update n none .absent _ (by rw [← f1]; rfl) (by show _ ≤ (freeInit p.init w).next; rw [f2])
        (fun m q a hm hq hqa => ?_) rfl (fun q a hq => by cases hq)
      exact freeInit_cell p w a fun hpa => hm (h.sep m n q p a hq hp hqa hpa)
  | @setInit n s sp nu x0 x hn hi =>
    obtain ⟨p, hp, h1, h2, h3, h4, h5⟩ := h.live hn
    rw [hi] at h5
    obtain ⟨c, a, ha, hx⟩ := h5
    have hpa : p.addr = some a := by simp [Prob.addr, ha]
    have he : p.isStateError dbg = some true := by
      rw [isStateError_spec dbg (by rw [c, ha]; rfl), ha]; rfl
    by_cases hl : x0.length = x.length
    · refine .inl ⟨{ w with cell := Function.update w.cell a (some x) }, .unit, ?_, ?_, trivial⟩
      · simp only [step, setInit, hp, he, ha, hx, if_pos hl]
      · refine h.update n (some p) (.live { s with init := .state sp nu x }) _ ?_ le_rfl (fun m q b hm hq hqb => ?_)
          ⟨p, rfl, h1, h2, h3, h4, c, a, ha, by simp⟩ (fun q b hq hqb => ?_)
        · rw [← hp]; exact (Function.update_eq_self _ _).symm
        · refine Function.update_of_ne (fun e => ?_) _ _
          subst e
          exact hm (h.sep m n q p b hq hp hqb hpa)
        · cases hq
          exact ⟨h.lt n p b hp hqb, fun m q hm hq hqb' => hm (h.sep m n q p b hq hp hqb' hqb)⟩
    · refine .inl ⟨((w.free a).alloc x).put n (some { p with init := some (.stateError sp nu (w.free a).next) }), .unit, ?_, ?_,
        trivial⟩
      · simp only [step, setInit, hp, he, ha, hx, if_neg hl]
      · refine h.fresh n _ _ _ rfl (Nat.le_succ _) ⟨h1, h2, h3, h4, c, _, rfl, ?_⟩ (fun m q b hm hq hqb => ?_) (fun b hb => ?_)
        · simp [World.put, World.alloc]
        · have hb := h.lt m q b hq hqb
          have hba : b ≠ a := by rintro rfl; exact hm (h.sep m n q p b hq hp hqb hpa)
          show Function.update (Function.update w.cell a none) w.next (some x) b = _
          rw [Function.update_of_ne (by omega), Function.update_of_ne hba]
        · cases hb; exact ⟨rfl, Nat.lt_succ_self _⟩
  | @setInitBad n s a b x hn hi =>
    obtain ⟨p, hp, h1, h2, h3, h4, h5⟩ := h.live hn
    rw [hi] at h5
    have he : p.isStateError dbg = some false := by
      rw [isStateError_spec dbg (by rw [h5.1, h5.2]; rfl), h5.2]; rfl
    exact .inr ⟨w, by simp only [step, setInit, hp, he], h, rfl⟩
  | @getInit n s sp nu x0 hn hi =>
    obtain ⟨p, hp, h1, h2, h3, h4, h5⟩ := h.live hn
    rw [hi] at h5
    obtain ⟨c, a, ha, hx⟩ := h5
    have he : p.isStateError dbg = some true := by
      rw [isStateError_spec dbg (by rw [c, ha]; rfl), ha]; rfl
    refine .inl ⟨w, .view ⟨a, x0.length⟩, by simp only [step, getInit, hp, he, ha, hx], h, ?_⟩
    simp [RetShows, View.read, hx]
  | @getInitBad n s a b hn hi =>
    obtain ⟨p, hp, h1, h2, h3, h4, h5⟩ := h.live hn
    rw [hi] at h5
    have he : p.isStateError dbg = some false := by
      rw [isStateError_spec dbg (by rw [h5.1, h5.2]; rfl), h5.2]; rfl
    exact .inr ⟨w, by simp only [step, getInit, hp, he], h, rfl⟩
  | @setInitConstraint n s sp nu x0 sp' nu' x hn hi =>
    obtain ⟨p, hp, h1, h2, h3, h4, h5⟩ := h.live hn
    rw [hi] at h5
    obtain ⟨c, a, ha, hx⟩ := h5
    have hpa : p.addr = some a := by simp [Prob.addr, ha]
    refine .inl ⟨_, .unit, by simp only [step, hp]; rfl, ?_, trivial⟩
    obtain ⟨f1, f2⟩ := freeInit_obj p.init (w.alloc x)
    refine h.fresh n { p with init := some (.stateError sp' nu' w.next) } { s with init := .state sp' nu' x } _
      (by rw [show w.obj = (w.alloc x).obj from rfl, ← f1]; rfl)
      (by show _ ≤ (freeInit p.init (w.alloc x)).next; rw [f2]; exact Nat.le_succ _) ⟨h1, h2, h3, h4, c, _, rfl, ?_⟩
      (fun m q b hm hq hqb => ?_) (fun b hb => ?_)
    · have := freeInit_cell p (w.alloc x) w.next (by
        rw [hpa]; intro e; have := h.lt n p a hp hpa; simp at e; omega)
      show (freeInit p.init (w.alloc x)).cell w.next = _
      rw [this]; simp [World.alloc]
    · have hb := h.lt m q b hq hqb
      have := freeInit_cell p (w.alloc x) b fun e => hm (h.sep m n q p b hq hp hqb e)
      show (freeInit p.init (w.alloc x)).cell b = _
      rw [this]
      exact Function.update_of_ne (by omega) _ _
    · cases hb
      refine ⟨rfl, ?_⟩
      show _ < (freeInit p.init (w.alloc x)).next
      rw [f2]; exact Nat.lt_succ_self _
  | @setInitConstraintOther n s a b a' b' hn hi =>
    obtain ⟨p, hp, h1, h2, h3, h4, h5⟩ := h.live hn
    rw [hi] at h5
    refine .inl ⟨w.put n (some { p with init := some (.other a' b') }), .unit, ?_, ?_, trivial⟩
    · simp only [step, hp, h5.2]; rfl
    · exact h.fresh n _ { s with init := .other a' b' } _ rfl le_rfl ⟨h1, h2, h3, h4, h5.1, rfl⟩ (fun _ _ _ _ _ _ => rfl)
        (fun b hb => by cases hb)
  | @setTermCost n s t hn ht =>
    obtain ⟨p, hp, h1, h2, h3, h4, h5⟩ := h.live hn
    exact .inl ⟨w.put n (some { p with term := some t }), .unit, by simp only [step, hp], h.keep n p _ { s with term := t } hp rfl ⟨h1, rfl, h3, h4.trans ht.symm, h5⟩, trivial⟩
  | @addStage n s v hn =>
    obtain ⟨p, hp, h1, h2, h3, h4, h5⟩ := h.live hn
    exact .inl ⟨w.put n (some { p with stages := p.stages ++ [some v] }), .unit, by simp only [step, hp], h.keep n p _ { s with stages := s.stages ++ [v] } hp rfl ⟨by simp [h1], h2, h3, h4, h5⟩, trivial⟩
  | @replaceStage n s v a r hn hr =>
    obtain ⟨p, hp, h1, h2, h3, h4, h5⟩ := h.live hn
    have e : Cycle.replaceStageCircular p.stages (some v) = some (r.map some, some a) := by
      have e1 : p.stages ++ [some v] = some a :: r.map some := by
        rw [h1, ← List.map_singleton, ← List.map_append, hr]; rfl
      unfold Cycle.replaceStageCircular Cycle.rotateLeft
      rw [e1]
      have t : (r.map some).take r.length = r.map some := List.take_of_length_le (by simp)
      have d : (r.map some).drop r.length = [] := List.drop_of_length_le (by simp)
      simp [t, d]
    exact .inl ⟨w.put n (some { p with stages := r.map some }), .stage (some a), by simp only [step, hp, e], h.keep n p _ { s with stages := r } hp rfl ⟨rfl, h2, h3, h4, h5⟩, rfl⟩
  | @addTermConstraint n s f hn =>
    obtain ⟨p, hp, h1, h2, h3, h4, h5⟩ := h.live hn
    exact .inl ⟨w.put n (some { p with cstrs := p.cstrs ++ [f] }), .unit, by simp only [step, hp], h.keep n p _ { s with cstrs := s.cstrs ++ [f] } hp rfl ⟨h1, h2, by simp [h3], h4, h5⟩, trivial⟩
  | @removeTermConstraints n s hn =>
    obtain ⟨p, hp, h1, h2, h3, h4, h5⟩ := h.live hn
    exact .inl ⟨w.put n (some { p with cstrs := [] }), .unit, by simp only [step, hp], h.keep n p _ { s with cstrs := [] } hp rfl ⟨h1, h2, rfl, h4, h5⟩, trivial⟩
  | @integrity n s hn =>
    obtain ⟨p, hp, hs⟩ := h.live hn
    obtain ⟨b, hb, hiff⟩ := integrity_spec hs
    exact .inl ⟨w, .flag b, by simp only [step, hp, hb], h, hiff⟩
  | @termSizes n s hn =>
    obtain ⟨p, hp, h1, h2, h3, h4, h5⟩ := h.live hn
    refine .inl ⟨w, _, by simp only [step, hp, h2]; rfl, h, ?_⟩
    simp [RetShows, h3, h4]

/-- What each operation returned shows the results. -/
inductive LogShows : List (Option (World K × Ret K)) → List (SRet K) → Prop
  | nil : LogShows [] []
  | ok {w r r' l l'} : RetShows w r r' → LogShows l l' → LogShows (some (w, r) :: l) (r' :: l')
  | throws {l l'} : LogShows l l' → LogShows (none :: l) (.throws :: l')

/-- A program as `runOps`, with the worlds in which the results were returned. -/
def trace (dbg : Bool) : World K → List (Op K) → Option (World K × List (Option (World K × Ret K)))
  | w, [] => some (w, [])
  | w, o :: os => match step dbg w o with
    | .ok w r => (trace dbg w os).map fun q => (q.1, some (w, r) :: q.2)
    | .throws w => (trace dbg w os).map fun q => (q.1, none :: q.2)
    | _ => none

theorem trace_runOps (dbg : Bool) (w : World K) (os : List (Op K)) :
    runOps dbg w os = (trace dbg w os).map fun q => (q.1, q.2.map (Option.map Prod.snd)) := by
  induction os generalizing w with
  | nil => rfl
  | cons o os ih =>
    unfold runOps trace
    cases step dbg w o <;> simp [ih, Function.comp_def]

theorem trace_refines (dbg : Bool) {os : List (Op K)} {σ0 σ : ℕ → SObj K} {rs : List (SRet K)} (h : SRun σ0 os σ rs)
    {w0 : World K} (hr : Rel w0 σ0) : ∃ w l, trace dbg w0 os = some (w, l) ∧ Rel w σ ∧ LogShows l rs := by
  induction h generalizing w0 with
  | nil => exact ⟨w0, [], rfl, hr, .nil⟩
  | cons h1 _ ih =>
    rcases step_refines dbg hr h1 with ⟨w1, r1, e, hr1, hret⟩ | ⟨w1, e, hr1, rfl⟩
    · obtain ⟨w, l, h2, h3, h4⟩ := ih hr1
      exact ⟨w, _, by rw [trace, e]; simp only [h2]; rfl, h3, .ok hret h4⟩
    · obtain ⟨w, l, h2, h3, h4⟩ := ih hr1
      exact ⟨w, _, by rw [trace, e]; simp only [h2]; rfl, h3, .throws h4⟩

theorem rel_empty : Rel (World.empty : World K) fun _ => .absent where
  obj _ := rfl
  lt _ _ _ h := nomatch h
  sep _ _ _ _ _ h := nomatch h

/-- **C81**  Problems are values: a program of constructions, copies, assignments, moves, changes of the initial state, the
stages, the terminal cost and the terminal constraints, as long as it stays within the rules of `SStep`, is defined, in
debug and in release builds, and every operation returns, and throws, what it would on values.  In particular the initial
state read is the one last set on that very object, whatever was done to it or to others in between. -/
theorem C81_problems_are_values (dbg : Bool) (os : List (Op K)) {σ : ℕ → SObj K} {rs : List (SRet K)}
    (h : SRun (fun _ => .absent) os σ rs) :
    ∃ w l, trace dbg World.empty os = some (w, l) ∧ Rel w σ ∧ LogShows l rs := trace_refines dbg h rel_empty

/-! ### References to the initial state -/

theorem put_addr {w w1 : World K} {n m a : ℕ} {p : Prob K} {q : Option (Prob K)} (hn : w.obj n = some p) (ha : p.addr = some a)
    (h1 : w1.obj = w.obj) (hm : m = n → ∃ p', q = some p' ∧ p'.init = p.init) :
    ∃ p', (w1.put m q).obj n = some p' ∧ p'.addr = some a := by
  by_cases h : m = n
  · obtain ⟨p', rfl, hi⟩ := hm h
    subst h
    refine ⟨p', by simp [World.put], ?_⟩
    unfold Prob.addr at ha ⊢
    rw [hi]; exact ha
  · refine ⟨p, ?_, ha⟩
    show Function.update w1.obj m q n = _
    rw [Function.update_of_ne (Ne.symm h), h1, hn]

theorem create_addr {w w' : World K} {n m a : ℕ} {p : Prob K} (hn : w.obj n = some p) (ha : p.addr = some a) (hm : m ≠ n)
    {i : InitArg K} {st : List (Option (Stage K))} {t : Option TermCost} {r : Ret K} (h : create m i st t w = .ok w' r) :
    ∃ p', w'.obj n = some p' ∧ p'.addr = some a := by
  unfold create at h
  split at h
  · cases i with
    | stateError sp nu x0 =>
      cases h
      exact put_addr hn ha rfl fun e => absurd e hm
    | other k l =>
      cases h
      exact put_addr hn ha rfl fun e => absurd e hm
    | valueless =>
      cases h
      exact put_addr hn ha rfl fun e => absurd e hm
  · cases h

theorem createStateError_addr {w w' : World K} {n m a : ℕ} {p : Prob K} (hn : w.obj n = some p) (ha : p.addr = some a)
    (hm : m ≠ n) {sp : Space K} {nu : ℕ} {x0 : List K} {st : List (Option (Stage K))} {t : Option TermCost} {r : Ret K}
    (h : createStateError m sp nu x0 st t w = .ok w' r) : ∃ p', w'.obj n = some p' ∧ p'.addr = some a := by
  unfold createStateError at h
  split at h
  · exact create_addr hn ha hm h
  · cases h

theorem copyInit_obj {i j : Option (Init K)} {w w1 : World K} (h : copyInit i w = some (j, w1)) : w1.obj = w.obj := by
  unfold copyInit at h
  split at h
  · rw [Option.map_eq_some_iff] at h
    obtain ⟨x, -, h⟩ := h
    cases h
    rfl
  · cases h; rfl

/-- The initial state stays in its cell. -/
theorem step_addr (dbg : Bool) {w w' : World K} {o : Op K} {r : Ret K} {n a len : ℕ} {p : Prob K} (h : step dbg w o = .ok w' r)
    (hn : w.obj n = some p) (ha : p.addr = some a) (hl : ∃ c, w.cell a = some c ∧ c.length = len) (ht : ¬ Touches n len o) :
    ∃ p', w'.obj n = some p' ∧ p'.addr = some a := by
  have same : ∃ p', w.obj n = some p' ∧ p'.addr = some a := ⟨p, hn, ha⟩
  cases o with
  | create m i st t => exact create_addr hn ha ht h
  | createAt m x0 st t =>
    simp only [step, createAt] at h
    split at h
    · exact createStateError_addr hn ha ht h
    · cases h
  | createSpace m x0 nu sp t => exact createStateError_addr hn ha ht h
  | copy k m =>
    simp only [step] at h
    split at h
    · split at h
      · rename_i hc
        cases h
        exact put_addr hn ha (copyInit_obj hc) fun e => absurd e ht
      · cases h
    · cases h
  | assign k m =>
    simp only [step] at h
    split at h
    · split at h
      · cases h; exact same
      · rename_i hkm
        split at h
        · rename_i hc
          cases h
          refine put_addr hn ha ((freeInit_obj _ _).1.trans (copyInit_obj hc)) fun e => absurd ⟨e, ?_⟩ ht
          rintro rfl
          exact hkm e.symm
        · cases h
    · cases h
  | move k m =>
    simp only [step] at h
    simp only [Touches, not_or] at ht
    split at h
    · cases h
      obtain ⟨p', h1, h2⟩ := put_addr (m := m) (q := some _) hn ha rfl fun e => absurd e ht.2
      exact put_addr h1 h2 rfl fun e => absurd e ht.1
    · cases h
  | destroy m =>
    simp only [step] at h
    split at h
    · cases h
      exact put_addr hn ha (freeInit_obj _ _).1 fun e => absurd e ht
    · cases h
  | setInit m x =>
    simp only [step, setInit] at h
    simp only [Touches, not_and_or, not_not] at ht
    split at h
    · cases h
    · rename_i q hq
      split at h
      · cases h
      · cases h
      · split at h
        · rename_i sp nu b hb
          split at h
          · cases h
          · rename_i old hold
            split at h
            · cases h; exact same
            · rename_i hlen
              cases h
              refine put_addr (w1 := (w.free b).alloc x) hn ha rfl fun e => ?_
              subst e
              rw [hn] at hq
              cases hq
              have hab : a = b := by
                unfold Prob.addr at ha
                rw [hb] at ha
                simpa using ha.symm
              subst hab
              obtain ⟨c, hc, hcl⟩ := hl
              rw [hc] at hold
              cases hold
              rcases ht with ht | ht
              · exact absurd rfl ht
              · exact absurd (hcl.trans ht.symm) hlen
        · cases h
  | getInit m =>
    simp only [step, getInit] at h
    split at h
    · cases h
    · split at h
      · cases h
      · cases h
      · split at h
        · split at h
          · cases h
          · cases h; exact same
        · cases h
  | setInitConstraint m i =>
    simp only [step] at h
    split at h
    · cases i with
      | stateError sp nu x0 =>
        cases h
        exact put_addr hn ha (freeInit_obj _ _).1 fun e => absurd e ht
      | other k l =>
        cases h
        exact put_addr hn ha (freeInit_obj _ _).1 fun e => absurd e ht
      | valueless =>
        cases h
        exact put_addr hn ha (freeInit_obj _ _).1 fun e => absurd e ht
    · cases h
  | setTermCost m t =>
    simp only [step] at h
    split at h
    · rename_i q hq
      cases h
      exact put_addr hn ha rfl fun e => ⟨_, rfl, by subst e; rw [hn] at hq; cases hq; rfl⟩
    · cases h
  | addStage m s =>
    simp only [step] at h
    split at h
    · rename_i q hq
      cases h
      exact put_addr hn ha rfl fun e => ⟨_, rfl, by subst e; rw [hn] at hq; cases hq; rfl⟩
    · cases h
  | replaceStage m s =>
    simp only [step] at h
    split at h
    · rename_i q hq
      split at h
      · cases h
        exact put_addr hn ha rfl fun e => ⟨_, rfl, by subst e; rw [hn] at hq; cases hq; rfl⟩
      · cases h
    · cases h
  | addTermConstraint m g =>
    simp only [step] at h
    split at h
    · rename_i q hq
      cases h
      exact put_addr hn ha rfl fun e => ⟨_, rfl, by subst e; rw [hn] at hq; cases hq; rfl⟩
    · cases h
  | removeTermConstraints m =>
    simp only [step] at h
    split at h
    · rename_i q hq
      cases h
      exact put_addr hn ha rfl fun e => ⟨_, rfl, by subst e; rw [hn] at hq; cases hq; rfl⟩
    · cases h
  | integrity m =>
    simp only [step] at h
    split at h
    · split at h
      · cases h; exact same
      · cases h
    · cases h
  | termSizes m =>
    simp only [step] at h
    split at h
    · split at h
      · cases h; exact same
      · cases h
    · cases h

/-- The value named `n` keeps an initial state of the same length. -/
def HasState (σ : ℕ → SObj K) (n len : ℕ) (x : List K) : Prop :=
  ∃ s sp nu, σ n = .live s ∧ s.init = .state sp nu x ∧ x.length = len

theorem update_state {σ : ℕ → SObj K} {n len m : ℕ} {x : List K} {so : SObj K} (h : HasState σ n len x)
    (hm : m = n → ∃ s sp nu x', so = .live s ∧ s.init = .state sp nu x' ∧ x'.length = len) :
    ∃ x', HasState (Function.update σ m so) n len x' := by
  by_cases e : m = n
  · obtain ⟨s, sp, nu, x', rfl, h2, h3⟩ := hm e
    subst e
    exact ⟨x', s, sp, nu, by simp, h2, h3⟩
  · obtain ⟨s, sp, nu, h1, h2, h3⟩ := h
    exact ⟨x, s, sp, nu, by rw [Function.update_of_ne (Ne.symm e), h1], h2, h3⟩

theorem step_state {σ σ' : ℕ → SObj K} {o : Op K} {r : SRet K} {n len : ℕ} {x : List K} (h : SStep σ o σ' r)
    (hx : HasState σ n len x) (ht : ¬ Touches n len o) : ∃ x', HasState σ' n len x' := by
  have keep : ∀ {m : ℕ} {s s' : SProb K}, σ m = .live s → s'.init = s.init →
      (m = n → ∃ t sp nu x', SObj.live s' = .live t ∧ t.init = .state sp nu x' ∧ x'.length = len) := by
    intro m s s' hm hs e
    subst e
    obtain ⟨t, sp, nu, h1, h2, h3⟩ := hx
    rw [hm] at h1
    cases h1
    exact ⟨s', sp, nu, x, rfl, hs.trans h2, h3⟩
  cases h with
  | create _ => exact update_state hx fun e => absurd e ht
  | createOther _ => exact update_state hx fun e => absurd e ht
  | createAt _ _ => exact update_state hx fun e => absurd e ht
  | createAtBad _ _ => exact ⟨x, hx⟩
  | createSpace _ _ => exact update_state hx fun e => absurd e ht
  | createSpaceBad _ _ => exact ⟨x, hx⟩
  | copy _ _ => exact update_state hx fun e => absurd e ht
  | @assign k m s hk hm =>
    by_cases e : k = m
    · subst e; exact update_state hx (keep hk rfl)
    · exact update_state hx fun e' => absurd ⟨e', fun e'' => e (e''.trans e'.symm)⟩ ht
  | move _ _ =>
    simp only [Touches, not_or] at ht
    obtain ⟨x', hx'⟩ := update_state (so := .moved) hx fun e => absurd e ht.1
    exact update_state hx' fun e => absurd e ht.2
  | destroy _ => exact update_state hx fun e => absurd e ht
  | @setInit m s sp nu x0 x' hm hi =>
    refine update_state hx fun e => ⟨_, sp, nu, x', rfl, rfl, ?_⟩
    simp only [Touches, not_and_or, not_not] at ht
    exact ht.resolve_left fun h => h e
  | setInitBad _ _ => exact ⟨x, hx⟩
  | getInit _ _ => exact ⟨x, hx⟩
  | getInitBad _ _ => exact ⟨x, hx⟩
  | setInitConstraint _ _ => exact update_state hx fun e => absurd e ht
  | setInitConstraintOther _ _ => exact update_state hx fun e => absurd e ht
  | setTermCost hm _ => exact update_state hx (keep hm rfl)
  | addStage hm => exact update_state hx (keep hm rfl)
  | replaceStage hm _ => exact update_state hx (keep hm rfl)
  | addTermConstraint hm => exact update_state hx (keep hm rfl)
  | removeTermConstraints hm => exact update_state hx (keep hm rfl)
  | integrity _ => exact ⟨x, hx⟩
  | termSizes _ => exact ⟨x, hx⟩

/-- **C81**  The reference returned for the initial state follows it: after any operations that do not end or replace the
object or give it an initial state of another length, reading the reference gives the current initial state. -/
theorem C81_view_follows (dbg : Bool) {w : World K} {σ σ' : ℕ → SObj K} (hr : Rel w σ) {n : ℕ} {v : View} {w1 : World K}
    (hg : step dbg w (.getInit n) = .ok w1 (.view v)) {s : SProb K} (hs : σ n = .live s) {os : List (Op K)} {rs : List (SRet K)}
    (hrun : SRun σ os σ' rs) (ht : ∀ o ∈ os, ¬ Touches n v.len o) :
    ∃ w' l x s' sp nu, trace dbg w1 os = some (w', l) ∧ σ' n = .live s' ∧ s'.init = .state sp nu x ∧ v.read w' = some x := by
  obtain ⟨p, hp, h1, h2, h3, h4, h5⟩ := hr.live hs
  have start : w1 = w ∧ p.addr = some v.addr ∧ ∃ x, HasState σ n v.len x := by
    simp only [step, getInit, hp] at hg
    split at hg
    · cases hg
    · cases hg
    · split at hg
      · rename_i sp nu a ha
        split at hg
        · cases hg
        · rename_i x hx
          cases hg
          refine ⟨rfl, by simp [Prob.addr, ha], x, s, ?_⟩
          cases hi : s.init with
          | other k l => rw [hi] at h5; rw [h5.2] at ha; cases ha
          | state sp' nu' x0 =>
            rw [hi] at h5
            obtain ⟨-, b, hb, hxb⟩ := h5
            rw [ha] at hb
            cases hb
            rw [hx] at hxb
            cases hxb
            exact ⟨_, _, hs, rfl, rfl⟩
      · cases hg
  obtain ⟨rfl, ha, x, hx⟩ := start
  clear hg h1 h2 h3 h4 h5 hs
  induction hrun generalizing w1 p x with
  | nil =>
    obtain ⟨s, sp, nu, e1, e2, e3⟩ := hx
    obtain ⟨q, hq, -, -, -, -, hshow⟩ := hr.live e1
    rw [e2] at hshow
    obtain ⟨-, a, hqa, hc⟩ := hshow
    rw [hp] at hq
    cases hq
    have : a = v.addr := by simpa [Prob.addr, hqa] using ha
    subst this
    exact ⟨w1, [], x, s, sp, nu, rfl, e1, e2, by simp [View.read, hc, e3]⟩
  | @cons σ0 o σ1 r os σ2 rs h1 _ ih =>
    obtain ⟨x1, hx1⟩ := step_state h1 hx (ht o (by simp))
    have hl : ∃ c, w1.cell v.addr = some c ∧ c.length = v.len := by
      obtain ⟨s, sp, nu, e1, e2, e3⟩ := hx
      obtain ⟨q, hq, -, -, -, -, hshow⟩ := hr.live e1
      rw [e2] at hshow
      obtain ⟨-, a, hqa, hc⟩ := hshow
      rw [hp] at hq
      cases hq
      have : a = v.addr := by simpa [Prob.addr, hqa] using ha
      subst this
      exact ⟨x, hc, e3⟩
    rcases step_refines dbg hr h1 with ⟨w2, r2, e, hr2, -⟩ | ⟨w2, e, hr2, -⟩
    · obtain ⟨p2, hp2, ha2⟩ := step_addr dbg e hp ha hl (ht o (by simp))
      obtain ⟨w', l, y, s', sp, nu, g1, g2⟩ := ih (fun o ho => ht o (List.mem_cons_of_mem _ ho)) p2 hr2 hp2 ha2 x1 hx1
      exact ⟨w', _, y, s', sp, nu, by rw [trace, e]; simp only [g1]; rfl, g2⟩
    · have hw : w2 = w1 := by
        cases o <;> simp only [step, create, createAt, createStateError, setInit, getInit] at e <;> (repeat' split at e) <;>
          first | (cases e; rfl) | cases e
      subst hw
      obtain ⟨w', l, y, s', sp, nu, g1, g2⟩ := ih (fun o ho => ht o (List.mem_cons_of_mem _ ho)) p hr2 hp ha x1 hx1
      exact ⟨w', _, y, s', sp, nu, by rw [trace, e]; simp only [g1]; rfl, g2⟩

/-! ### Outside the rules -/

/-- **C81, refuted outside the rules**  Setting an initial state of another length leaves earlier references dangling (and
changes the initial state all the same, see `C81_setInit_any`). -/
theorem C81_view_dangles (dbg : Bool) {w : World K} {σ : ℕ → SObj K} (hr : Rel w σ) {n : ℕ} {v : View} {w1 : World K}
    (hg : step dbg w (.getInit n) = .ok w1 (.view v)) {s : SProb K} (hs : σ n = .live s) {x : List K} (hx : x.length ≠ v.len) :
    ∃ w2, step dbg w1 (.setInit n x) = .ok w2 .unit ∧ v.read w2 = none := by
  obtain ⟨p, hp, h1, h2, h3, h4, h5⟩ := hr.live hs
  cases hi : s.init with
  | other k l =>
    rw [hi] at h5
    simp [step, getInit, hp, Prob.isStateError, checkInit, h5.1, h5.2] at hg
  | state sp nu x0 =>
    rw [hi] at h5
    obtain ⟨hc, a, ha, hxa⟩ := h5
    simp only [step, getInit, hp, Prob.isStateError, checkInit, hc, ha, hxa, bne_self_eq_false, Bool.and_false,
      Bool.false_eq_true, if_false] at hg
    cases hg
    have hlt := hr.lt n p a hp (by simp [Prob.addr, ha])
    refine ⟨((w.free a).alloc x).put n (some { p with init := some (.stateError sp nu (w.free a).next) }), by
      simp only [step, setInit, hp, Prob.isStateError, checkInit, hc, ha, hxa, bne_self_eq_false, Bool.and_false,
        Bool.false_eq_true, if_false, if_neg (Ne.symm hx)], ?_⟩
    simp [View.read, World.put, World.alloc, World.free, Function.update_of_ne (Nat.ne_of_lt hlt)]

/-- **C81**  `setInitState` accepts a vector of any length and off the manifold, although the constructors refuse what is
not on the manifold; the integrity check does not see it. -/
theorem C81_setInit_any (dbg : Bool) {w : World K} {σ : ℕ → SObj K} (hr : Rel w σ) {n : ℕ} {s : SProb K} (hs : σ n = .live s)
    {sp : Space K} {nu : ℕ} {x0 : List K} (hi : s.init = .state sp nu x0) (x : List K) :
    ∃ w1 p p1, step dbg w (.setInit n x) = .ok w1 .unit ∧ Rel w1 (Function.update σ n (.live { s with init := .state sp nu x })) ∧
      w.obj n = some p ∧ w1.obj n = some p1 ∧ p1.integrity = p.integrity := by
  rcases step_refines dbg hr (.setInit hs hi (x := x)) with ⟨w1, r, e, hr1, hret⟩ | ⟨_, _, _, h⟩
  · obtain ⟨p, hp, a1, a2, a3, a4, a5⟩ := hr.live hs
    obtain ⟨p1, hp1, b1, b2, b3, b4, b5⟩ := hr1.live (n := n) (s := { s with init := .state sp nu x }) (by simp)
    rw [hi] at a5
    obtain ⟨hc, a, ha, -⟩ := a5
    obtain ⟨hc1, a', ha', -⟩ := b5
    have hu : r = .unit := by cases r <;> first | rfl | exact absurd hret (by simp [RetShows])
    refine ⟨w1, p, p1, hu ▸ e, hr1, hp, hp1, ?_⟩
    unfold Prob.integrity
    rw [hc, hc1, ha, ha', a1, b1, a2, b2]
    rfl
  · cases h

/-- **C81, refuted outside the rules**  After a state-error initial condition has been replaced, through the public member,
by another function, the problem still takes it for a state error: in a debug build the next access to the initial state
aborts, in a release build it is undefined behaviour; `checkIntegrity` is false. -/
theorem C81_replaced_by_other {w : World K} {σ : ℕ → SObj K} (hr : Rel w σ) {n : ℕ} {s : SProb K} (hs : σ n = .live s)
    {sp : Space K} {nu : ℕ} {x0 : List K} (hi : s.init = .state sp nu x0) (a b : ℕ) (dbg : Bool) :
    ∃ w1, step dbg w (.setInitConstraint n (.other a b)) = .ok w1 .unit ∧
      step true w1 (.getInit n) = .abort ∧ step false w1 (.getInit n) = .ub ∧
      (∀ x, step true w1 (.setInit n x) = .abort ∧ step false w1 (.setInit n x) = .ub) ∧
      step dbg w1 (.integrity n) = .ok w1 (.flag false) := by
  obtain ⟨p, hp, a1, a2, a3, a4, a5⟩ := hr.live hs
  rw [hi] at a5
  obtain ⟨hc, c, hc1, -⟩ := a5
  refine ⟨(freeInit p.init w).put n (some { p with init := some (.other a b) }), by simp only [step, hp, InitArg.place],
    ?_, ?_, fun x => ⟨?_, ?_⟩, ?_⟩ <;>
    simp [step, getInit, setInit, World.put, Prob.isStateError, checkInit, hc, Prob.integrity]

/-- **C81, refuted outside the rules**  In the other direction the state error is not recognised: access to the initial
state throws in a release build and aborts in a debug build; `checkIntegrity` is false. -/
theorem C81_replaced_by_state {w : World K} {σ : ℕ → SObj K} (hr : Rel w σ) {n : ℕ} {s : SProb K} (hs : σ n = .live s)
    {k l : ℕ} (hi : s.init = .other k l) (sp : Space K) (nu : ℕ) (x0 : List K) (dbg : Bool) :
    ∃ w1, step dbg w (.setInitConstraint n (.stateError sp nu x0)) = .ok w1 .unit ∧
      step true w1 (.getInit n) = .abort ∧ step false w1 (.getInit n) = .throws w1 ∧
      (∀ x, step true w1 (.setInit n x) = .abort ∧ step false w1 (.setInit n x) = .throws w1) ∧
      step dbg w1 (.integrity n) = .ok w1 (.flag false) := by
  obtain ⟨p, hp, a1, a2, a3, a4, a5⟩ := hr.live hs
  rw [hi] at a5
  obtain ⟨hc, hc1⟩ := a5
  refine ⟨(freeInit p.init (w.alloc x0)).put n (some { p with init := some (.stateError sp nu w.next) }), by
    simp only [step, hp, InitArg.place], ?_, ?_, fun x => ⟨?_, ?_⟩, ?_⟩ <;>
    simp [step, getInit, setInit, World.put, Prob.isStateError, checkInit, hc, hc1, freeInit, World.alloc, Prob.integrity]

/-- **C81, refuted outside the rules**  The control passed to terminal functions keeps the size it had at construction: with
another terminal cost it is of the wrong size. -/
theorem C81_terminal_control_stale (dbg : Bool) {w : World K} {σ : ℕ → SObj K} (hr : Rel w σ) {n : ℕ} {s : SProb K}
    (hs : σ n = .live s) {t : TermCost} (ht : t.nu ≠ s.term.nu) :
    ∃ w1, step dbg w (.setTermCost n (some t)) = .ok w1 .unit ∧ step dbg w1 (.termSizes n) = .ok w1 (.flag false) := by
  obtain ⟨p, hp, a1, a2, a3, a4, a5⟩ := hr.live hs
  refine ⟨w.put n (some { p with term := some t }), by simp only [step, hp], ?_⟩
  have : ¬ s.term.nu = t.nu := fun h => ht h.symm
  simp [step, World.put, a4, this]

/-- **C81**  A problem with a stage moved from fails the integrity check, in whatever place. -/
theorem C81_integrity_valueless (p : Prob K) (hi : p.init ≠ none) (h : none ∈ p.stages) : p.integrity = some false := by
  have chain : ∀ (r : List (Option (Stage K))) (t : Option TermCost) (s : Stage K), none ∈ r → chainOk t s r = none := by
    intro r t
    induction r with
    | nil => intro s h; cases h
    | cons o r ih =>
      intro s h
      cases o with
      | none => rfl
      | some s' =>
        have : none ∈ r := by simpa using h
        simp [chainOk, ih s' this]
  unfold Prob.integrity
  split
  · rfl
  · split
    · rename_i e; rw [e] at h; cases h
    · rfl
    · rename_i s r e
      rw [e] at h
      split
      · rename_i e'; exact absurd e' hi
      · rw [chain r _ s (by simpa using h)]

/-! ### Multipliers of the initial guess -/

theorem resizeVecs_length (n : ℕ) (v : List (List K)) : (resizeVecs n v).length = n := by
  simp [resizeVecs]; omega

theorem foldl_sets (stages : List (Stage K)) [Zero K] (n : ℕ) (hn : n ≤ stages.length) (v l : List (List K))
    (hv : v.length = stages.length + 1) (hl : l.length = stages.length + 1) :
    ∃ r, (List.range n).foldl (fun (r : List (List K) × List (List K)) k =>
        match stages[k]? with
        | some s => (r.1.set k (List.replicate s.nc 0), r.2.set (k + 1) (List.replicate s.next.ndx 0))
        | none => r) (v, l) = r ∧
      r.1.length = stages.length + 1 ∧ r.2.length = stages.length + 1 ∧
      (∀ k s, k < n → stages[k]? = some s →
        r.1[k]? = some (List.replicate s.nc 0) ∧ r.2[k + 1]? = some (List.replicate s.next.ndx 0)) ∧
      (∀ k, n ≤ k → r.1[k]? = v[k]?) ∧ r.2[0]? = l[0]? := by
  induction n with
  | zero => exact ⟨_, rfl, hv, hl, fun k s h => absurd h (by omega), fun _ _ => rfl, rfl⟩
  | succ n ih =>
    obtain ⟨r, hr, h1, h2, h3, h4, h5⟩ := ih (by omega)
    have hs : stages[n]? = some stages[n] := List.getElem?_eq_getElem (by omega)
    refine ⟨_, rfl, ?_⟩
    rw [List.range_succ, List.foldl_append, hr]
    simp only [List.foldl_cons, List.foldl_nil, hs]
    refine ⟨by simp [h1], by simp [h2], ?_, ?_, ?_⟩
    · intro k s hk hks
      by_cases e : k = n
      · subst e
        rw [hs] at hks
        cases hks
        constructor
        · rw [List.getElem?_set_self (by omega)]
        · rw [List.getElem?_set_self (by omega)]
      · rw [List.getElem?_set_ne (by omega), List.getElem?_set_ne (by omega)]
        exact h3 k s (by omega) hks
    · intro k hk
      rw [List.getElem?_set_ne (by omega)]
      exact h4 k (by omega)
    · rw [List.getElem?_set_ne (by omega)]
      exact h5

/-- **C81**  The multipliers of the initial guess are zero and of the sizes of the constraints, whatever the vectors held
before: those of the dynamics, of the initial condition and of the path constraints in any case, those of the terminal
constraints when there are some. -/
theorem C81_multipliers [Zero K] (i : Init K) (stages : List (Stage K)) (cstrs : List TermFun) (vs lams : List (List K)) :
    let r := initMultipliers i stages cstrs vs lams
    r.1.length = stages.length + 1 ∧ r.2 = List.replicate i.nr 0 :: stages.map (fun s => List.replicate s.next.ndx 0) ∧
    r.1.take stages.length = stages.map (fun s => List.replicate s.nc 0) ∧
    (cstrs ≠ [] → r.1[stages.length]? = some (List.replicate ((cstrs.map TermFun.nr).sum) 0)) ∧
    (cstrs = [] → r.1[stages.length]? = some (if vs.length ≤ stages.length then [] else vs.getD stages.length [])) := by
  obtain ⟨r, hr, h1, h2, h3, h4, h5⟩ := foldl_sets stages stages.length le_rfl (resizeVecs (stages.length + 1) vs)
    ((resizeVecs (stages.length + 1) lams).set 0 (List.replicate i.nr 0)) (resizeVecs_length _ _)
    (by rw [List.length_set, resizeVecs_length])
  have e : initMultipliers i stages cstrs vs lams =
      if cstrs.isEmpty then r else (r.1.set stages.length (List.replicate ((cstrs.map TermFun.nr).sum) 0), r.2) := by
    rw [← hr]
    rfl
  have hlam : r.2 = List.replicate i.nr 0 :: stages.map (fun s => List.replicate s.next.ndx 0) := by
    apply List.ext_getElem?
    intro k
    cases k with
    | zero => rw [h5, List.getElem?_set_self (by rw [resizeVecs_length]; omega)]; rfl
    | succ k =>
      by_cases hk : k < stages.length
      · rw [(h3 k stages[k] hk (List.getElem?_eq_getElem hk)).2]
        simp [hk]
      · rw [List.getElem?_eq_none (by omega)]
        simp [Nat.not_lt.1 hk]
  have hv : ∀ v : List (List K), (∀ k, k < stages.length → v[k]? = r.1[k]?) →
      v.take stages.length = stages.map (fun s => List.replicate s.nc 0) := by
    intro v hvk
    apply List.ext_getElem?
    intro k
    by_cases hk : k < stages.length
    · rw [List.getElem?_take_of_lt hk, hvk k hk, (h3 k stages[k] hk (List.getElem?_eq_getElem hk)).1]
      simp [hk]
    · rw [List.getElem?_eq_none (by simp; omega)]
      simp [Nat.not_lt.1 hk]
  simp only [e]
  cases cstrs with
  | nil =>
    refine ⟨h1, hlam, hv _ fun _ _ => rfl, fun h => absurd rfl h, fun _ => ?_⟩
    show r.1[stages.length]? = _
    rw [h4 _ le_rfl, resizeVecs]
    split
    · rename_i hle
      rw [List.take_of_length_le (by omega), List.getElem?_append_right hle, List.getElem?_replicate, if_pos (by omega)]
    · rename_i hle
      rw [List.getElem?_append_left (by simp; omega), List.getElem?_take_of_lt (by omega), List.getD_eq_getElem?_getD,
        List.getElem?_eq_getElem (by omega)]
      rfl
  | cons f fs =>
    refine ⟨by simp [h1], hlam, hv _ fun k hk => ?_, fun _ => ?_, fun h => nomatch h⟩
    · show (r.1.set _ _)[k]? = _
      rw [List.getElem?_set_ne (by omega)]
    · show (r.1.set _ _)[stages.length]? = _
      rw [List.getElem?_set_self (by omega)]

/-- **C81, refuted for terminal multipliers**  Without terminal constraints the last multiplier keeps what it held before:
after the constraints are removed, initialising the same vectors again does not give what a fresh guess is. -/
theorem C81_multipliers_kept : ∃ (i : Init ℚ) (st : List (Stage ℚ)) (f : TermFun),
    let g := initMultipliers i st [f] [] []
    let u := (g.1.set st.length [3], g.2)
    initMultipliers i st [] u.1 u.2 ≠ initMultipliers i st [] [] [] := by
  refine ⟨.other 1 1, [], ⟨0, 1⟩, ?_⟩
  simp [initMultipliers, resizeVecs]

/-! ### Examples -/

/-- The line. -/
def line : Space ℚ := ⟨1, 1, [0], fun x => x.length == 1⟩

/-- A stage on the line. -/
def lineStage : Stage ℚ := ⟨line, 1, line, 2⟩

/-- A program: construct, copy, change the copy, assign it back, move, replace the stage, read; one construction throws. -/
def prog : List (Op ℚ) :=
  [.createAt 0 [5, 6] [some lineStage] (some ⟨1, 1, 0⟩), .createAt 0 [5] [some lineStage] (some ⟨1, 1, 0⟩), .copy 0 1, .setInit 1 [7],
    .getInit 0, .assign 1 0, .setInit 1 [8], .getInit 0, .move 0 2, .replaceStage 2 (some lineStage), .getInit 2, .integrity 2,
    .assign 2 0, .getInit 0]

/-- What it gives on values. -/
theorem prog_run : ∃ σ, SRun (fun _ => .absent) prog σ
    [.throws, .unit, .unit, .unit, .state [5], .unit, .unit, .state [7], .unit, .stage lineStage, .state [7],
      .flag (Consistent ⟨.state line 1 [7], [lineStage], ⟨1, 1, 0⟩, []⟩), .unit, .state [7]] :=
  ⟨_, .cons (.createAtBad (s := lineStage) (vs := []) rfl rfl) <| .cons (.createAt (s := lineStage) (vs := []) rfl rfl) <|
    .cons (.copy (s := ⟨.state line 1 [5], [lineStage], ⟨1, 1, 0⟩, []⟩) rfl rfl) <|
    .cons (.setInit (s := ⟨.state line 1 [5], [lineStage], ⟨1, 1, 0⟩, []⟩) rfl rfl) <|
    .cons (.getInit (s := ⟨.state line 1 [5], [lineStage], ⟨1, 1, 0⟩, []⟩) rfl rfl) <|
    .cons (.assign (s := ⟨.state line 1 [7], [lineStage], ⟨1, 1, 0⟩, []⟩) rfl (by simp [Function.update])) <|
    .cons (.setInit (s := ⟨.state line 1 [7], [lineStage], ⟨1, 1, 0⟩, []⟩) rfl rfl) <|
    .cons (.getInit (s := ⟨.state line 1 [7], [lineStage], ⟨1, 1, 0⟩, []⟩) rfl rfl) <|
    .cons (.move (s := ⟨.state line 1 [7], [lineStage], ⟨1, 1, 0⟩, []⟩) rfl rfl) <|
    .cons (.replaceStage (s := ⟨.state line 1 [7], [lineStage], ⟨1, 1, 0⟩, []⟩) (r := [lineStage]) rfl rfl) <|
    .cons (.getInit (s := ⟨.state line 1 [7], [lineStage], ⟨1, 1, 0⟩, []⟩) rfl rfl) <|
    .cons (.integrity (s := ⟨.state line 1 [7], [lineStage], ⟨1, 1, 0⟩, []⟩) rfl) <|
    .cons (.assign (s := ⟨.state line 1 [7], [lineStage], ⟨1, 1, 0⟩, []⟩) rfl (by simp [Function.update])) <|
    .cons (.getInit (s := ⟨.state line 1 [7], [lineStage], ⟨1, 1, 0⟩, []⟩) rfl rfl) .nil⟩

/-- The hypotheses of `C81_problems_are_values` are met. -/
example : ∃ w l σ rs, trace true World.empty prog = some (w, l) ∧ Rel w σ ∧ LogShows l rs ∧ rs.length = 14 := by
  obtain ⟨σ, h⟩ := prog_run
  obtain ⟨w, l, h1, h2, h3⟩ := C81_problems_are_values true prog h
  exact ⟨w, l, σ, _, h1, h2, h3, rfl⟩

/-- Those of `C81_view_follows`, with a change of the initial state behind the reference, and of `C81_view_dangles`. -/
example : ∃ (w w1 : World ℚ) (v : View), step true w (.getInit 0) = .ok w1 (.view v) ∧
    (∃ w' l, trace true w1 [.setInit 0 [9], .addStage 0 (some lineStage)] = some (w', l) ∧ v.read w' = some [9]) ∧
    (∃ w2, step true w1 (.setInit 0 [1, 2]) = .ok w2 .unit ∧ v.read w2 = none) := by
  have h0 := step_refines true rel_empty
    (.createAt (n := 0) (x0 := [5]) (s := lineStage) (vs := []) (t := ⟨1, 1, 0⟩) rfl rfl)
  rcases h0 with ⟨w, r, e, hr, -⟩ | ⟨_, _, _, h⟩
  swap
  · cases h
  rcases step_refines true hr (.getInit (n := 0) (s := ⟨.state line 1 [5], [lineStage], ⟨1, 1, 0⟩, []⟩) rfl rfl) with
    ⟨w1, r1, e1, hr1, hret⟩ | ⟨_, _, _, h⟩
  swap
  · cases h
  cases r1 with
  | view v =>
    have hv : v.len = 1 := by
      have : v.read w1 = some [5] := hret
      unfold View.read at this
      split at this
      · split at this
        · rename_i c _ hl
          cases this
          exact hl.symm
        · cases this
      · cases this
    refine ⟨w, w1, v, e1, ?_, C81_view_dangles true hr e1 (s := ⟨.state line 1 [5], [lineStage], ⟨1, 1, 0⟩, []⟩) rfl (by rw [hv]; decide)⟩
    obtain ⟨w', l, x, s', sp, nu, g1, g2, g3, g4⟩ := C81_view_follows true hr e1
      (s := ⟨.state line 1 [5], [lineStage], ⟨1, 1, 0⟩, []⟩) rfl
      (.cons (.setInit (n := 0) (x := [9]) (s := ⟨.state line 1 [5], [lineStage], ⟨1, 1, 0⟩, []⟩) rfl rfl) <|
        .cons (.addStage (n := 0) (v := lineStage) (s := ⟨.state line 1 [9], [lineStage], ⟨1, 1, 0⟩, []⟩) rfl) .nil)
      (by rw [hv]; intro o ho; rcases List.mem_pair.1 ho with rfl | rfl <;> simp [Touches])
    have : s' = ⟨.state line 1 [9], [lineStage, lineStage], ⟨1, 1, 0⟩, []⟩ := by simpa using g2.symm
    subst this
    cases g3
    exact ⟨w', l, g1, g4⟩
  | unit => exact absurd hret (by simp [RetShows])
  | flag b => exact absurd hret (by simp [RetShows])
  | stage s => exact absurd hret (by simp [RetShows])

end Aligator.PObj
