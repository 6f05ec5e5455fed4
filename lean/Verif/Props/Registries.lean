import Verif.Model.Registries
import Verif.Spec.Registries
import Mathlib.Data.List.Nodup
import Mathlib.Data.List.Perm.Basic
import Mathlib.Data.List.Induction

/-!
# Contact maps (C51), callbacks and history (C53)
-/

namespace Aligator.Reg

variable {P C X K : Type}

/-! ## Contact maps -/

open Spec (Contact)

/-- The map holds the contacts. -/
def Holds (m : CMap P) (l : List (Contact P)) : Prop :=
  m.names = l.map (·.name) ∧ m.states = l.map (·.state) ∧ m.poses = l.map (·.pose) ∧ m.size = l.length

theorem find_le (n : String) (ns : List String) : find n ns ≤ ns.length := by
  induction ns with
  | nil => simp [find]
  | cons s ss ih => rw [find]; split <;> simp; exact ih

theorem find_lookup (n : String) (l : List (Contact P)) :
    (find n (l.map (·.name)) = l.length ∧ Spec.lookup n l = none) ∨
    (find n (l.map (·.name)) < l.length ∧ Spec.lookup n l = l[find n (l.map (·.name))]? ) := by
  induction l with
  | nil => left; simp [find, Spec.lookup]
  | cons c l ih =>
    by_cases h : c.name = n
    · right; simp [find, Spec.lookup, h]
    · have h1 : find n ((c :: l).map (·.name)) = find n (l.map (·.name)) + 1 := by simp [find, h]
      have h2 : Spec.lookup n (c :: l) = Spec.lookup n l := by simp [Spec.lookup, h]
      rw [h1, h2]
      simpa using ih

theorem getContactState_spec (m : CMap P) (l : List (Contact P)) (h : Holds m l) (n : String) :
    m.getContactState n = match Spec.lookup n l with | some c => .ok c.state | none => .throws := by
  unfold CMap.getContactState
  rw [h.1, h.2.1, List.length_map]
  rcases find_lookup n l with ⟨h1, h2⟩ | ⟨h1, h2⟩
  · rw [if_pos h1, h2]
  · rw [if_neg (by omega), h2, List.getElem?_map, List.getElem?_eq_getElem h1]
    rfl

theorem getContactPose_spec (m : CMap P) (l : List (Contact P)) (h : Holds m l) (n : String) :
    m.getContactPose n = match Spec.lookup n l with | some c => .ok c.pose | none => .throws := by
  unfold CMap.getContactPose
  rw [h.1, h.2.2.1, List.length_map]
  rcases find_lookup n l with ⟨h1, h2⟩ | ⟨h1, h2⟩
  · rw [if_pos h1, h2]
  · rw [if_neg (by omega), h2, List.getElem?_map, List.getElem?_eq_getElem h1]
    rfl

/-- The client's operations as requests. -/
def COp.req : COp P → Spec.Req P
  | .add n s p => .add ⟨n, s, p⟩
  | .remove i => .remove i
  | .setPose n p => .setPose n p

theorem setFirst_maps (n : String) (p : P) (l : List (Contact P)) :
    (Spec.setFirst n p l).map (·.name) = l.map (·.name) ∧ (Spec.setFirst n p l).map (·.state) = l.map (·.state) ∧
      (Spec.setFirst n p l).length = l.length ∧
      (Spec.setFirst n p l).map (·.pose) = (l.map (·.pose)).set (find n (l.map (·.name))) p := by
  induction l with
  | nil => simp [Spec.setFirst]
  | cons c l ih =>
    rw [Spec.setFirst]
    by_cases h : c.name = n
    · simp [h, find]
    · rw [if_neg h]
      simp [h, find, ih.1, ih.2.1, ih.2.2.1, ih.2.2.2]

theorem step_holds (m : CMap P) (l : List (Contact P)) (h : Holds m l) (o : COp P)
    (hr : o.req.Ok l) :
    (∃ m', m.step o = .ok m' ∧ Holds m' (Spec.step l o.req)) ∨
      (m.step o = .throws ∧ Spec.step l o.req = l ∧
        match o with | .remove _ => l = [] | .setPose n _ => Spec.lookup n l = none | .add .. => False) := by
  obtain ⟨h1, h2, h3, h4⟩ := h
  cases o with
  | add n s p =>
    left
    exact ⟨_, rfl, by simp [Holds, CMap.addContact, Spec.step, COp.req, h1, h2, h3, h4]⟩
  | remove i =>
    simp only [CMap.step, CMap.removeContact]
    rcases hr with rfl | hr
    · right
      rw [if_pos (by simpa using h4)]
      exact ⟨rfl, by simp [Spec.step, COp.req], rfl⟩
    · left
      rw [if_neg (by omega), if_pos (by simp [h1, h2, h3, hr])]
      refine ⟨_, rfl, ?_⟩
      simp [Holds, Spec.step, COp.req, h1, h2, h3, h4, List.eraseIdx_map, List.length_eraseIdx, hr]
  | setPose n p =>
    simp only [CMap.step, CMap.setContactPose]
    rw [h1, h3, List.length_map, List.length_map]
    obtain ⟨a, b, c, d⟩ := setFirst_maps n p l
    rcases find_lookup n l with ⟨e1, e2⟩ | ⟨e1, e2⟩
    · right
      rw [if_pos e1]
      refine ⟨rfl, ?_, e2⟩
      simp only [Spec.step, COp.req]
      clear a b c d h1 h2 h3 h4 e1 hr
      induction l with
      | nil => rfl
      | cons c l ih =>
        have hc : c.name ≠ n := by
          intro h; simp [Spec.lookup, h] at e2
        have : Spec.lookup n l = none := by simpa [Spec.lookup, hc] using e2
        rw [Spec.setFirst, if_neg hc, ih this]
    · left
      rw [if_neg (by omega), if_pos e1]
      exact ⟨_, rfl, by simp [Holds, Spec.step, COp.req, a, b, c, d, h2, h4]⟩

theorem run_holds (m : CMap P) (l : List (Contact P)) (h : Holds m l) (os : List (COp P))
    (hr : Spec.InRange l (os.map COp.req)) :
    ∃ m', m.run os = .ok m' ∧ Holds m' ((os.map COp.req).foldl Spec.step l) := by
  induction os generalizing m l with
  | nil => exact ⟨m, rfl, h⟩
  | cons o os ih =>
    rw [List.map_cons, Spec.InRange] at hr
    rw [List.map_cons, List.foldl_cons, CMap.run]
    rcases step_holds m l h o hr.1 with ⟨m', h1, h2⟩ | ⟨h1, h2, -⟩
    · rw [h1]
      exact ih m' _ h2 hr.2
    · rw [h1]
      rw [h2] at hr ⊢
      exact ih m l h hr.2

/-- **C51 for well-formed maps.**  A contact map built from as many names as states, after any sequence of operations
whose removals stay inside the collection (failing operations included), behaves as the collection of contacts that the
user described: size, and for every name the state and pose of the first contact with that name, or an exception.
Missing: the constructor does not check the number of names and `removeContact` does not check its index
(`C51_names_unchecked`, `C51_remove_unchecked`). -/
theorem C51_contact_map_partial (cs : List (Contact P)) (os : List (COp P)) (hr : Spec.InRange cs (os.map COp.req)) :
    ∃ m₀ m, CMap.ctor (cs.map (·.name)) (cs.map (·.state)) (cs.map (·.pose)) = .ok m₀ ∧ m₀.run os = .ok m ∧
      m.size = ((os.map COp.req).foldl Spec.step cs).length ∧
      (∀ n, m.getContactState n = match Spec.lookup n ((os.map COp.req).foldl Spec.step cs) with
        | some c => .ok c.state | none => .throws) ∧
      ∀ n, m.getContactPose n = match Spec.lookup n ((os.map COp.req).foldl Spec.step cs) with
        | some c => .ok c.pose | none => .throws := by
  have h0 : Holds (⟨cs.map (·.name), cs.map (·.state), cs.map (·.pose), cs.length⟩ : CMap P) cs :=
    ⟨rfl, rfl, rfl, rfl⟩
  obtain ⟨m, h1, h2⟩ := run_holds _ cs h0 os hr
  exact ⟨_, m, by simp [CMap.ctor], h1, h2.2.2.2, getContactState_spec m _ h2, getContactPose_spec m _ h2⟩

/-- **C51, exceptions.**  On a well-formed map an operation throws exactly when the map is empty (removal) or the name
is unknown (setting a pose). -/
theorem C51_exceptions (m : CMap P) (l : List (Contact P)) (h : Holds m l) (o : COp P)
    (hr : o.req.Ok l) :
    m.step o = .throws ↔
      match o with | .remove _ => l = [] | .setPose n _ => Spec.lookup n l = none | .add .. => False := by
  constructor
  · intro ht
    rcases step_holds m l h o hr with ⟨m', h1, -⟩ | ⟨-, -, h3⟩
    · rw [h1] at ht; exact absurd ht (by simp)
    · exact h3
  · intro hc
    cases o with
    | add n s p => exact hc.elim
    | remove i => simp only at hc; subst hc; clear hr; simp [CMap.step, CMap.removeContact, h.2.2.2]
    | setPose n p =>
      simp only [CMap.step, CMap.setContactPose]
      rcases find_lookup n l with ⟨e1, -⟩ | ⟨e1, e2⟩
      · rw [if_pos (by rw [h.1, List.length_map]; exact e1)]
      · simp only at hc
        rw [hc, List.getElem?_eq_getElem e1] at e2
        simp at e2

/-- **C51, the constructor.**  It throws exactly when the numbers of states and poses differ; given as many names, the
map holds the contacts in order. -/
theorem C51_constructor (names : List String) (states : List Bool) (poses : List P) :
    (CMap.ctor names states poses = .throws ↔ states.length ≠ poses.length) ∧
    ∀ l : List (Contact P), names = l.map (·.name) → states = l.map (·.state) → poses = l.map (·.pose) →
      ∃ m, CMap.ctor names states poses = .ok m ∧ Holds m l := by
  refine ⟨?_, ?_⟩
  · unfold CMap.ctor
    split <;> simp_all
  · rintro l rfl rfl rfl
    exact ⟨_, by rw [CMap.ctor, if_neg (by simp)], rfl, rfl, rfl, by simp⟩

/-- **C51 is violated by the constructor.**  More names than states are accepted; looking up a surplus name reads beyond
the end; one name more shifts every later contact. -/
theorem C51_names_unchecked :
    ∃ m : CMap ℕ, CMap.ctor ["a", "b"] [true] [7] = .ok m ∧ m.getContactState "b" = .undefined ∧
      (m.addContact "c" false 8).getContactState "c" = .undefined ∧
      (m.addContact "c" false 8).getContactPose "b" = .ok 8 :=
  ⟨_, rfl, by decide, by decide, by decide⟩

/-- **C51 is violated by `removeContact`.**  On every non-empty map, an index beyond the end is undefined behaviour, not
an exception. -/
theorem C51_remove_unchecked (m : CMap P) (l : List (Contact P)) (h : Holds m l) (hne : l ≠ []) (i : ℕ)
    (hi : l.length ≤ i) : m.removeContact i = .undefined := by
  unfold CMap.removeContact
  rw [if_neg, if_neg]
  · rw [h.1, List.length_map]; omega
  · rw [h.2.2.2]; simpa using hne

/-- Hypotheses of `C51_contact_map_partial` on a history with repeated names, a failing operation and a removal. -/
example : ∃ m₀ m : CMap ℕ, CMap.ctor ["a", "b"] [true, false] [1, 2] = .ok m₀ ∧
    m₀.run [.add "a" false 3, .setPose "z" 9, .setPose "a" 5, .remove 0] = .ok m ∧ m.size = 2 ∧
    m.getContactPose "a" = .ok 3 ∧ m.getContactState "z" = .throws := by
  obtain ⟨m₀, m, h1, h2, h3, h4, h5⟩ := C51_contact_map_partial
    [⟨"a", true, 1⟩, ⟨"b", false, 2⟩] [.add "a" false 3, .setPose "z" 9, .setPose "a" 5, .remove 0]
    ⟨trivial, trivial, trivial, .inr (by simp [Spec.step, COp.req, Spec.setFirst]), trivial⟩
  refine ⟨m₀, m, h1, h2, h3, (h5 "a").trans ?_, (h4 "z").trans ?_⟩ <;> rfl

/-! ## Callbacks -/

/-- The keys of the table are distinct. -/
def CbMap.Distinct (m : CbMap C) : Prop := (m.map (·.1)).Nodup

theorem insertOrAssign_keys (n : String) (c : C) (m : CbMap C) (k : String) :
    k ∈ (insertOrAssign n c m).map (·.1) ↔ k = n ∨ k ∈ m.map (·.1) := by
  induction m with
  | nil => simp [insertOrAssign]
  | cons e es ih =>
    rw [insertOrAssign]
    split
    · rename_i h; simp [h]
    · rw [List.map_cons, List.mem_cons, ih, List.map_cons, List.mem_cons]; tauto

theorem insertOrAssign_distinct (n : String) (c : C) (m : CbMap C) (h : CbMap.Distinct m) :
    CbMap.Distinct (insertOrAssign n c m) := by
  induction m with
  | nil => simp [insertOrAssign, CbMap.Distinct]
  | cons e es ih =>
    have h' := h
    rw [CbMap.Distinct, List.map_cons, List.nodup_cons] at h'
    rw [insertOrAssign]
    split
    · rename_i he; rw [CbMap.Distinct, List.map_cons, List.nodup_cons]; exact ⟨he ▸ h'.1, h'.2⟩
    · rename_i he
      rw [CbMap.Distinct, List.map_cons, List.nodup_cons, insertOrAssign_keys]
      exact ⟨fun hc => hc.elim he h'.1, ih h'.2⟩

theorem insertOrAssign_mem (n : String) (c : C) (m : CbMap C) (h : CbMap.Distinct m) (k : String) (x : C) :
    (k, x) ∈ insertOrAssign n c m ↔ if n = k then x = c else (k, x) ∈ m := by
  induction m with
  | nil =>
    simp only [insertOrAssign, List.mem_singleton, Prod.mk.injEq, List.not_mem_nil]
    split
    · rename_i h; simp [h]
    · rename_i h; simp [Ne.symm h]
  | cons e es ih =>
    rw [CbMap.Distinct, List.map_cons, List.nodup_cons] at h
    have ih := ih h.2
    rw [insertOrAssign]
    by_cases he : e.1 = n
    · rw [if_pos he, List.mem_cons, List.mem_cons, Prod.mk.injEq]
      by_cases hk : n = k
      · rw [if_pos hk]
        refine ⟨fun hc => hc.elim (·.2) fun hc => ?_, fun hc => .inl ⟨hk.symm, hc⟩⟩
        exact absurd (List.mem_map_of_mem (f := (·.1)) hc) (by rw [← hk, ← he]; exact h.1)
      · rw [if_neg hk]
        refine ⟨fun hc => hc.elim (fun hc => absurd hc.1.symm hk) .inr, fun hc => hc.elim (fun hc => ?_) .inr⟩
        exact absurd (he.symm.trans (congrArg (·.1) hc).symm) hk
    · rw [if_neg he, List.mem_cons, List.mem_cons, ih]
      by_cases hk : n = k
      · rw [if_pos hk, if_pos hk]
        exact ⟨fun hc => hc.elim (fun hc => absurd ((congrArg (·.1) hc).symm.trans hk.symm) he) id, .inr⟩
      · rw [if_neg hk, if_neg hk]

/-- The client's operations as words. -/
def CbOp.word : CbOp C → Spec.Word C
  | .register n c => .register n c
  | .remove n => .remove n
  | .clear => .clear

theorem cb_inv (ops : List (CbOp C)) :
    CbMap.Distinct (ops.foldl cbStep []) ∧
      ∀ k x, (k, x) ∈ ops.foldl cbStep [] ↔ Spec.live k (ops.reverse.map CbOp.word) = some x := by
  induction ops using List.reverseRecOn with
  | nil => simp [CbMap.Distinct, Spec.live]
  | append_singleton ops o ih =>
    obtain ⟨h1, h2⟩ := ih
    rw [List.foldl_append, List.reverse_append, List.map_append]
    simp only [List.foldl_cons, List.foldl_nil, List.reverse_cons, List.reverse_nil, List.nil_append, List.map_cons,
      List.map_nil, List.singleton_append]
    cases o with
    | register n c =>
      refine ⟨insertOrAssign_distinct n c _ h1, fun k x => ?_⟩
      simp only [cbStep, registerCallback, CbOp.word, Spec.live]
      rw [insertOrAssign_mem n c _ h1]
      split
      · rw [Option.some.injEq]; exact eq_comm
      · exact h2 k x
    | remove n =>
      refine ⟨?_, fun k x => ?_⟩
      · exact List.Nodup.sublist (List.Sublist.map _ List.filter_sublist) h1
      · simp only [cbStep, removeCallback, CbOp.word, Spec.live, List.mem_filter, decide_eq_true_eq]
        rw [h2]
        split
        · rename_i h; simp [h]
        · rename_i h; simp [Ne.symm h]
    | clear => exact ⟨by simp [CbMap.Distinct, cbStep, clearCallbacks], by simp [cbStep, clearCallbacks, CbOp.word, Spec.live]⟩

/-- **C53, callbacks.**  After any sequence of operations, whatever the iteration order of the table: the callbacks that
are invoked are, without repetition of a name, exactly the pairs of a name and the callback that the history left live
under it; the names are those of the live callbacks; a look-up returns the live callback or a null pointer; and a
removal returns whether the name was live. -/
theorem C53_callbacks (ops : List (CbOp C)) (order : CbMap C) (ho : order.Perm (ops.foldl cbStep [])) :
    (getCallbackNames order).Nodup ∧
    (∀ k x, (k, x) ∈ order ↔ Spec.live k (ops.reverse.map CbOp.word) = some x) ∧
    (∀ k, k ∈ getCallbackNames order ↔ (Spec.live k (ops.reverse.map CbOp.word)).isSome) ∧
    (∀ k, getCallback order k = Spec.live k (ops.reverse.map CbOp.word)) ∧
    ∀ k, (removeCallback order k).2 = (Spec.live k (ops.reverse.map CbOp.word)).isSome := by
  obtain ⟨h1, h2⟩ := cb_inv ops
  have hm : ∀ k x, (k, x) ∈ order ↔ Spec.live k (ops.reverse.map CbOp.word) = some x := fun k x =>
    ho.mem_iff.trans (h2 k x)
  have hk : ∀ k, k ∈ getCallbackNames order ↔ (Spec.live k (ops.reverse.map CbOp.word)).isSome := by
    intro k
    rw [Option.isSome_iff_exists, getCallbackNames, List.mem_map]
    exact ⟨fun ⟨e, he, hek⟩ => ⟨e.2, (hm k e.2).1 (hek ▸ he)⟩, fun ⟨x, hx⟩ => ⟨(k, x), (hm k x).2 hx, rfl⟩⟩
  refine ⟨(ho.map _).nodup_iff.2 h1, hm, hk, fun k => ?_, fun k => ?_⟩
  · unfold getCallback
    cases hf : order.find? fun e => decide (e.1 = k) with
    | none =>
      rw [List.find?_eq_none] at hf
      cases hl : Spec.live k (ops.reverse.map CbOp.word) with
      | none => rfl
      | some x => exact absurd (hf _ ((hm k x).2 hl)) (by simp)
    | some e =>
      have he := List.find?_some hf
      simp only [decide_eq_true_eq] at he
      subst he
      exact ((hm e.1 e.2).1 (List.mem_of_find?_eq_some hf)).symm
  · rw [Bool.eq_iff_iff, ← hk]
    simp [removeCallback, getCallbackNames]

/-- **C53, each once.**  Callbacks that write a trace leave one entry per live name, and nothing else. -/
theorem C53_invoked_once (ops : List (CbOp C)) (order : CbMap C) (ho : order.Perm (ops.foldl cbStep [])) (t : List C) :
    ∃ names : List String, names.Nodup ∧ (∀ k, k ∈ names ↔ (Spec.live k (ops.reverse.map CbOp.word)).isSome) ∧
      (invokeCallbacks (fun c t => t ++ [c]) order t).map some
        = t.map some ++ names.map fun k => Spec.live k (ops.reverse.map CbOp.word) := by
  obtain ⟨h1, h2, h3, -⟩ := C53_callbacks ops order ho
  refine ⟨getCallbackNames order, h1, h3, ?_⟩
  have key : ∀ (l : CbMap C) (t : List C), invokeCallbacks (fun c t => t ++ [c]) l t = t ++ l.map (·.2) := by
    intro l
    induction l with
    | nil => simp [invokeCallbacks]
    | cons e l ih =>
      intro t
      have := ih (t ++ [e.2])
      unfold invokeCallbacks at this ⊢
      rw [List.foldl_cons, this]
      simp
  rw [key, List.map_append, getCallbackNames, List.map_map, List.map_map]
  congr 1
  exact List.map_congr_left fun e he => ((h2 e.1 e.2).1 he).symm

/-- **C53, order.**  If the effects of different callbacks commute, the result does not depend on the iteration order. -/
theorem C53_order_irrelevant {σ : Type} (call : C → σ → σ) (hc : ∀ a b s, call a (call b s) = call b (call a s))
    (o₁ o₂ : CbMap C) (h : o₁.Perm o₂) (s : σ) : invokeCallbacks call o₁ s = invokeCallbacks call o₂ s := by
  unfold invokeCallbacks
  exact h.foldl_eq' (fun x _ y _ z => hc y.2 x.2 z) s

/-- **C53, history.**  After the calls with the snapshots `rs`, in this order, the records are exactly the recorded
parts of `rs` in this order, for every combination of the flags. -/
theorem C53_history (pd vals prox : Bool) (rs : List (Snapshot X K)) :
    rs.foldl History.call (History.new pd vals prox) =
      { storePD := pd, storeValues := vals, isProx := prox
        xs := if pd then rs.map (·.xs) else []
        us := if pd then rs.map (·.us) else []
        values := if vals then rs.map (·.cost) else []
        merits := if vals then rs.map (·.merit) else []
        primInfeas := rs.map (·.primInfeas)
        dualInfeas := rs.map (·.dualInfeas)
        alIndex := rs.filterMap (·.alIter)
        primTols := if prox then rs.map (·.primTol) else []
        dualTols := if prox then rs.map (·.innerTol) else [] } := by
  induction rs using List.reverseRecOn with
  | nil => simp [History.new]
  | append_singleton rs r ih =>
    rw [List.foldl_append, ih]
    simp only [List.foldl_cons, List.foldl_nil, History.call]
    cases h : r.alIter <;> cases pd <;> cases vals <;> cases prox <;> simp [h]

/-- **C53, growth.**  Every call adds exactly one record. -/
theorem C53_history_grows_by_one (pd vals prox : Bool) (rs : List (Snapshot X K)) (r : Snapshot X K) :
    ((rs ++ [r]).foldl History.call (History.new pd vals prox)).primInfeas
      = (rs.foldl History.call (History.new pd vals prox)).primInfeas ++ [r.primInfeas] ∧
    ((rs ++ [r]).foldl History.call (History.new pd vals prox)).primInfeas.length = rs.length + 1 := by
  rw [C53_history, C53_history]
  simp

/-- A history with a replaced, a removed and a re-registered callback. -/
example : ∃ order : CbMap ℕ, order.Perm ([CbOp.register "a" 1, .register "b" 2, .register "a" 3, .remove "b",
    .register "c" 4].foldl cbStep []) ∧ invokeCallbacks (fun c t => t ++ [c]) order [] = [4, 3] :=
  ⟨[("c", 4), ("a", 3)], by
    simp only [List.foldl_cons, List.foldl_nil, cbStep, registerCallback, insertOrAssign, removeCallback]
    decide, rfl⟩

end Aligator.Reg
