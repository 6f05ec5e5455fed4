import Verif.Model.SolverSets
import Verif.Spec.SolverSets

/-!
# The constraint sets used by a run (C88)
-/

namespace Aligator.SSets

open Spec

variable {S : Type}

/-- The calls of the library behind a call of the client. -/
def ops : Call S → List (Op S)
  | .setup => [.setup]
  | .edit i s => [.edit i s]
  | .editTerm s => [.editTerm s]
  | .shift s => [.replace s, .cycle]
  | .run => [.run]

/-- The state of the library that belongs to a book. -/
def Book.state (b : Book S) : State S :=
  ⟨⟨b.stages.map (·.1), b.term.1⟩, some ⟨b.stages.length, b.stages.map (·.2) ++ [b.term.2]⟩⟩

theorem exec_append (st : State S) (a b : List (Op S)) :
    exec st (a ++ b) = (exec st a).bind fun r => (exec r.1 b).map fun q => (q.1, r.2 ++ q.2) := by
  induction a generalizing st with
  | nil => simp [exec]
  | cons o a ih =>
    simp only [List.cons_append, exec]
    cases step st o with
    | none => rfl
    | some r =>
      simp only [bind, Option.bind, ih]
      cases exec r.1 a with
      | none => rfl
      | some q =>
        simp only [Option.bind, pure]
        cases exec q.1 b with
        | none => rfl
        | some t => simp

theorem rotateLeft_cons {α : Type} (a : α) (l t : List α) : rotateLeft (a :: l ++ t) t.length = l ++ [a] ++ t := by
  have h : (a :: l ++ t).length - t.length = (a :: l).length := by simp; omega
  simp only [rotateLeft, h, List.take_left, List.drop_left]
  rfl

theorem call_state (b : Book S) (hb : b.stages ≠ []) (c : Call S) (hc : ∀ i s, c = .edit i s → i < b.stages.length) :
    exec (Book.state b) (ops c) = some (Book.state (b.call c),
      match c with | .run => [b.stages.map (·.2) ++ [b.term.2]] | _ => []) := by
  cases c with
  | setup => simp [ops, exec, step, Book.state, Book.call, Ws.create, Function.comp_def]
  | edit i s =>
    have hi := hc i s rfl
    have e1 : (b.stages.modify i fun p => (s, p.2)).map (·.1) = (b.stages.map (·.1)).set i s := by
      apply List.ext_getElem?
      intro k
      simp only [List.getElem?_map, List.getElem?_modify, List.getElem?_set, List.length_map]
      by_cases h : i = k
      · subst h; simp [hi]
      · simp [h]
    have e2 : (b.stages.modify i fun p => (s, p.2)).map (·.2) = b.stages.map (·.2) := by
      apply List.ext_getElem?
      intro k
      simp only [List.getElem?_map, List.getElem?_modify]
      by_cases h : i = k
      · subst h; simp [hi]
      · simp [h]
    simp [ops, exec, step, Book.state, Book.call, hi, e1, e2]
  | editTerm s => simp [ops, exec, step, Book.state, Book.call]
  | shift s =>
    obtain ⟨p, l, hl⟩ := List.exists_cons_of_ne_nil hb
    have e1 : rotateLeft (p.1 :: l.map (·.1) ++ [s]) 0 = l.map (·.1) ++ [s] ++ [p.1] := by
      have := rotateLeft_cons p.1 (l.map (·.1) ++ [s]) []
      simpa using this
    have e2 : rotateLeft (p.2 :: l.map (·.2) ++ [b.term.2]) 1 = l.map (·.2) ++ [p.2] ++ [b.term.2] :=
      rotateLeft_cons p.2 (l.map (·.2)) [b.term.2]
    simp only [List.cons_append] at e1 e2
    simp [ops, exec, step, Book.state, Book.call, hl, Prob.replaceStageCircular, Ws.cycleAppend, e1, e2]
    rw [if_pos (by omega)]
    rfl
  | run => simp [ops, exec, step, Book.state, Book.call]

theorem call_length (b : Book S) (hb : b.stages ≠ []) (c : Call S) : (b.call c).stages.length = b.stages.length := by
  have : 0 < b.stages.length := List.length_pos_iff.2 hb
  cases c <;> simp [Book.call]
  omega

/-- **C88, the sets in use.**  For every problem with at least one stage and every program of set ups, changes of sets,
shifts and runs, nothing is accessed out of bounds and every run projects with the sets in the second column of the book:
those a stage had at the last set up, or when it was shifted in later, and the terminal sets of the last set up. -/
theorem C88_sets_in_use (b : Book S) (hb : b.stages ≠ []) (cs : List (Call S)) (hv : Valid b.stages.length cs) :
    ∃ st, exec (Book.state b) (cs.flatMap ops) = some (st, (b.runs cs).map fun l => l.map (·.2)) := by
  induction cs generalizing b with
  | nil => exact ⟨_, rfl⟩
  | cons c cs ih =>
    have hl := call_length b hb c
    have hne : (b.call c).stages ≠ [] := by
      intro h
      rw [h] at hl
      exact hb (List.length_eq_zero_iff.1 hl.symm)
    obtain ⟨st, h⟩ := ih (b.call c) hne (by
      rw [hl]
      exact fun d hd => hv d (List.mem_cons_of_mem _ hd))
    rw [List.flatMap_cons, exec_append, call_state b hb c (fun i s e => hv c (List.mem_cons_self ..) i s e)]
    simp only [Option.bind, h, Option.map_some]
    refine ⟨st, ?_⟩
    cases c <;> simp [Book.runs, Book.call]

/-- **C88 for careful clients** (`_partial`: the full claim would need no set up after a change).  If the solver is set up
again after every change before it runs, every run projects with the sets that the problem holds at that time, also after
any number of shifts. -/
theorem C88_current_sets_partial (P : Prob S) (hP : P.stages ≠ []) (cs : List (Call S)) (hv : Valid P.stages.length cs)
    (hc : Careful false cs) (ws : Option (Ws S)) :
    ∃ (b : Book S) (st : State S), b.stages = P.stages.map (fun s => (s, s)) ∧ b.term = (P.term, P.term) ∧
      exec ⟨P, ws⟩ (.setup :: cs.flatMap ops) = some (st, (b.runs cs).map fun l => l.map (·.1)) := by
  let b : Book S := ⟨P.stages.map (fun s => (s, s)), (P.term, P.term)⟩
  have hb : b.stages ≠ [] := by simpa [b] using hP
  obtain ⟨st, h⟩ := C88_sets_in_use b hb cs (by simpa [b] using hv)
  have e : Book.state b = ⟨P, some (Ws.create P)⟩ := by
    simp [Book.state, b, Ws.create, Function.comp_def]
  have key : ∀ (cs : List (Call S)) (d : Bool) (b : Book S), Careful d cs →
      (d = false → (∀ p ∈ b.stages, p.1 = p.2) ∧ b.term.1 = b.term.2) → ∀ l ∈ b.runs cs, ∀ p ∈ l, p.1 = p.2 := by
    intro cs
    induction cs with
    | nil => intro _ _ _ _ l hl; simp [Book.runs] at hl
    | cons c cs ih =>
      intro d b hc hd
      cases c with
      | setup => exact ih false _ hc (fun _ => ⟨by
          intro p hp
          simp only [Book.call, List.mem_map] at hp
          obtain ⟨q, _, rfl⟩ := hp
          rfl, rfl⟩)
      | edit i s => exact ih true _ hc (fun h => by simp at h)
      | editTerm s => exact ih true _ hc (fun h => by simp at h)
      | shift s =>
        refine ih d _ hc (fun h => ⟨fun p hp => ?_, (hd h).2⟩)
        simp only [Book.call, List.mem_append, List.mem_singleton] at hp
        rcases hp with hp | rfl
        · exact (hd h).1 p (List.mem_of_mem_tail hp)
        · rfl
      | run =>
        obtain ⟨h1, h2⟩ := hc
        intro l hl
        simp only [Book.runs, List.mem_cons] at hl
        rcases hl with rfl | hl
        · intro p hp
          simp only [List.mem_append, List.mem_singleton] at hp
          rcases hp with hp | rfl
          · exact (hd h1).1 p hp
          · exact (hd h1).2
        · exact ih d b h2 hd l hl
  refine ⟨b, st, rfl, rfl, ?_⟩
  rw [exec]
  simp only [step, bind, Option.bind, ← e, h, pure, List.nil_append]
  have h2 := key cs false b hc (fun _ => ⟨by simp [b], rfl⟩)
  have h3 : (b.runs cs).map (fun l => l.map (·.2)) = (b.runs cs).map fun l => l.map (·.1) :=
    List.map_congr_left fun l hl => List.map_congr_left fun p hp => (h2 l hl p hp).symm
  rw [h3]

/-- **C88 is violated**: a change of the sets of a stage or of the terminal node after set up has no effect on the runs
that follow, for every problem, stage and new sets; terminal sets stay in use through any number of shifts. -/
theorem C88_changes_ignored (P : Prob S) (hP : P.stages ≠ []) (ws : Option (Ws S)) :
    (∀ i s, i < P.stages.length →
      (exec ⟨P, ws⟩ [.setup, .edit i s, .run]).map (·.2) = some [P.stages ++ [P.term]]) ∧
    (∀ s (news : List S), ∃ st u,
      exec ⟨P, ws⟩ (.setup :: .editTerm s :: ((news.map Call.shift).flatMap ops ++ [.run])) = some (st, [u ++ [P.term]]) ∧
      st.prob.term = s) := by
  constructor
  · intro i s hi
    simp [exec, step, hi, Ws.create]
  · intro s news
    let b : Book S := ⟨P.stages.map (fun s => (s, s)), (s, P.term)⟩
    have e : exec ⟨P, ws⟩ (.setup :: .editTerm s :: ((news.map Call.shift).flatMap ops ++ [.run])) =
        exec (Book.state b) ((news.map Call.shift).flatMap ops ++ [.run]) := by
      simp only [exec, step, Book.state, b, Ws.create, List.map_map, Function.comp_def, List.map_id', List.length_map, bind, Option.bind,
        pure, List.nil_append]
      cases exec (S := S) ⟨⟨P.stages, s⟩, some ⟨P.stages.length, P.stages ++ [P.term]⟩⟩
        ((news.map Call.shift).flatMap ops ++ [.run]) <;> rfl
    have key : ∀ (news : List S) (b : Book S), b.stages ≠ [] → ∃ b' : Book S, b'.term = b.term ∧
        exec (Book.state b) ((news.map Call.shift).flatMap ops) = some (Book.state b', []) := by
      intro news
      induction news with
      | nil => intro b _; exact ⟨b, rfl, rfl⟩
      | cons n news ih =>
        intro b hb
        have hl := call_length b hb (.shift n)
        obtain ⟨b', h1, h2⟩ := ih (b.call (.shift n)) (by
          intro h
          rw [h] at hl
          exact hb (List.length_eq_zero_iff.1 hl.symm))
        refine ⟨b', h1, ?_⟩
        rw [List.map_cons, List.flatMap_cons, exec_append, call_state b hb (.shift n) (by simp)]
        simp [h2]
    obtain ⟨b', h1, h2⟩ := key news b (by simpa [b] using hP)
    refine ⟨Book.state b', b'.stages.map (·.2), ?_, ?_⟩
    · rw [e, exec_append, h2]
      simp [exec, step, Book.state, h1, b]
    · simp [Book.state, h1, b]

/-- A careful program on a problem with two stages. -/
example : (exec ⟨⟨[10, 20], 30⟩, none⟩ [.setup, .run, .edit 1 21, .setup, .run, .replace 40, .cycle, .run]).map (·.2) =
    some [[10, 20, 30], [10, 21, 30], [21, 40, 30]] := by decide

/-- The hypotheses of `C88_current_sets_partial` are met. -/
example : Valid 2 [.run, .edit 1 21, .setup, .run, .shift 40, .run] ∧
    Careful false [.run, .edit 1 21, .setup, .run, .shift 40, .run] := by
  constructor
  · intro c hc i s e
    subst e
    simp at hc
    omega
  · simp [Careful]

end Aligator.SSets
