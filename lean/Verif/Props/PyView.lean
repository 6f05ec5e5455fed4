import Verif.Lemmas.PyView
import Verif.Props.Blocks

/-!
# C87: elements and arrays handed to Python
-/

namespace Aligator.PyView

open Spec Aligator.Blocks Aligator.Reg

variable {α : Type}

/-! ### Elements by index or key -/

/-- **C87** `blockRow(i)` gives the rows of block `i` and all the columns, for every partition and every index below the
number of row blocks, and raises `IndexError` for the others. -/
theorem C87_block_row (rd cd : List ℕ) (st : ℕ → ℕ) (i : ℕ) :
    (i < rd.length → ∃ V, blockRow (mkLayout rd cd st) i = .ok V ∧ IsBlockRow rd cd i V ∧ V.stride = st rd.sum) ∧
    (rd.length ≤ i → blockRow (mkLayout rd cd st) i = .indexError) := by
  have hr := (C34_starts_tile rd).2
  have hc := (C34_starts_tile cd).2
  refine ⟨fun hi => ?_, fun hi => ?_⟩
  · have h1 := initLoop_get rd 0 i hi
    rw [Nat.zero_add] at h1
    refine ⟨⟨(rd.take i).sum, 0, rd[i], cd.sum, st rd.sum⟩, ?_, ⟨rfl, by simp [hi], rfl, rfl⟩, rfl⟩
    simp [blockRow, Answer.ofAccess, Layout.blockRow, mkLayout, h1, hi, hr, hc, Nat.not_le.2 hi]
  · simp [blockRow, mkLayout, hi]

/-- **C87** `blockCol(i)`, for every partition and every index: the columns of block `i` and all the rows if `i` is below
the number of row blocks *and* of column blocks; an access out of bounds if it is below the number of row blocks only;
`IndexError` in all the other cases, also when there is a block column `i`. -/
theorem C87_block_col (rd cd : List ℕ) (st : ℕ → ℕ) (i : ℕ) :
    (i < rd.length → i < cd.length →
      ∃ V, blockCol (mkLayout rd cd st) i = .ok V ∧ IsBlockCol rd cd i V ∧ V.stride = st rd.sum) ∧
    (i < rd.length → cd.length ≤ i → blockCol (mkLayout rd cd st) i = .undefined) ∧
    (rd.length ≤ i → blockCol (mkLayout rd cd st) i = .indexError) := by
  have hr := (C34_starts_tile rd).2
  have hc := (C34_starts_tile cd).2
  refine ⟨fun hi hj => ?_, fun hi hj => ?_, fun hi => ?_⟩
  · have h1 := initLoop_get cd 0 i hj
    rw [Nat.zero_add] at h1
    refine ⟨⟨0, (cd.take i).sum, rd.sum, cd[i], st rd.sum⟩, ?_, ⟨rfl, by simp [hj], rfl, rfl⟩, rfl⟩
    simp [blockCol, Answer.ofAccess, Layout.blockCol, mkLayout, h1, hj, hr, Nat.not_le.2 hi]
  · have h1 : (initLoop cd 0).1[i]? = none := List.getElem?_eq_none (by rw [initLoop_fst_length]; exact hj)
    simp [blockCol, Answer.ofAccess, Layout.blockCol, mkLayout, h1, Nat.not_le.2 hi]
  · simp [blockCol, mkLayout, hi]

/-- **C87** What is left of the property for block columns: with as many row blocks as column blocks, `blockCol(i)` gives
the block column or raises `IndexError`.  Missing: the other partitions (`C87_block_col_wrong`). -/
theorem C87_block_col_partial (rd cd : List ℕ) (st : ℕ → ℕ) (i : ℕ) (h : rd.length = cd.length) :
    (i < cd.length → ∃ V, blockCol (mkLayout rd cd st) i = .ok V ∧ IsBlockCol rd cd i V) ∧
    (cd.length ≤ i → blockCol (mkLayout rd cd st) i = .indexError) := by
  obtain ⟨h1, -, h3⟩ := C87_block_col rd cd st i
  refine ⟨fun hi => ?_, fun hi => h3 (by omega)⟩
  obtain ⟨V, e1, e2, -⟩ := h1 (by omega) hi
  exact ⟨V, e1, e2⟩

/-- **C87** (negation) The partitions for which `blockCol` is right for every index are those with as many row blocks as
column blocks: with more row blocks some index reads out of bounds, with fewer a block column cannot be reached. -/
theorem C87_block_col_wrong (rd cd : List ℕ) (st : ℕ → ℕ) :
    (cd.length < rd.length → ∃ i, blockCol (mkLayout rd cd st) i = .undefined) ∧
    (rd.length < cd.length → ∃ i, i < cd.length ∧ blockCol (mkLayout rd cd st) i = .indexError) :=
  ⟨fun h => ⟨cd.length, (C87_block_col rd cd st cd.length).2.1 h (Nat.le_refl _)⟩,
   fun h => ⟨rd.length, h, (C87_block_col rd cd st rd.length).2.2 (Nat.le_refl _)⟩⟩

/-- **C87** `m(i, j)` gives the block, for the indices of a block; any other pair of indices is an access out of bounds:
there is no exception. -/
theorem C87_call (rd cd : List ℕ) (st : ℕ → ℕ) (i j : ℕ) :
    (i < rd.length → j < cd.length → ∃ V, call (mkLayout rd cd st) i j = .ok V ∧ IsBlock rd cd i j V ∧ V.stride = st rd.sum) ∧
    (¬ (i < rd.length ∧ j < cd.length) → call (mkLayout rd cd st) i j = .undefined) := by
  have hr := (C34_starts_tile rd).2
  refine ⟨fun hi hj => ?_, fun h => ?_⟩
  · have h1 := initLoop_get rd 0 i hi
    have h2 := initLoop_get cd 0 j hj
    rw [Nat.zero_add] at h1 h2
    refine ⟨⟨(rd.take i).sum, (cd.take j).sum, rd[i], cd[j], st rd.sum⟩, ?_, ⟨rfl, by simp [hi], rfl, by simp [hj]⟩, rfl⟩
    simp [call, Answer.ofAccess, Layout.block, mkLayout, h1, h2, hi, hj, hr]
  · have : (mkLayout rd cd st).block i j = none := by
      by_cases hi : i < rd.length
      · have hj : cd.length ≤ j := by
          by_contra e
          exact h ⟨hi, by omega⟩
        have h2 : (initLoop cd 0).1[j]? = none := List.getElem?_eq_none (by rw [initLoop_fst_length]; exact hj)
        simp [Layout.block, mkLayout, h2]
      · have h1 : (initLoop rd 0).1[i]? = none :=
          List.getElem?_eq_none (by rw [initLoop_fst_length]; omega)
        simp [Layout.block, mkLayout, h1]
    simp [call, Answer.ofAccess, this]

/-- Sixteen rows in four row blocks and one column (the block vectors of the LQR code): `blockCol(0)` is the vector,
`blockCol(1)` reads out of bounds, `blockCol(4)` raises; `blockRow(1)` is the second segment. -/
example : blockCol (mkLayout [4, 4, 2, 6] [1] id) 0 = .ok ⟨0, 0, 16, 1, 16⟩ ∧
    blockCol (mkLayout [4, 4, 2, 6] [1] id) 1 = .undefined ∧ blockCol (mkLayout [4, 4, 2, 6] [1] id) 4 = .indexError ∧
    blockRow (mkLayout [4, 4, 2, 6] [1] id) 1 = .ok ⟨4, 0, 4, 1, 16⟩ ∧
    blockCol (mkLayout [3, 2] [3, 2] id) 1 = .ok ⟨0, 3, 5, 2, 5⟩ ∧ call (mkLayout [3, 2] [3, 2] id) 1 0 = .ok ⟨3, 0, 2, 3, 5⟩ ∧
    call (mkLayout [3, 2] [3, 2] id) 2 0 = .undefined := ⟨rfl, rfl, rfl, rfl, rfl, rfl, rfl⟩

/-- **C87** A component of a product by index, a cost of a stack by key, a callback by name: the element if it is there, the
exception if it is not; never an access out of bounds. -/
theorem C87_elements {β κ C : Type} [DecidableEq κ] (l : List β) (i : ℕ) (m : List (κ × β)) (hm : (m.map (·.1)).Nodup)
    (k : κ) (cbs : CbMap C) (hcb : (cbs.map (·.1)).Nodup) (name : String) :
    (∀ b, getComponent l i = .ok b ↔ l[i]? = some b) ∧ (getComponent l i = .indexError ↔ l.length ≤ i) ∧
    getComponent l i ≠ .undefined ∧
    (∀ b, getCost m k = .ok b ↔ (k, b) ∈ m) ∧ (getCost m k = .keyError ↔ k ∉ m.map (·.1)) ∧ getCost m k ≠ .undefined ∧
    (∀ c, getCallback cbs name = .ok c ↔ (name, c) ∈ cbs) ∧ (getCallback cbs name = .keyError ↔ name ∉ cbs.map (·.1)) ∧
    getCallback cbs name ≠ .undefined := by
  have find : ∀ {κ β : Type} [DecidableEq κ] (m : List (κ × β)), (m.map (·.1)).Nodup → ∀ (k : κ) (b : β),
      (k, b) ∈ m → m.find? (fun e => decide (e.1 = k)) = some (k, b) := by
    intro κ β _ m
    induction m with
    | nil => intro _ k b h; simp at h
    | cons e m ih =>
      intro hm k b h
      simp only [List.map_cons, List.nodup_cons] at hm
      rcases List.mem_cons.1 h with g | g
      · subst g; simp
      · have : e.1 ≠ k := fun e' => hm.1 (e' ▸ List.mem_map_of_mem (f := (·.1)) g)
        rw [List.find?_cons_of_neg (by simpa using this)]
        exact ih hm.2 k b g
  have keys : ∀ {κ β : Type} [DecidableEq κ] (m : List (κ × β)), (m.map (·.1)).Nodup → ∀ (k : κ),
      (∀ b, getCost m k = .ok b ↔ (k, b) ∈ m) ∧ (getCost m k = .keyError ↔ k ∉ m.map (·.1)) ∧
      getCost m k ≠ .undefined := by
    intro κ β _ m hm k
    unfold getCost
    cases hf : m.find? (fun e => decide (e.1 = k)) with
    | none =>
      have hno : k ∉ m.map (·.1) := fun h => by
        obtain ⟨e, he, hk⟩ := List.mem_map.1 h
        have := List.find?_eq_none.1 hf e he
        simp [hk] at this
      refine ⟨fun b => ⟨fun h => by simp at h, fun h => absurd (List.mem_map_of_mem (f := (·.1)) h) hno⟩, by simpa using hno, by simp⟩
    | some e =>
      have he := List.mem_of_find?_eq_some hf
      have hk : e.1 = k := by simpa using List.find?_some hf
      subst hk
      refine ⟨fun b => ⟨fun h => ?_, fun h => ?_⟩, ?_, by simp⟩
      · simp only [Answer.ok.injEq] at h
        subst h; exact he
      · have := find m hm e.1 b h
        rw [hf] at this
        simp only [Option.some.injEq] at this
        rw [this]
      · simp only [reduceCtorEq, false_iff, not_not]
        exact List.mem_map_of_mem (f := (·.1)) he
  have hcall : getCallback cbs name = getCost cbs name := by
    unfold getCallback getCost Reg.getCallback
    cases cbs.find? (fun e => decide (e.1 = name)) <;> rfl
  obtain ⟨k1, k2, k3⟩ := keys m hm k
  obtain ⟨k4, k5, k6⟩ := keys cbs hcb name
  rw [hcall]
  refine ⟨fun b => ?_, ?_, ?_, k1, k2, k3, k4, k5, k6⟩
  · unfold getComponent
    by_cases h : l.length ≤ i
    · rw [if_pos h, List.getElem?_eq_none h]; simp
    · rw [if_neg h, List.getElem?_eq_getElem (by omega)]; simp [Answer.ofAccess]
  · unfold getComponent
    by_cases h : l.length ≤ i
    · rw [if_pos h]; simp [h]
    · rw [if_neg h, List.getElem?_eq_getElem (by omega)]; simp [Answer.ofAccess, h]
  · unfold getComponent
    by_cases h : l.length ≤ i
    · rw [if_pos h]; simp
    · rw [if_neg h, List.getElem?_eq_getElem (by omega)]; simp [Answer.ofAccess]

example : getComponent ["SE3", "R3"] 1 = .ok "R3" ∧ getComponent ["SE3", "R3"] 2 = .indexError ∧
    getCost [(0, "state"), (1, "control")] 1 = .ok "control" ∧ getCost [(0, "state"), (1, "control")] 2 = .keyError :=
  ⟨rfl, rfl, rfl, rfl⟩

/-! ### Arrays -/

theorem rel_init (junk : ℕ → ℕ → α) (n : ℕ) : Rel (State.init n) (Ideal.init junk n) :=
  ⟨rfl, rfl, fun o b h => by simp [State.init] at h⟩

/-- **C87** Every program on any number of objects, names and arrays shows what it would show if memory were never
released, provided it looks at the memory of an object only while something holds the object; otherwise it reads or writes
the memory of a destroyed object. -/
theorem C87_arrays (junk : ℕ → ℕ → α) (n : ℕ) (ops : List (Op α)) :
    ((Ideal.init junk n).Safe ops → (run (State.init n) ops).map (·.2) = some ((Ideal.init junk n).run ops)) ∧
    (¬ (Ideal.init junk n).Safe ops → run (State.init n) ops = none) := by
  obtain ⟨h1, h2⟩ := run_spec ops (Inv.init n) (rel_init junk n)
  refine ⟨fun h => ?_, h2⟩
  obtain ⟨s, e, -⟩ := h1 h
  rw [e]; rfl

/-- **C87** A program that takes its arrays from `jac_buffer`, `vhp_buffer` and the Hessians of the dynamics (accessors tied
to the object) never reads the memory of a destroyed object, whatever it does with names and objects. -/
theorem C87_tied_arrays (junk : ℕ → ℕ → α) (n : ℕ) (ops : List (Op α))
    (h : ∀ op ∈ ops, Only (fun a => a = .functionBuffer ∨ a = .dynamicsBuffer) op) :
    (run (State.init n) ops).map (·.2) = some ((Ideal.init junk n).run ops) := by
  refine (C87_arrays junk n ops).1 (AllKept.safe ops ?_ fun op hop => ?_)
  · intro o pos hm
    simp [Ideal.init] at hm
  · have := h op hop
    cases op <;> simp only [Only] at this ⊢
    rcases this with e | e <;> subst e <;> rfl

/-- **C87** A program that takes its other arrays from an object with a name it never rebinds is right as well. -/
theorem C87_named_owner (junk : ℕ → ℕ → α) (n x : ℕ) (hx : x < n) (buf : ℕ → α) (ops : List (Op α))
    (h : ∀ op ∈ ops, Guarded x op) :
    (run (State.init n) (.new x buf :: ops)).map (·.2) = some ((Ideal.init junk n).run (.new x buf :: ops)) := by
  refine (C87_arrays junk n _).1 ⟨fun o ho => by simp [Ideal.touched] at ho, ?_⟩
  refine KeptBut.safe (x := x) (o := 0) ops ?_ h
  simp only [Ideal.step, Ideal.create, Ideal.init, List.length_replicate, if_pos hx]
  refine ⟨by simp [hx], fun o pos hm => ?_⟩
  rcases List.mem_or_eq_of_mem_set hm with g | g
  · simp at g
  · simp at g

/-- **C87** (negation) For the other accessors — the derivatives in `CostData`, `StageFunctionData`, `DynamicsData` and
`ExplicitDynamicsData`, the blocks of a block matrix — `a = Data(…).Lx` followed by `a[p]` reads the memory of a destroyed
object: for every accessor, content and entry.  With a tied accessor it shows the entry. -/
theorem C87_untied_array (a : Attr) (buf : ℕ → α) (pos : ℕ → ℕ) (p : ℕ) :
    (a ≠ .functionBuffer → a ≠ .dynamicsBuffer →
      run (State.init 2) [.new 0 buf, .get 1 0 a pos, .del 0, .read 1 p] = none) ∧
    (a = .functionBuffer ∨ a = .dynamicsBuffer →
      (run (State.init 2) [.new 0 buf, .get 1 0 a pos, .del 0, .read 1 p]).map (·.2) =
        some [.nothing, .nothing, .nothing, .value (buf (pos p))]) := by
  refine ⟨fun h1 h2 => (C87_arrays (fun _ => buf) 2 _).2 fun h => ?_, fun h => ?_⟩
  · have hk : a.keep = false := by cases a <;> first | rfl | exact absurd rfl h1 | exact absurd rfl h2
    have := h.2.2.2.1 0 (by simp [Ideal.touched, Ideal.step, Ideal.init, Ideal.create, Ideal.bindTo, Ideal.var, viewOwner])
    simp [Held, Ideal.step, Ideal.init, Ideal.create, Ideal.bindTo, Ideal.var, hk] at this
  · rw [C87_tied_arrays (fun _ => buf) 2 _ (by
      intro op hop
      simp only [List.mem_cons, List.not_mem_nil, or_false] at hop
      rcases hop with e | e | e | e <;> subst e <;> simp [Only, h])]
    simp [Ideal.run, Ideal.step, Ideal.init, Ideal.create, Ideal.bindTo, Ideal.var]

/-- **C87** No leak: after a program that ends, an object is alive exactly if a name refers to it or to an array tied to
it. -/
theorem C87_released [Nonempty α] (n : ℕ) (ops : List (Op α)) (s : State α) (out : List (Seen α))
    (h : run (State.init n) ops = some (s, out)) (o : ℕ) : s.heap o ≠ none ↔ Held s.vars o := by
  obtain ⟨a⟩ := ‹Nonempty α›
  obtain ⟨h1, h2⟩ := run_spec ops (Inv.init n) (rel_init (fun _ _ => a) n)
  by_cases hs : (Ideal.init (fun _ _ => a) n).Safe ops
  · obtain ⟨s', e, hI⟩ := h1 hs
    rw [h] at e
    simp only [Option.some.injEq, Prod.mk.injEq] at e
    rw [e.1]
    exact hI.alive
  · rw [h2 hs] at h; simp at h

/-- Two arrays of the same object, one tied: a write through one is seen through the other, a method of the library that
fills the object is seen through both, the untied array can still be read after `del` because the tied one holds the
object, and a copy survives everything. -/
def session : List (Op ℕ) :=
  [.new 0 (fun q => q), .get 1 0 .functionDerivative (· + 2), .get 2 0 .functionBuffer id, .write 2 3 7, .read 1 1,
   .call 0 (fun m q => m q + 10), .read 1 1, .copy 3 1, .del 0, .read 1 0, .del 2, .read 3 0]

example : (run (State.init 4) session).map (·.2) =
    some [.nothing, .nothing, .nothing, .nothing, .value 7, .nothing, .value 17, .nothing, .nothing, .value 12, .nothing,
      .value 12] ∧
    run (State.init 4) (session ++ [.read 1 0]) = none := ⟨rfl, rfl⟩

/-- The session is safe, and it is not if the untied array is read once more. -/
example (junk : ℕ → ℕ → ℕ) : (Ideal.init junk 4).Safe session ∧ ¬ (Ideal.init junk 4).Safe (session ++ [.read 1 0]) := by
  obtain ⟨-, h2⟩ := C87_arrays junk 4 session
  obtain ⟨h3, -⟩ := C87_arrays junk 4 (session ++ [.read 1 0])
  refine ⟨?_, fun h => ?_⟩
  · by_contra h
    exact absurd (congrArg Option.isSome (h2 h)) (by decide)
  · have e : run (State.init 4) (session ++ [.read 1 0]) = none := rfl
    simpa [e] using h3 h

/-- Programs that meet the hypotheses of `C87_tied_arrays` and `C87_named_owner`: an array tied to an object that is
dropped and created again, and untied arrays of an object that keeps its name. -/
example : (∀ op ∈ ([.new 0 (fun q => q), .get 1 0 .dynamicsBuffer id, .new 0 (fun _ => 5), .read 1 4] : List (Op ℕ)),
      Only (fun a => a = .functionBuffer ∨ a = .dynamicsBuffer) op) ∧
    (∀ op ∈ ([.get 1 0 .costDerivative id, .slice 2 1 (· + 1), .del 1, .write 2 0 9, .read 2 0] : List (Op ℕ)),
      Guarded 0 op) ∧
    (run (State.init 3) ([.new 0 (fun q => q), .get 1 0 .costDerivative id, .slice 2 1 (· + 1), .del 1, .write 2 0 9,
      .read 2 0] : List (Op ℕ))).map (·.2) = some [.nothing, .nothing, .nothing, .nothing, .nothing, .value 9] := by
  refine ⟨by simp [Only], fun op hop => ?_, rfl⟩
  simp only [List.mem_cons, List.not_mem_nil, or_false] at hop
  rcases hop with e | e | e | e | e <;> subst e <;> refine ⟨by simp [target], fun x' y a pos e => ?_⟩ <;>
    simp only [Op.get.injEq, reduceCtorEq] at e
  exact Or.inr e.2.1.symm

end Aligator.PyView
