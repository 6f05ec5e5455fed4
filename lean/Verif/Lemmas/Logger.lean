import Verif.Spec.Logger

/-! # Lemmas: the logger -/

namespace Aligator.Log

variable {V : Type*}

/-- The logger holds the table: every key is a literal, or lies in the present buffer of names if a row had a hole. -/
structure Agrees (s : St) (a : Table) : Prop where
  active : s.active = a.active
  names : s.names = a.cols
  out : s.out = a.out
  spec : ∀ t, find s.specs t = a.spec t
  value : ∀ t, find s.line t = a.value t
  specKeys : ∀ e ∈ s.specs, e.1.owner = .lit
  lineKeys : ∀ e ∈ s.line, e.1.owner = .lit ∨ (e.1.owner = .cell s.gen ∧ a.holes = true)
  specced : ∀ n ∈ a.cols, (a.spec n).isSome

theorem find_append {β : Type*} (m : List (Key × β)) (k : Key) (b : β) (t : String) :
    find (m ++ [(k, b)]) t = if t = k.text ∧ (find m k.text).isNone then some b else find m t := by
  unfold find
  rw [List.find?_append]
  cases e : m.find? (fun e => e.1.text == t) with
  | some x =>
    by_cases h : t = k.text
    · subst h; simp [e]
    · simp [h]
  | none =>
    by_cases h : t = k.text
    · subst h; simp [e]
    · have h' : ¬ k.text = t := fun q => h q.symm
      simp [h, h']

theorem find_put {β : Type*} (m : List (Key × β)) (k : Key) (b : β) (t : String) :
    find (put m k b) t = if t = k.text then some b else find m t := by
  unfold put
  split
  · rename_i h
    clear * - h
    unfold find at *
    rw [List.find?_map]
    have c : ((fun e : Key × β => e.1.text == t) ∘ fun e => if e.1.text = k.text then (e.1, b) else e)
        = fun e => e.1.text == t := by
      funext e; simp only [Function.comp]; split <;> rfl
    rw [c]
    cases e : m.find? (fun e => e.1.text == t) with
    | none =>
      by_cases ht : t = k.text
      · subst ht; simp [e] at h
      · simp [ht]
    | some x =>
      have hx : x.1.text = t := by simpa using List.find?_some e
      by_cases ht : t = k.text
      · simp [ht, hx]
      · simp [ht, hx]
  · rename_i h
    rw [find_append]
    have : (find m k.text).isNone := by simpa using h
    simp [this]

theorem put_keys {β : Type*} {m : List (Key × β)} {k : Key} {b : β} {p : Key → Prop} (hm : ∀ e ∈ m, p e.1) (hk : p k) :
    ∀ e ∈ put m k b, p e.1 := by
  intro e he
  unfold put at he
  split at he
  · obtain ⟨x, hx, rfl⟩ := List.mem_map.mp he
    split
    · exact hm x hx
    · exact hm x hx
  · rcases List.mem_append.mp he with h | h
    · exact hm e h
    · simp at h; subst h; exact hk

theorem probe_alive {β : Type*} (env : Env V) (s : St) (m : List (Key × β)) (t : String)
    (h : ∀ e ∈ m, s.alive e.1 = true) : probe env s m t = true := by
  unfold probe
  rw [List.all_eq_true]
  intro e he
  simp [h e he]

theorem Agrees.specAlive {s : St} {a : Table} (h : Agrees s a) : ∀ e ∈ s.specs, s.alive e.1 = true := by
  intro e he; simp [St.alive, h.specKeys e he]

theorem Agrees.lineAlive {s : St} {a : Table} (h : Agrees s a) : ∀ e ∈ s.line, s.alive e.1 = true := by
  intro e he
  rcases h.lineKeys e he with q | q
  · simp [St.alive, q]
  · simp [St.alive, q.1]

theorem headLoop_eq (env : Env V) (s : St) (f : String → Option (ℕ × String)) (hf : ∀ t, find s.specs t = f t)
    (ha : ∀ e ∈ s.specs, s.alive e.1 = true) (ns : List String) (hn : ∀ n ∈ ns, (f n).isSome) :
    headLoop env ns s = some (ns.map fun n => (n, ((f n).getD (0, "")).1 + 1), s) := by
  induction ns with
  | nil => rfl
  | cons n ns ih =>
    have h1 := hn n (by simp)
    rw [headLoop, if_neg (by simp [probe_alive env s s.specs n ha])]
    dsimp only
    rw [hf, if_pos h1, ih fun m hm => hn m (by simp [hm])]
    rfl

/-- The loop of `log` prints the values, leaves an empty string for each hole, with a key in the present buffer. -/
theorem logLoop_eq (env : Env V) (ns : List String) (s : St) (ha : ∀ e ∈ s.line, s.alive e.1 = true) :
    ∃ l, logLoop env ns s = some (ns.map fun n => (find s.line n).getD "", { s with line := l }) ∧
      (∀ t, find l t = if t ∈ ns ∧ (find s.line t).isNone then some "" else find s.line t) ∧
      ∀ e ∈ l, e ∈ s.line ∨ (e.1.owner = .cell s.gen ∧ e.1.text ∈ ns ∧ (find s.line e.1.text).isNone) := by
  induction ns generalizing s with
  | nil => exact ⟨s.line, rfl, by simp, fun e he => Or.inl he⟩
  | cons n ns ih =>
    rw [logLoop, if_neg (by simp [probe_alive env s s.line n ha])]
    dsimp only
    cases hs : (find s.line n).isSome with
    | true =>
      rw [if_pos rfl]
      obtain ⟨l, h1, h2, h3⟩ := ih s ha
      refine ⟨l, by rw [h1]; rfl, fun t => ?_, fun e he => ?_⟩
      · rw [h2]
        by_cases ht : t = n
        · subst ht
          have : (find s.line t).isNone = false := by simpa using hs
          simp [this]
        · simp [ht]
      · rcases h3 e he with q | q
        · exact Or.inl q
        · exact Or.inr ⟨q.1, by simp [q.2.1], q.2.2⟩
    | false =>
      rw [if_neg (by simp)]
      have hnone : find s.line n = none := by simpa using hs
      obtain ⟨l, h1, h2, h3⟩ := ih { s with line := s.line ++ [(⟨.cell s.gen, n⟩, "")] } (by
        intro e he
        rcases List.mem_append.mp he with h | h
        · exact ha e h
        · simp at h; subst h; simp [St.alive])
      have fa : ∀ t, find (s.line ++ [((⟨.cell s.gen, n⟩ : Key), "")]) t = if t = n then some "" else find s.line t := by
        intro t
        rw [find_append]
        simp [hnone]
      refine ⟨l, ?_, fun t => ?_, fun e he => ?_⟩
      · rw [h1]
        simp only [List.map_cons, hnone, Option.some.injEq, Prod.mk.injEq, and_true, Option.getD_none, List.cons.injEq,
          true_and]
        apply List.map_congr_left
        intro m _
        rw [fa]
        split
        · rename_i q; subst q; simp [hnone]
        · rfl
      · rw [h2, fa]
        by_cases ht : t = n
        · subst ht; simp [hnone]
        · simp [ht]
      · rcases h3 e he with q | q
        · rcases List.mem_append.mp q with h | h
          · exact Or.inl h
          · simp at h; subst h; right; simp [hnone]
        · refine Or.inr ⟨q.1, by simp [q.2.1], ?_⟩
          have := q.2.2
          rw [fa] at this
          split at this
          · simp at this
          · exact this

theorem fill_append {β : Type*} {m : List (Key × β)} {f : String → Option β} (hf : ∀ t, find m t = f t) (k : Key)
    (b : β) : ∀ t, find (if (find m k.text).isSome then m else m ++ [(k, b)]) t = fill f k.text b t := by
  intro t
  unfold fill
  split
  · rename_i h
    have : (f k.text).isNone = false := by rw [← hf]; simpa using h
    simp [this, hf]
  · rw [find_append, hf, hf]

theorem fill_isSome {β : Type*} {f : String → Option β} {t u : String} {b : β} (h : (f u).isSome) :
    (fill f t b u).isSome := by
  unfold fill; split <;> simp [h]

theorem fill_self {β : Type*} (f : String → Option β) (t : String) (b : β) : (fill f t b t).isSome := by
  unfold fill
  cases h : f t <;> simp [h]

theorem step_agrees (env : Env V) {s : St} {a a' : Table} {o : Op V} (h : Agrees s a)
    (ha : a.step env.render o = some a') : ∃ s', Log.step env s o = .ok s' ∧ Agrees s' a' := by
  cases o with
  | addColumn k w f =>
    simp only [Table.step] at ha
    split at ha
    · simp at ha
    · rename_i hk
      push Not at hk
      obtain ⟨hl, hh⟩ := hk
      cases ha
      have hal : s.alive k = true := by simp [St.alive, hl]
      have lk : ∀ e ∈ s.line, e.1.owner = .lit := fun e he => (h.lineKeys e he).resolve_right fun q => hh q.2
      have sk : ∀ (m : List (Key × (ℕ × String))), m = (if (find s.specs k.text).isSome then s.specs
          else s.specs ++ [(k, (w, f))]) → ∀ e ∈ m, e.1.owner = .lit := by
        rintro m rfl e he
        split at he
        · exact h.specKeys e he
        · rcases List.mem_append.mp he with q | q
          · exact h.specKeys e q
          · simp at q; subst q; exact hl
      have fin : ∀ s1 : St, s1.specs = s.specs → s1.line = s.line → s1.active = s.active → s1.out = s.out →
          s1.names = s.names ++ [k.text] →
          ∃ s', (if probe env s1 s1.specs k.text = false then Outcome.ub
            else if (find s1.specs k.text).isSome then .ok s1
            else .ok { s1 with specs := s1.specs ++ [(k, (w, f))] }) = .ok s' ∧
            Agrees s' { a with cols := a.cols ++ [k.text], spec := fill a.spec k.text (w, f) } := by
        intro s1 e1 e2 e3 e4 e5
        have pr : probe env s1 s1.specs k.text = true := probe_alive env s1 _ _ (by
          intro e he; rw [e1] at he; simp [St.alive, h.specKeys e he])
        rw [if_neg (by simp [pr])]
        have fa := fill_append h.spec k (w, f)
        refine ⟨{ s1 with specs := if (find s.specs k.text).isSome then s.specs else s.specs ++ [(k, (w, f))] }, ?_, ?_⟩
        · rw [e1]
          split
          · rw [← e1]
          · rfl
        · refine ⟨by simp [e3, h.active], by simp [e5, h.names], by simp [e4, h.out], fa, ?_, sk _ rfl, ?_, ?_⟩
          · intro t; simp only [e2]; exact h.value t
          · intro e he; simp only [e2] at he; exact Or.inl (lk e he)
          · intro n hn
            rcases List.mem_append.mp hn with q | q
            · exact fill_isSome (h.specced n q)
            · simp at q; subst q; exact fill_self _ _ _
      simp only [Log.step, addColumn]
      rw [if_neg (by simp [hal])]
      split
      · exact fin _ rfl rfl rfl rfl rfl
      · exact fin _ rfl rfl rfl rfl rfl
  | headline =>
    simp only [Table.step, Option.some.injEq] at ha
    subst ha
    simp only [Log.step, headline, h.active]
    cases e : a.active with
    | false => exact ⟨s, by simp, by simpa using h⟩
    | true =>
      rw [headLoop_eq env s a.spec h.spec h.specAlive s.names (by rw [h.names]; exact h.specced)]
      refine ⟨_, by simp; rfl, ?_⟩
      exact ⟨by simp [h.active, e], by simp [h.names], by simp [h.out, h.names], by simpa using h.spec,
        by simpa using h.value, h.specKeys, by simpa using h.lineKeys, by simpa using h.specced⟩
  | entry k v =>
    simp only [Table.step] at ha
    split at ha
    · simp at ha
    · rename_i hl
      push Not at hl
      obtain ⟨c, hc, rfl⟩ := Option.map_eq_some_iff.mp ha
      have hal : s.alive k = true := by simp [St.alive, hl]
      simp only [Log.step, addEntry]
      rw [if_neg (by simp [hal, probe_alive env s s.specs k.text h.specAlive]), h.spec, hc]
      dsimp only
      have fa := fill_append h.spec k ((0 : ℕ), "")
      rw [h.spec] at fa
      refine ⟨{ s with specs := if (a.spec k.text).isSome then s.specs else s.specs ++ [(k, ((0 : ℕ), ""))]
                       line := put s.line k c }, ?_, ?_⟩
      · split
        · rw [if_neg (by simp [probe_alive env s s.line k.text h.lineAlive])]
        · rw [if_neg]
          have := probe_alive env { s with specs := s.specs ++ [(k, ((0 : ℕ), ""))] } s.line k.text h.lineAlive
          simp [this]
      · refine ⟨h.active, h.names, h.out, fa, ?_, ?_, ?_, ?_⟩
        · intro t; dsimp only; rw [find_put, h.value]
        · intro e he
          dsimp only at he
          split at he
          · exact h.specKeys e he
          · rcases List.mem_append.mp he with q | q
            · exact h.specKeys e q
            · simp at q; subst q; exact hl
        · exact put_keys (p := fun x => x.owner = .lit ∨ (x.owner = .cell s.gen ∧ a.holes = true)) h.lineKeys (Or.inl hl)
        · intro n hn; exact fill_isSome (h.specced n hn)
  | log =>
    simp only [Table.step, Option.some.injEq] at ha
    subst ha
    simp only [Log.step, Log.log, h.active]
    cases e : a.active with
    | false => exact ⟨s, by simp, by simpa using h⟩
    | true =>
      obtain ⟨l, h1, h2, h3⟩ := logLoop_eq env s.names s h.lineAlive
      rw [h1]
      refine ⟨_, by simp; rfl, ?_⟩
      refine ⟨by simp [h.active, e], by simp [h.names], ?_, by simpa using h.spec, ?_, h.specKeys, ?_,
        by simpa using h.specced⟩
      · simp only [h.out, h.names, if_true]
        congr 3
        apply List.map_congr_left
        intro n _
        rw [h.value]
      · intro t
        simp only [if_true]
        rw [h2, h.value, h.names]
      · intro x hx
        rcases h3 x hx with q | q
        · rcases h.lineKeys x q with r | r
          · exact Or.inl r
          · exact Or.inr ⟨r.1, by simp [r.2]⟩
        · refine Or.inr ⟨q.1, ?_⟩
          rw [h.value, h.names] at q
          simp only [if_true, Bool.or_eq_true, List.any_eq_true]
          exact Or.inr ⟨_, q.2.1, q.2.2⟩
  | finish b =>
    simp only [Table.step, Option.some.injEq] at ha
    subst ha
    refine ⟨_, rfl, ?_⟩
    rw [h.active]
    cases e : a.active with
    | false => simpa using h
    | true =>
      exact ⟨by simp [h.active, e], by simp [h.names], by simp [h.out], by simpa using h.spec,
        by simpa using h.value, by simpa using h.specKeys, by simpa using h.lineKeys, by simpa using h.specced⟩
  | setActive b =>
    cases ha
    exact ⟨_, rfl, rfl, h.names, h.out, h.spec, h.value, h.specKeys, h.lineKeys, h.specced⟩
  | reset =>
    cases ha
    exact ⟨_, rfl, h.active, rfl, h.out, fun t => rfl, fun t => rfl, by simp, by simp, by simp⟩
  | die id =>
    cases ha
    exact ⟨_, rfl, h.active, h.names, h.out, h.spec, h.value, h.specKeys, h.lineKeys, h.specced⟩

theorem run_agrees (env : Env V) (os : List (Op V)) {s : St} {a a' : Table} (h : Agrees s a)
    (ha : a.run env.render os = some a') : ∃ s', exec env os s = .ok s' ∧ Agrees s' a' := by
  induction os generalizing s a with
  | nil => cases ha; exact ⟨s, rfl, h⟩
  | cons o os ih =>
    rw [Table.run, Option.bind_eq_some_iff] at ha
    obtain ⟨a1, h1, h2⟩ := ha
    obtain ⟨s1, e1, g1⟩ := step_agrees env h h1
    obtain ⟨s2, e2, g2⟩ := ih g1 h2
    exact ⟨s2, by rw [exec, e1]; exact e2, g2⟩

theorem init_agrees : Agrees St.init Table.init :=
  ⟨rfl, rfl, rfl, fun _ => rfl, fun _ => rfl, by simp [St.init], by simp [St.init], by simp [Table.init]⟩

theorem run_append (render : String → Val V → ℕ → Option String) (a : Table) (p q : List (Op V)) :
    a.run render (p ++ q) = (a.run render p).bind fun a' => a'.run render q := by
  induction p generalizing a with
  | nil => rfl
  | cons o os ih =>
    simp only [List.cons_append, Table.run]
    cases a.step render o with
    | none => rfl
    | some a1 => exact ih a1

/-- Values after a sequence of entries. -/
def setAll (f : String → Option String) (es : List (String × Val V × String)) : String → Option String :=
  es.foldl (fun f e => fun u => if u = e.1 then some e.2.2 else f u) f

/-- Specifications after a sequence of entries. -/
def specAll (f : String → Option (ℕ × String)) (es : List (String × Val V × String)) : String → Option (ℕ × String) :=
  es.foldl (fun f e => fill f e.1 (0, "")) f

theorem specAll_some (es : List (String × Val V × String)) {f : String → Option (ℕ × String)} {t : String}
    {x : ℕ × String} (h : f t = some x) : specAll f es t = some x := by
  induction es generalizing f with
  | nil => exact h
  | cons e es ih =>
    apply ih
    show fill f e.1 (0, "") t = some x
    unfold fill
    split
    · rename_i q; rw [← q.1, h] at q; simp at q
    · exact h

theorem fill_getD (f : String → Option (ℕ × String)) (t u : String) :
    (fill f t (0, "") u).getD (0, "") = (f u).getD (0, "") := by
  unfold fill
  split
  · rename_i q
    obtain ⟨rfl, q⟩ := q
    cases e : f u with
    | none => rfl
    | some x => simp [e] at q
  · rfl

theorem entries_run (render : String → Val V → ℕ → Option String) (es : List (String × Val V × String)) (a : Table)
    (h : ∀ e ∈ es, render ((a.spec e.1).getD (0, "")).2 e.2.1 ((a.spec e.1).getD (0, "")).1 = some e.2.2) :
    a.run render (es.map fun e => .entry (lit e.1) e.2.1) =
      some { a with spec := specAll a.spec es, value := setAll a.value es } := by
  induction es generalizing a with
  | nil => rfl
  | cons e es ih =>
    have h1 := h e (by simp)
    rw [List.map_cons, Table.run]
    have st : a.step render (.entry (lit e.1) e.2.1) = some { a with
        spec := fill a.spec e.1 (0, ""), value := fun u => if u = e.1 then some e.2.2 else a.value u } := by
      simp [Table.step, lit, h1]
      rfl
    rw [st, Option.bind_some, ih _ (by
      intro x hx
      dsimp only
      rw [fill_getD]
      exact h x (by simp [hx]))]
    rfl

/-! ### Stale keys -/

/-- The value of the column "cost" has a key in a buffer that has been given back. -/
def Stale (s : St) : Prop := ∃ e ∈ s.line, e.1.text = "cost" ∧ ∃ g, e.1.owner = .cell g ∧ g < s.gen

theorem probe_stale {env : Env V} {s : St} (h : Stale s) : probe env s s.line "cost" = false := by
  obtain ⟨e, he, ht, g, ho, hg⟩ := h
  unfold probe
  rw [List.all_eq_false]
  refine ⟨e, he, ?_⟩
  have : ¬ g = s.gen := by omega
  simp [ht, St.alive, ho, this]

theorem logLoop_stale (env : Env V) (ns : List String) (s : St) (h : Stale s) (hn : "cost" ∈ ns) :
    logLoop env ns s = none := by
  induction ns generalizing s with
  | nil => simp at hn
  | cons n ns ih =>
    rw [logLoop]
    by_cases hc : n = "cost"
    · subst hc
      rw [if_pos (probe_stale h)]
    · have hn' : "cost" ∈ ns := by
        rcases List.mem_cons.mp hn with q | q
        · exact absurd q.symm hc
        · exact q
      split
      · rfl
      · dsimp only
        rw [ih]
        · split
          · exact h
          · obtain ⟨e, he, r⟩ := h
            exact ⟨e, by simp [he], r⟩
        · exact hn'

theorem put_stale {s : St} (h : Stale s) (k : Key) (c : String) : Stale { s with line := put s.line k c } := by
  obtain ⟨e, he, r⟩ := h
  unfold put
  split
  · refine ⟨if e.1.text = k.text then (e.1, c) else e, List.mem_map.mpr ⟨e, he, rfl⟩, ?_⟩
    split <;> exact r
  · exact ⟨e, by simp [he], r⟩

/-- The columns of ProxDDP have been declared. -/
def Ready (a : Table) : Prop :=
  a.cols = basicKeys.map (·.1) ∧ ∀ c ∈ basicKeys, a.spec c.1 = some (c.2.2, c.2.1)

theorem ready_ctor (render : String → Val V → ℕ → Option String) :
    ∃ a, Table.init.run render proxCtor = some a ∧ Ready a ∧ a.out = [] := by
  refine ⟨_, rfl, ⟨rfl, ?_⟩, rfl⟩
  simp [basicKeys, Table.init, fill, lit]

theorem head_ready {a : Table} (h : Ready a) :
    Line.head (a.cols.map fun n => (n, ((a.spec n).getD (0, "")).1 + 1)) = proxHead := by
  obtain ⟨h1, h2⟩ := h
  simp only [basicKeys, List.forall_mem_cons, List.not_mem_nil, false_imp_iff, implies_true, and_true] at h2
  simp [h1, basicKeys, proxHead, h2]

theorem headline_ready (render : String → Val V → ℕ → Option String) {a : Table} (h : Ready a) :
    a.step render (.headline : Op V) = some (if a.active then { a with out := a.out ++ [proxHead] } else a) := by
  simp only [Table.step, head_ready h]

theorem entries_ready {render : String → Val V → ℕ → Option String} {ci : ℕ → ℕ → String} {cs cg : V → ℕ → String}
    (hp : Prints render ci cs cg) (k : ℕ) (it : Iter V) {a : Table} (h : Ready a) :
    ∃ a', a.run render (proxEntries k it) = some a' ∧ Ready a' ∧ a'.active = a.active ∧
      a'.out = a.out ++ (if a.active ∧ 1 ≤ k ∧ k % 25 = 0 then [proxHead] else []) ∧
      Line.row (a'.cols.map fun n => (a'.value n).getD "") = proxRow ci cs cg k it := by
  obtain ⟨p1, p2, p3⟩ := hp
  -- the headline
  obtain ⟨b, hb, rb, ab, ob⟩ : ∃ b, a.run render (if 1 ≤ k ∧ k % 25 = 0 then [(.headline : Op V)] else []) = some b ∧
      Ready b ∧ b.active = a.active ∧
      b.out = a.out ++ (if a.active ∧ 1 ≤ k ∧ k % 25 = 0 then [proxHead] else []) := by
    by_cases hk : 1 ≤ k ∧ k % 25 = 0
    · rw [if_pos hk]
      refine ⟨_, by rw [Table.run, headline_ready render h]; rfl, ?_⟩
      cases e : a.active with
      | true => exact ⟨h, by simp, by simp [hk]⟩
      | false => exact ⟨h, by simp [e], by simp⟩
    · rw [if_neg hk]
      exact ⟨a, rfl, h, rfl, by simp [hk]⟩
  rw [proxEntries, run_append, hb, Option.bind_some]
  obtain ⟨h1, h2⟩ := rb
  have h2' := h2
  simp only [basicKeys, List.forall_mem_cons, List.not_mem_nil, false_imp_iff, implies_true, and_true] at h2
  obtain ⟨s1, s2, s3, s4, s5, s6, s7, s8, s9, s10, s11, s12⟩ := h2
  have run := entries_run render
    [("iter", .size (k + 1), ci (k + 1) 5), ("alpha", .dbl it.alpha, cs it.alpha 10),
     ("inner_crit", .dbl it.innerCrit, cs it.innerCrit 11), ("prim_err", .dbl it.prim, cs it.prim 10),
     ("dual_err", .dbl it.dual, cs it.dual 10), ("preg", .dbl it.preg, cs it.preg 10),
     ("dphi0", .dbl it.dphi0, cs it.dphi0 11), ("cost", .dbl it.cost, cs it.cost 10),
     ("merit", .dbl it.merit, cs it.merit 10), ("ΔM", .dbl it.dM, cs it.dM 11),
     ("aliter", .size (it.al + 1), ci (it.al + 1) 7), ("mu", .dbl it.mu, cg it.mu 7)] b (by
      simp [s1, s2, s3, s4, s5, s6, s7, s8, s9, s10, s11, s12, p1, p2, p3])
  refine ⟨_, run, ⟨h1, fun c hc => specAll_some _ (h2' c hc)⟩, ab, ob, ?_⟩
  simp [h1, basicKeys, proxRow, setAll]

theorem iters_ready {render : String → Val V → ℕ → Option String} {ci : ℕ → ℕ → String} {cs cg : V → ℕ → String}
    (hp : Prints render ci cs cg) (its : List (Iter V)) (k : ℕ) {a : Table} (h : Ready a) :
    ∃ a', a.run render (proxIters k its) = some a' ∧ Ready a' ∧ a'.active = a.active ∧
      a'.out = a.out ++ (if a.active then proxRows ci cs cg k its else []) := by
  induction its generalizing a k with
  | nil => exact ⟨a, rfl, h, rfl, by simp [proxRows]⟩
  | cons it its ih =>
    obtain ⟨b, hb, rb, ab, ob, vb⟩ := entries_ready hp k it h
    rw [proxIters, run_append, hb, Option.bind_some, Table.run]
    cases e : a.active with
    | true =>
      rw [e] at ab ob
      obtain ⟨c, hc, rc, ac, oc⟩ := ih (k + 1) (a := { b with
        out := b.out ++ [.row (b.cols.map fun n => (b.value n).getD "")]
        holes := b.holes || b.cols.any fun n => (b.value n).isNone
        value := fun u => if u ∈ b.cols ∧ (b.value u).isNone then some "" else b.value u }) rb
      refine ⟨c, ?_, rc, by rw [ac]; exact ab, ?_⟩
      · rw [Table.step, if_pos ab, Option.bind_some]
        exact hc
      · rw [oc]
        simp only [ab, if_true, ob, vb, proxRows, true_and, List.append_assoc, List.singleton_append]
    | false =>
      rw [e] at ab ob
      obtain ⟨c, hc, rc, ac, oc⟩ := ih (k + 1) rb
      refine ⟨c, ?_, rc, by rw [ac]; exact ab, ?_⟩
      · rw [Table.step, if_neg (by simp [ab]), Option.bind_some]
        exact hc
      · rw [oc, ab, ob]; simp

theorem run_ready {render : String → Val V → ℕ → Option String} {ci : ℕ → ℕ → String} {cs cg : V → ℕ → String}
    (hp : Prints render ci cs cg) (r : Run V) {a : Table} (h : Ready a) :
    ∃ a', a.run render (proxRun r) = some a' ∧ Ready a' ∧ a'.out = a.out ++ proxPrint ci cs cg r := by
  have h0 : Ready { a with active := r.verbose } := h
  obtain ⟨b, hb, rb, ab, ob⟩ : ∃ b, a.run render ([.setActive r.verbose, .headline] : List (Op V)) = some b ∧
      Ready b ∧ b.active = r.verbose ∧ b.out = a.out ++ (if r.verbose then [proxHead] else []) := by
    refine ⟨_, by rw [Table.run, Table.step, Option.bind_some, Table.run, headline_ready render h0]; rfl, ?_⟩
    cases e : r.verbose with
    | true => exact ⟨h, by simp, by simp⟩
    | false => exact ⟨h, by simp, by simp⟩
  obtain ⟨c, hc, rc, ac, oc⟩ := iters_ready hp r.iters 0 rb
  obtain ⟨d, hd, rd, ad, od⟩ : ∃ d, c.run render (r.failed.toList.flatMap (proxEntries r.iters.length)) = some d ∧ Ready d ∧ d.active = r.verbose ∧
      d.out = c.out ++ (if r.verbose ∧ r.failed.isSome ∧ 1 ≤ r.iters.length ∧ r.iters.length % 25 = 0
        then [proxHead] else []) := by
    cases r.failed with
    | none => exact ⟨c, rfl, rc, by rw [ac, ab], by simp⟩
    | some it =>
      obtain ⟨d, hd, rd, ad, od, -⟩ := entries_ready hp r.iters.length it rc
      exact ⟨d, by simpa using hd, rd, by rw [ad, ac, ab], by rw [od, ac, ab]; simp⟩
  obtain ⟨e, he, re, oe⟩ : ∃ e, d.run render (r.conv.toList.map (Op.finish : Bool → Op V)) = some e ∧ Ready e ∧
      e.out = d.out ++ (if r.verbose then r.conv.toList.map .finish else []) := by
    cases r.conv with
    | none => exact ⟨d, rfl, rd, by simp⟩
    | some b =>
      refine ⟨_, rfl, ?_⟩
      rw [ad]
      cases r.verbose with
      | true => exact ⟨rd, by simp⟩
      | false => exact ⟨rd, by simp⟩
  refine ⟨e, ?_, re, ?_⟩
  · rw [proxRun, run_append, run_append, run_append, hb, Option.bind_some, hc, Option.bind_some, hd, Option.bind_some, he]
  · rw [oe, od, oc, ob, ab]
    unfold proxPrint
    cases r.verbose <;> simp

/-- The specifications FDDP needs. -/
def FSpec (f : String → Option (ℕ × String)) : Prop :=
  (∀ c ∈ fddpKeys, f c.1 = some (c.2.2, c.2.1)) ∧ (f "merit").getD (0, "") = (0, "")

/-- The entries of an iteration with the strings they give. -/
def fddpList (ci : ℕ → ℕ → String) (cs : V → ℕ → String) (k : ℕ) (it : Iter V) : List (String × Val V × String) :=
  [("iter", .size (k + 1), ci (k + 1) 5), ("alpha", .dbl it.alpha, cs it.alpha 10),
   ("prim_err", .dbl it.prim, cs it.prim 10), ("dual_err", .dbl it.dual, cs it.dual 10),
   ("preg", .dbl it.preg, cs it.preg 10), ("dphi0", .dbl it.dphi0, cs it.dphi0 11), ("merit", .dbl it.merit, ""),
   ("ΔM", .dbl it.dM, cs it.dM 11)]

theorem specAll_getD (es : List (String × Val V × String)) (f : String → Option (ℕ × String)) (t : String) :
    (specAll f es t).getD (0, "") = (f t).getD (0, "") := by
  induction es generalizing f with
  | nil => rfl
  | cons e es ih => exact (ih _).trans (fill_getD f e.1 t)

theorem FSpec.all {f : String → Option (ℕ × String)} (h : FSpec f) (es : List (String × Val V × String)) :
    FSpec (specAll f es) :=
  ⟨fun c hc => specAll_some es (h.1 c hc), by rw [specAll_getD]; exact h.2⟩

theorem fddpEntries_run (env : Env V) {ci : ℕ → ℕ → String} {cs cg : V → ℕ → String} (hp : Prints env.render ci cs cg)
    (k : ℕ) (it : Iter V) {a : Table} (h : FSpec a.spec) :
    a.run env.render (fddpEntries k it) = some { a with
      spec := specAll a.spec (fddpList ci cs k it), value := setAll a.value (fddpList ci cs k it) } := by
  obtain ⟨p1, p2, -⟩ := hp
  obtain ⟨h2, hm⟩ := h
  simp only [fddpKeys, List.forall_mem_cons, List.not_mem_nil, false_imp_iff, implies_true, and_true] at h2
  exact entries_run env.render (fddpList ci cs k it) a (by simp [fddpList, h2, hm, p1, p2, env.render_empty])

/-- The row that would be printed now. -/
def shown (a : Table) : Line := .row (a.cols.map fun n => (a.value n).getD "")

/-- A table in a first verbose run of FDDP. -/
def F1 (a : Table) : Prop :=
  a.active = true ∧ a.cols = fddpKeys.map (·.1) ∧ FSpec a.spec ∧ (a.value "cost").getD "" = ""

theorem F1_entries (env : Env V) {ci : ℕ → ℕ → String} {cs cg : V → ℕ → String} (hp : Prints env.render ci cs cg)
    (k : ℕ) (it : Iter V) {a : Table} (h : F1 a) :
    ∃ a', a.run env.render (fddpEntries k it) = some a' ∧ F1 a' ∧ a'.out = a.out ∧ shown a' = fddpRow ci cs k it := by
  obtain ⟨h1, h2, h3, h4⟩ := h
  refine ⟨_, fddpEntries_run env hp k it h3, ⟨h1, h2, h3.all _, ?_⟩, rfl, ?_⟩
  · simpa [setAll, fddpList] using h4
  · simp [shown, h2, fddpKeys, setAll, fddpList, fddpRow, h4]

theorem F1_log (render : String → Val V → ℕ → Option String) {a : Table} (h : F1 a) :
    ∃ a', a.step render (.log : Op V) = some a' ∧ F1 a' ∧ a'.out = a.out ++ [shown a] ∧ shown a' = shown a := by
  obtain ⟨h1, h2, h3, h4⟩ := h
  have g : ∀ u, (if u ∈ a.cols ∧ (a.value u).isNone then some "" else a.value u).getD "" = (a.value u).getD "" := by
    intro u
    split
    · rename_i q
      cases e : a.value u with
      | none => rfl
      | some x => simp [e] at q
    · rfl
  refine ⟨{ a with out := a.out ++ [.row (a.cols.map fun n => (a.value n).getD "")]
                   holes := a.holes || a.cols.any fun n => (a.value n).isNone
                   value := fun u => if u ∈ a.cols ∧ (a.value u).isNone then some "" else a.value u },
    by rw [Table.step, if_pos h1], ⟨h1, h2, h3, (g "cost").trans h4⟩, rfl, ?_⟩
  unfold shown
  dsimp only
  congr 1
  exact List.map_congr_left fun n _ => g n

theorem F1_iters (env : Env V) {ci : ℕ → ℕ → String} {cs cg : V → ℕ → String} (hp : Prints env.render ci cs cg)
    (its : List (Iter V)) (k : ℕ) {a : Table} (h : F1 a) :
    ∃ a', a.run env.render (fddpIters k its) = some a' ∧ F1 a' ∧ a'.out = a.out ++ fddpRows ci cs k its ∧
      shown a' = ((fddpRows ci cs k its).getLast?).getD (shown a) := by
  induction its generalizing a k with
  | nil => exact ⟨a, rfl, h, by simp [fddpRows], by simp [fddpRows]⟩
  | cons it its ih =>
    obtain ⟨b, hb, fb, ob, vb⟩ := F1_entries env hp k it h
    obtain ⟨c, hc, fc, oc, vc⟩ := F1_log env.render fb
    obtain ⟨d, hd, fd, od, vd⟩ := ih (k + 1) fc
    refine ⟨d, ?_, fd, ?_, ?_⟩
    · rw [fddpIters, run_append, hb, Option.bind_some, Table.run, hc, Option.bind_some, hd]
    · rw [od, oc, ob, vb, fddpRows, List.append_assoc, List.singleton_append]
    · rw [vd, vc, vb, fddpRows, List.getLast?_cons]
      rfl

theorem first_table (env : Env V) {ci : ℕ → ℕ → String} {cs cg : V → ℕ → String}
    (hp : Prints env.render ci cs cg) (its : List (Iter V)) (e : Ending V) :
    ∃ a, Table.init.run env.render (fddpRun true its e) = some a ∧ F1 a ∧
      a.out = fddpHead 1 :: fddpRows ci cs 0 its ++ fddpTail ci cs its e := by
  obtain ⟨a, ha, fa, oa, va⟩ : ∃ a, Table.init.run env.render
      (.setActive true :: fddpKeys.map colOp ++ [.headline] : List (Op V)) = some a ∧ F1 a ∧ a.out = [fddpHead 1] ∧
      shown a = .row (List.replicate 8 "") := by
    refine ⟨_, rfl, ⟨rfl, rfl, ⟨?_, ?_⟩, rfl⟩, ?_, rfl⟩
    · simp [fddpKeys, Table.init, fill, lit]
    · simp [Table.init, fill, lit]
    · simp [fddpHead, Table.init, fill, lit]
  obtain ⟨b, hb, fb, ob, vb⟩ := F1_iters env hp its 0 fa
  have fin : ∀ (d : Table) (x : Bool), d.active = true →
      d.run env.render [(.finish x : Op V)] = some { d with out := d.out ++ [.finish x] } := by
    intro d x hd; simp [Table.run, Table.step, hd]
  have done : ∀ d : Table, b.run env.render (fddpEnd its.length e) = some d →
      Table.init.run env.render (fddpRun true its e) = some d := by
    intro d hd
    rw [fddpRun, show (.setActive true :: (fddpKeys.map colOp ++ .headline :: (fddpIters 0 its ++ fddpEnd its.length e))
        : List (Op V)) =
      (.setActive true :: fddpKeys.map colOp ++ [.headline]) ++ (fddpIters 0 its ++ fddpEnd its.length e) by simp]
    rw [run_append, ha, Option.bind_some, run_append, hb, Option.bind_some, hd]
  cases e with
  | exhausted =>
    refine ⟨{ b with out := b.out ++ [.finish false] }, done _ (fin b false fb.1), fb, ?_⟩
    dsimp only
    rw [ob, oa]
    simp [fddpTail]
  | converged =>
    obtain ⟨c, hc, fc, oc, -⟩ := F1_log env.render fb
    refine ⟨{ c with out := c.out ++ [.finish true] }, done _ (by
      rw [fddpEnd, Table.run, hc, Option.bind_some, fin c true fc.1]), fc, ?_⟩
    dsimp only
    rw [oc, ob, oa, vb, va]
    simp [fddpTail]
  | left it x =>
    obtain ⟨c, hc, fc, oc, vc⟩ := F1_entries env hp its.length it fb
    obtain ⟨d, hd, fd, od, -⟩ := F1_log env.render fc
    refine ⟨{ d with out := d.out ++ [.finish x] }, done _ (by
      rw [fddpEnd, run_append, hc, Option.bind_some, Table.run, hd, Option.bind_some, fin d x fd.1]), fd, ?_⟩
    dsimp only
    rw [od, oc, ob, oa, vc]
    simp [fddpTail]

/-- A state of FDDP with a stale key, about to print. -/
def Doomed (s : St) : Prop := Stale s ∧ s.active = true ∧ "cost" ∈ s.names ∧ FSpec (find s.specs)

/-- The operations of a run after the first column. -/
def Late (env : Env V) : Op V → Prop
  | .addColumn _ _ _ => True
  | .headline => True
  | .entry k v => ∀ f, FSpec f → (env.render ((f k.text).getD (0, "")).2 v ((f k.text).getD (0, "")).1).isSome
  | .log => True
  | .finish _ => True
  | _ => False

theorem find_grow {m : List (Key × (ℕ × String))} (h : FSpec (find m)) (k : Key) (b : ℕ × String)
    (hk : k.text ≠ "merit" ∨ b = (0, "")) : FSpec (find (m ++ [(k, b)])) := by
  constructor
  · intro c hc
    rw [find_append]
    split
    · rename_i q; rw [← q.1, h.1 c hc] at q; simp at q
    · exact h.1 c hc
  · rw [find_append]
    split
    · rename_i q
      rcases hk with r | r
      · exact absurd q.1.symm r
      · simp [r]
    · exact h.2

theorem headLoop_doomed (env : Env V) (ns : List String) {s : St} (h : Doomed s) {cs : List (String × ℕ)} {s' : St}
    (e : headLoop env ns s = some (cs, s')) : Doomed s' := by
  induction ns generalizing s cs with
  | nil => simp [headLoop] at e; rw [← e.2]; exact h
  | cons n ns ih =>
    rw [headLoop] at e
    split at e
    · simp at e
    · dsimp only at e
      split at e
      · simp at e
      · rename_i cs2 s2 heq
        simp only [Option.some.injEq, Prod.mk.injEq] at e
        obtain ⟨-, rfl⟩ := e
        refine ih ?_ heq
        split
        · exact h
        · exact ⟨h.1, h.2.1, h.2.2.1, find_grow h.2.2.2 _ _ (Or.inr rfl)⟩

theorem step_doomed (env : Env V) {s : St} (h : Doomed s) {o : Op V} (ho : Late env o)
    (hc : ∀ k w f, o = .addColumn k w f → k.text ≠ "merit") :
    step env s o = .ub ∨ ∃ s', step env s o = .ok s' ∧ Doomed s' ∧ o ≠ .log := by
  obtain ⟨h1, h2, h3, h4⟩ := id h
  cases o with
  | addColumn k w f =>
    have hm := hc k w f rfl
    have fin : ∀ s1 : St, Doomed s1 →
        (if probe env s1 s1.specs k.text = false then Outcome.ub
          else if (find s1.specs k.text).isSome then .ok s1
          else .ok { s1 with specs := s1.specs ++ [(k, (w, f))] }) = .ub ∨
        ∃ s', (if probe env s1 s1.specs k.text = false then Outcome.ub
          else if (find s1.specs k.text).isSome then .ok s1
          else .ok { s1 with specs := s1.specs ++ [(k, (w, f))] }) = .ok s' ∧ Doomed s' ∧
            (Op.addColumn k w f : Op V) ≠ .log := by
      intro s1 d
      split
      · exact Or.inl rfl
      · right
        split
        · exact ⟨s1, rfl, d, by simp⟩
        · exact ⟨_, rfl, ⟨d.1, d.2.1, d.2.2.1, find_grow d.2.2.2 _ _ (Or.inl hm)⟩, by simp⟩
    simp only [step, addColumn]
    split
    · exact Or.inl rfl
    · split
      · exact fin _ ⟨h1, h2, by simp [h3], h4⟩
      · refine fin _ ⟨?_, h2, by simp [h3], h4⟩
        obtain ⟨e, he, ht, g, hg, hlt⟩ := h1
        exact ⟨e, he, ht, g, hg, Nat.lt_succ_of_lt hlt⟩
  | headline =>
    simp only [step, headline, h2]
    cases e : headLoop env s.names s with
    | none => left; simp
    | some x =>
      right
      have d := headLoop_doomed env s.names h e
      exact ⟨{ x.2 with out := x.2.out ++ [.head x.1] }, by simp, ⟨d.1, d.2.1, d.2.2.1, d.2.2.2⟩, by simp⟩
  | entry k v =>
    obtain ⟨c, hr⟩ := Option.isSome_iff_exists.mp (ho _ h4)
    simp only [step, addEntry]
    split
    · exact Or.inl rfl
    · rw [hr]
      dsimp only
      have fin : ∀ s1 : St, Doomed s1 →
          (if probe env s1 s1.line k.text = false then Outcome.ub else .ok { s1 with line := put s1.line k c }) = .ub ∨
          ∃ s', (if probe env s1 s1.line k.text = false then Outcome.ub
            else .ok { s1 with line := put s1.line k c }) = .ok s' ∧ Doomed s' ∧ (Op.entry k v) ≠ .log := by
        intro s1 d
        split
        · exact Or.inl rfl
        · exact Or.inr ⟨_, rfl, ⟨put_stale d.1 k c, d.2.1, d.2.2.1, d.2.2.2⟩, by simp⟩
      split
      · exact fin _ h
      · exact fin _ ⟨h1, h2, h3, find_grow h4 _ _ (Or.inr rfl)⟩
  | log =>
    left
    simp only [step, log, h2, logLoop_stale env s.names s h1 h3]
    simp
  | finish b =>
    right
    refine ⟨_, rfl, ?_, by simp⟩
    rw [if_pos h2]
    exact ⟨h1, h2, h3, h4⟩
  | setActive b => exact ho.elim
  | reset => exact ho.elim
  | die id => exact ho.elim

theorem exec_doomed (env : Env V) (os : List (Op V)) {s : St} (h : Doomed s) (ho : ∀ o ∈ os, Late env o)
    (hc : ∀ o ∈ os, ∀ k w f, o = .addColumn k w f → k.text ≠ "merit") (hl : ∃ o ∈ os, o = .log) :
    exec env os s = .ub := by
  induction os generalizing s with
  | nil => simp at hl
  | cons o os ih =>
    rw [exec]
    rcases step_doomed env h (ho o (by simp)) (hc o (by simp)) with e | ⟨s', e, d, hn⟩
    · rw [e]
    · rw [e]
      refine ih d (fun p hp => ho p (by simp [hp])) (fun p hp => hc p (by simp [hp])) ?_
      obtain ⟨p, hp, rfl⟩ := hl
      rcases List.mem_cons.mp hp with q | q
      · exact absurd q.symm hn
      · exact ⟨_, q, rfl⟩

theorem value_mono (render : String → Val V → ℕ → Option String) {a a' : Table} {o : Op V} {t : String}
    (h : a.step render o = some a') (hr : o ≠ .reset) (hv : (a.value t).isSome) : (a'.value t).isSome := by
  cases o with
  | addColumn k w f =>
    simp only [Table.step] at h
    split at h
    · simp at h
    · cases h; exact hv
  | headline => cases h; split <;> exact hv
  | entry k v =>
    simp only [Table.step] at h
    split at h
    · simp at h
    · obtain ⟨c, -, rfl⟩ := Option.map_eq_some_iff.mp h
      dsimp only
      split
      · rfl
      · exact hv
  | log =>
    cases h
    split
    · dsimp only
      split
      · rfl
      · exact hv
    · exact hv
  | finish b => cases h; split <;> exact hv
  | setActive b => cases h; exact hv
  | reset => exact absurd rfl hr
  | die id => cases h; exact hv

/-- Operations between the headline and the end of a run. -/
def Body : Op V → Prop
  | .entry k _ => k.text ≠ "cost" ∧ k.owner = .lit
  | .log => True
  | .finish _ => True
  | _ => False

theorem body_filled (render : String → Val V → ℕ → Option String) (os : List (Op V)) {a a' : Table}
    (h : a.run render os = some a') (hb : ∀ o ∈ os, Body o) (hc : "cost" ∈ a.cols) (ha : a.active = true)
    (hl : (a.value "cost").isSome ∨ ∃ o ∈ os, o = .log) : (a'.value "cost").isSome := by
  induction os generalizing a with
  | nil => cases h; simpa using hl
  | cons o os ih =>
    rw [Table.run, Option.bind_eq_some_iff] at h
    obtain ⟨b, h1, h2⟩ := h
    have ob := hb o (by simp)
    have key : b.cols = a.cols ∧ b.active = a.active ∧ (o = .log → (b.value "cost").isSome) := by
      cases o with
      | entry k v =>
        simp only [Table.step] at h1
        split at h1
        · simp at h1
        · obtain ⟨c, -, rfl⟩ := Option.map_eq_some_iff.mp h1
          exact ⟨rfl, rfl, by simp⟩
      | log =>
        cases h1
        rw [if_pos ha]
        refine ⟨rfl, rfl, fun _ => ?_⟩
        dsimp only
        cases e : a.value "cost" <;> simp [hc]
      | finish x => cases h1; rw [if_pos ha]; exact ⟨rfl, rfl, by simp⟩
      | addColumn k w f => exact ob.elim
      | headline => exact ob.elim
      | setActive x => exact ob.elim
      | reset => exact ob.elim
      | die id => exact ob.elim
    refine ih h2 (fun p hp => hb p (by simp [hp])) (by rw [key.1]; exact hc) (by rw [key.2.1]; exact ha) ?_
    have nr : o ≠ .reset := by rintro rfl; exact ob
    rcases hl with q | ⟨p, hp, rfl⟩
    · exact Or.inl (value_mono render h1 nr q)
    · rcases List.mem_cons.mp hp with q | q
      · exact Or.inl (key.2.2 q.symm)
      · exact Or.inr ⟨_, q, rfl⟩

theorem logLoop_keys (env : Env V) (ns : List String) {s s' : St} {cs : List String}
    (h : logLoop env ns s = some (cs, s')) (hk : ∀ e ∈ s.line, e.1.text = "cost" → e.1.owner ≠ .lit) :
    s'.cap = s.cap ∧ s'.names = s.names ∧ ∀ e ∈ s'.line, e.1.text = "cost" → e.1.owner ≠ .lit := by
  induction ns generalizing s cs with
  | nil => simp [logLoop] at h; rw [← h.2]; exact ⟨rfl, rfl, hk⟩
  | cons n ns ih =>
    rw [logLoop] at h
    split at h
    · simp at h
    · dsimp only at h
      split at h
      · simp at h
      · rename_i cs2 s2 heq
        simp only [Option.some.injEq, Prod.mk.injEq] at h
        obtain ⟨-, rfl⟩ := h
        split at heq
        · exact ih heq hk
        · exact ih (s := { s with line := s.line ++ [(⟨.cell s.gen, n⟩, "")] }) heq (by
            intro e he ht
            rcases List.mem_append.mp he with q | q
            · exact hk e q ht
            · simp at q; subst q; simp)

/-- Capacity and keys over the body of a run. -/
theorem body_keys (env : Env V) (os : List (Op V)) {s s' : St} (h : exec env os s = .ok s') (hb : ∀ o ∈ os, Body o)
    (hk : ∀ e ∈ s.line, e.1.text = "cost" → e.1.owner ≠ .lit) :
    s'.cap = s.cap ∧ ∀ e ∈ s'.line, e.1.text = "cost" → e.1.owner ≠ .lit := by
  induction os generalizing s with
  | nil => cases h; exact ⟨rfl, hk⟩
  | cons o os ih =>
    rw [exec] at h
    cases e : step env s o with
    | ub => rw [e] at h; simp at h
    | threw s1 => rw [e] at h; simp at h
    | ok s1 =>
      rw [e] at h
      have ob := hb o (by simp)
      have key : s1.cap = s.cap ∧ ∀ e ∈ s1.line, e.1.text = "cost" → e.1.owner ≠ .lit := by
        cases o with
        | entry k v =>
          simp only [step, addEntry] at e
          split at e
          · simp at e
          · split at e
            · simp at e
            · rename_i c hc
              have fin : ∀ s2 : St, s2.cap = s.cap → s2.line = s.line →
                  (if probe env s2 s2.line k.text = false then Outcome.ub
                    else .ok { s2 with line := put s2.line k c }) = .ok s1 →
                  s1.cap = s.cap ∧ ∀ e ∈ s1.line, e.1.text = "cost" → e.1.owner ≠ .lit := by
                intro s2 e1 e2 e3
                split at e3
                · simp at e3
                · cases e3
                  refine ⟨e1, ?_⟩
                  rw [e2]
                  exact put_keys (p := fun x => x.text = "cost" → x.owner ≠ .lit) hk (fun q => absurd q ob.1)
              split at e
              · exact fin s rfl rfl e
              · exact fin { s with specs := s.specs ++ [(k, ((0 : ℕ), ""))] } rfl rfl e
        | log =>
          simp only [step, log] at e
          split at e
          · cases e; exact ⟨rfl, hk⟩
          · split at e
            · simp at e
            · rename_i cs s2 heq
              cases e
              have := logLoop_keys env s.names heq hk
              exact ⟨this.1, this.2.2⟩
        | finish x =>
          simp only [step] at e
          cases e
          split <;> exact ⟨rfl, hk⟩
        | addColumn k w f => exact ob.elim
        | headline => exact ob.elim
        | setActive x => exact ob.elim
        | reset => exact ob.elim
        | die id => exact ob.elim
      obtain ⟨i1, i2⟩ := ih h (fun p hp => hb p (by simp [hp])) key.2
      exact ⟨i1.trans key.1, i2⟩

theorem body_iters (its : List (Iter V)) (k : ℕ) : ∀ o ∈ fddpIters k its, Body o := by
  induction its generalizing k with
  | nil => simp [fddpIters]
  | cons it its ih =>
    intro o ho
    rw [fddpIters] at ho
    rcases List.mem_append.mp ho with q | q
    · simp only [fddpEntries, List.mem_cons, List.not_mem_nil, or_false] at q
      rcases q with rfl | rfl | rfl | rfl | rfl | rfl | rfl | rfl <;> simp [Body, lit]
    · rcases List.mem_cons.mp q with rfl | q
      · trivial
      · exact ih _ o q

theorem body_end (n : ℕ) (e : Ending V) : ∀ o ∈ fddpEnd n e, Body o := by
  intro o q
  cases e with
  | exhausted => simp [fddpEnd] at q; subst q; trivial
  | converged => simp [fddpEnd] at q; rcases q with rfl | rfl <;> trivial
  | left it b =>
    simp only [fddpEnd, fddpEntries, List.mem_append, List.mem_cons, List.not_mem_nil, or_false] at q
    rcases q with (rfl | rfl | rfl | rfl | rfl | rfl | rfl | rfl) | rfl | rfl <;> simp [Body, lit]

theorem body_body (its : List (Iter V)) (e : Ending V) : ∀ o ∈ fddpIters 0 its ++ fddpEnd its.length e, Body o := by
  intro o ho
  rcases List.mem_append.mp ho with q | q
  · exact body_iters its 0 o q
  · exact body_end _ e o q

theorem body_log {its : List (Iter V)} {e : Ending V} (h : HasRow its e) :
    ∃ o ∈ fddpIters 0 its ++ fddpEnd its.length e, o = .log := by
  refine ⟨_, ?_, rfl⟩
  cases its with
  | cons it its => simp [fddpIters]
  | nil =>
    rcases h with q | q
    · exact absurd rfl q
    · cases e with
      | exhausted => exact absurd rfl q
      | converged => simp [fddpEnd]
      | left it b => simp [fddpEnd]

theorem exec_append (env : Env V) (p q : List (Op V)) {s s' : St} (h : exec env p s = .ok s') :
    exec env (p ++ q) s = exec env q s' := by
  induction p generalizing s with
  | nil => cases h; rfl
  | cons o os ih =>
    rw [exec] at h
    rw [List.cons_append, exec]
    cases e : step env s o with
    | ub => rw [e] at h; simp at h
    | threw s1 => rw [e] at h; simp at h
    | ok s1 => rw [e] at h; exact ih h

/-- The state after the headline of the first run. -/
theorem first_head (env : Env V) (hg : ∀ c, env.grow c = max 1 (2 * c)) :
    ∃ s, exec env (.setActive true :: (fddpKeys.map colOp ++ [.headline]) : List (Op V)) St.init = .ok s ∧ s.cap = 8 ∧
      s.line = [] := by
  have key : ∀ (l : List (String × String × ℕ)) (s : St), (∀ e ∈ s.specs, e.1.owner = .lit) → s.line = [] →
      ∃ s', exec env (l.map colOp) s = .ok s' ∧ (∀ e ∈ s'.specs, e.1.owner = .lit) ∧ s'.line = [] ∧
        (s'.names.length, s'.cap) = l.foldl (fun x _ => (x.1 + 1, if x.1 < x.2 then x.2 else env.grow x.2))
          (s.names.length, s.cap) := by
    intro l
    induction l with
    | nil => intro s h1 h2; exact ⟨s, rfl, h1, h2, rfl⟩
    | cons c l ih =>
      intro s h1 h2
      have fin : ∀ s1 : St, s1.specs = s.specs → s1.line = [] →
          ∃ s', (if probe env s1 s1.specs c.1 = false then Outcome.ub
            else if (find s1.specs c.1).isSome then .ok s1
            else .ok { s1 with specs := s1.specs ++ [(lit c.1, (c.2.2, c.2.1))] }) = .ok s' ∧
            (∀ e ∈ s'.specs, e.1.owner = .lit) ∧ s'.line = [] ∧ s'.names = s1.names ∧ s'.cap = s1.cap := by
        intro s1 e1 e2
        rw [if_neg (by
          rw [probe_alive env s1 _ _ (by intro e he; rw [e1] at he; simp [St.alive, h1 e he])]; simp)]
        split
        · exact ⟨s1, rfl, by rw [e1]; exact h1, e2, rfl, rfl⟩
        · refine ⟨_, rfl, ?_, e2, rfl, rfl⟩
          intro e he
          rw [e1] at he
          rcases List.mem_append.mp he with q | q
          · exact h1 e q
          · simp at q; subst q; rfl
      have st : ∃ s', step env s (colOp c) = .ok s' ∧ (∀ e ∈ s'.specs, e.1.owner = .lit) ∧ s'.line = [] ∧
          s'.names.length = s.names.length + 1 ∧ s'.cap = if s.names.length < s.cap then s.cap else env.grow s.cap := by
        simp only [colOp, step, addColumn]
        rw [if_neg (by simp [St.alive, lit])]
        split
        · obtain ⟨s', q1, q2, q3, q4, q5⟩ := fin { s with names := s.names ++ [(lit c.1).text] } rfl h2
          exact ⟨s', q1, q2, q3, by rw [q4]; simp, by rw [q5]⟩
        · obtain ⟨s', q1, q2, q3, q4, q5⟩ := fin { s with
            names := s.names ++ [(lit c.1).text], cap := env.grow s.cap, gen := s.gen + 1 } rfl h2
          exact ⟨s', q1, q2, q3, by rw [q4]; simp, by rw [q5]⟩
      obtain ⟨s1, t1, t2, t3, t4, t5⟩ := st
      obtain ⟨s2, u1, u2, u3, u4⟩ := ih s1 t2 t3
      refine ⟨s2, by rw [List.map_cons, exec, t1]; exact u1, u2, u3, ?_⟩
      rw [u4, List.foldl_cons, t4, t5]
  obtain ⟨s, h1, h2, h3, h4⟩ := key fddpKeys { St.init with active := true } (by simp [St.init]) rfl
  have hc : s.cap = 8 := by
    have := congrArg Prod.snd h4
    simpa [fddpKeys, St.init, hg] using this
  -- the headline
  obtain ⟨a, ha, hagree⟩ : ∃ a, (Table.init.run env.render
      (.setActive true :: (fddpKeys.map colOp ++ [.headline]) : List (Op V))) = some a ∧ True := ⟨_, rfl, trivial⟩
  obtain ⟨s', e', g'⟩ := run_agrees env _ init_agrees ha
  have e2 := e'
  rw [exec] at e2
  dsimp only [step] at e2
  rw [exec_append env _ _ h1] at e2
  have hh : s'.cap = s.cap ∧ s'.line = s.line := by
    rw [exec] at e2
    simp only [step, headline] at e2
    have loop : ∀ (ns : List String) (s s' : St) (cs : List (String × ℕ)), headLoop env ns s = some (cs, s') →
        s'.cap = s.cap ∧ s'.line = s.line := by
      intro ns
      induction ns with
      | nil => intro s s' cs h; simp [headLoop] at h; rw [← h.2]; exact ⟨rfl, rfl⟩
      | cons n ns ih =>
        intro s s' cs h
        rw [headLoop] at h
        split at h
        · simp at h
        · dsimp only at h
          split at h
          · simp at h
          · rename_i cs2 s2 heq
            simp only [Option.some.injEq, Prod.mk.injEq] at h
            obtain ⟨-, rfl⟩ := h
            have := ih _ _ _ heq
            split at this <;> exact this
    by_cases hact : s.active = false
    · rw [if_pos hact] at e2
      simp only [exec, Outcome.ok.injEq] at e2
      rw [← e2]; exact ⟨rfl, rfl⟩
    · rw [if_neg hact] at e2
      cases el : headLoop env s.names s with
      | none => rw [el] at e2; simp at e2
      | some x =>
        rw [el] at e2
        simp only [exec, Outcome.ok.injEq] at e2
        rw [← e2]
        exact loop s.names s x.2 x.1 el
  exact ⟨s', e', by rw [hh.1, hc], by rw [hh.2, h3]⟩

theorem late_body (env : Env V) {ci : ℕ → ℕ → String} {cs cg : V → ℕ → String} (hp : Prints env.render ci cs cg)
    (its : List (Iter V)) (e : Ending V) : ∀ o ∈ fddpIters 0 its ++ fddpEnd its.length e, Late env o := by
  obtain ⟨p1, p2, -⟩ := hp
  have ent : ∀ k (it : Iter V), ∀ o ∈ fddpEntries k it, Late env o := by
    intro k it o q
    simp only [fddpEntries, List.mem_cons, List.not_mem_nil, or_false] at q
    rcases q with rfl | rfl | rfl | rfl | rfl | rfl | rfl | rfl <;>
    · intro f hf
      obtain ⟨h2, hm⟩ := hf
      simp only [fddpKeys, List.forall_mem_cons, List.not_mem_nil, false_imp_iff, implies_true, and_true] at h2
      simp [lit, h2, hm, p1, p2, env.render_empty]
  have it' : ∀ (its : List (Iter V)) k, ∀ o ∈ fddpIters k its, Late env o := by
    intro its
    induction its with
    | nil => simp [fddpIters]
    | cons it its ih =>
      intro k o ho
      rw [fddpIters] at ho
      rcases List.mem_append.mp ho with q | q
      · exact ent k it o q
      · rcases List.mem_cons.mp q with rfl | q
        · trivial
        · exact ih _ o q
  intro o ho
  rcases List.mem_append.mp ho with q | q
  · exact it' its 0 o q
  · cases e with
    | exhausted => simp [fddpEnd] at q; subst q; trivial
    | converged => simp [fddpEnd] at q; rcases q with rfl | rfl <;> trivial
    | left it b =>
      simp only [fddpEnd, List.mem_append, List.mem_cons, List.not_mem_nil, or_false] at q
      rcases q with q | rfl | rfl
      · exact ent _ it o q
      · trivial
      · trivial

/-- The body of a run on a table with at least the columns of FDDP. -/
theorem body_table (env : Env V) (os : List (Op V)) {a : Table} (hf : FSpec a.spec)
    (hb : ∀ o ∈ os, Body o) (hl : ∀ o ∈ os, Late env o) :
    ∃ a' ext, a.run env.render os = some a' ∧ FSpec a'.spec ∧ a'.cols = a.cols ∧ a'.out = a.out ++ ext ∧
      (a.active = false → a'.active = false ∧ a'.holes = a.holes ∧ ext = []) := by
  induction os generalizing a with
  | nil => exact ⟨a, [], rfl, hf, rfl, by simp, fun h => ⟨h, rfl, rfl⟩⟩
  | cons o os ih =>
    have ih' := fun (b : Table) (h : FSpec b.spec) =>
      ih h (fun o h => hb o (List.mem_cons_of_mem _ h)) (fun o h => hl o (List.mem_cons_of_mem _ h))
    have st : ∃ b ext, a.step env.render o = some b ∧ FSpec b.spec ∧ b.cols = a.cols ∧ b.out = a.out ++ ext ∧
        (a.active = false → b.active = false ∧ b.holes = a.holes ∧ ext = []) := by
      have b0 := hb o List.mem_cons_self
      have l0 := hl o List.mem_cons_self
      cases o with
      | addColumn k w f => exact b0.elim
      | headline => exact b0.elim
      | setActive b => exact b0.elim
      | reset => exact b0.elim
      | die i => exact b0.elim
      | finish b =>
        cases ha : a.active
        · exact ⟨a, [], by simp [Table.step, ha], hf, rfl, by simp, fun _ => ⟨ha, rfl, rfl⟩⟩
        · exact ⟨{ a with out := a.out ++ [.finish b] }, [.finish b], by simp [Table.step, ha], hf, rfl, rfl, by simp⟩
      | log =>
        cases ha : a.active
        · exact ⟨a, [], by simp [Table.step, ha], hf, rfl, by simp, fun _ => ⟨ha, rfl, rfl⟩⟩
        · exact ⟨{ a with
              out := a.out ++ [.row (a.cols.map fun n => (a.value n).getD "")]
              holes := a.holes || a.cols.any fun n => (a.value n).isNone
              value := fun u => if u ∈ a.cols ∧ (a.value u).isNone then some "" else a.value u },
            [.row (a.cols.map fun n => (a.value n).getD "")], by rw [Table.step, if_pos ha], hf, rfl, rfl, by simp⟩
      | entry k v =>
        obtain ⟨c, hc⟩ := Option.isSome_iff_exists.mp (l0 _ hf)
        have hk : k.owner = .lit := b0.2
        refine ⟨{ a with
            spec := fill a.spec k.text (0, ""), value := fun u => if u = k.text then some c else a.value u }, [], by rw [Table.step, if_neg (by simp [hk]), hc]; rfl, ?_, rfl, by simp, fun h => ⟨h, rfl, rfl⟩⟩
        refine ⟨fun c hc => ?_, (fill_getD _ _ _).trans hf.2⟩
        have := hf.1 c hc
        simp only [fill]
        rw [if_neg, this]
        rintro ⟨q, r⟩
        rw [← q, this] at r
        simp at r
    obtain ⟨b, x, h1, h2, h3, h4, h5⟩ := st
    obtain ⟨c, y, g1, g2, g3, g4, g5⟩ := ih' b h2
    refine ⟨c, x ++ y, by rw [Table.run, h1, Option.bind_some, g1], g2, g3.trans h3, by rw [g4, h4, List.append_assoc], ?_⟩
    intro ha
    obtain ⟨k1, k2, k3⟩ := h5 ha
    obtain ⟨m1, m2, m3⟩ := g5 k1
    exact ⟨m1, m2.trans k2, by rw [k3, m3]; rfl⟩

/-- The columns are declared once more. -/
theorem columns_again (render : String → Val V → ℕ → Option String) {a : Table} (hh : a.holes = false)
    (hs : FSpec a.spec ∨ a.spec = fun _ => none) :
    ∃ a', a.run render (fddpKeys.map colOp) = some a' ∧ FSpec a'.spec ∧ a'.cols = a.cols ++ fddpKeys.map (·.1) ∧
      a'.out = a.out ∧ a'.holes = false ∧ a'.active = a.active := by
  obtain ⟨ac, cols, spec, value, holes, out⟩ := a
  dsimp only at hh hs
  subst hh
  refine ⟨_, rfl, ?_, ?_, rfl, rfl, rfl⟩
  · rcases hs with ⟨h1, h2⟩ | h
    · simp only [fddpKeys, List.forall_mem_cons, List.not_mem_nil, false_imp_iff, implies_true, and_true] at h1
      refine ⟨?_, ?_⟩
      · simp [fddpKeys, fill, lit, h1]
      · simpa [fill, lit] using h2
    · refine ⟨?_, ?_⟩
      · simp [fddpKeys, fill, lit, h]
      · simp [fill, lit, h]
  · simp [fddpKeys, lit]

end Aligator.Log
