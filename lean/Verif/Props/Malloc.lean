import Verif.Spec.Malloc

/-!
# C80: zones without allocation restore what was allowed before
-/

namespace Aligator.Malloc

theorem callsOf_append (l l' : List Ev) : callsOf (l ++ l') = callsOf l ++ callsOf l' := by
  induction l with
  | nil => rfl
  | cons e l ih => cases e <;> simp [callsOf, ih]

theorem lastEnter_append (l l' : List Ev) : lastEnter (l ++ l') = (lastEnter l').or (lastEnter l) := by
  induction l with
  | nil => simp [lastEnter]
  | cons e l ih => cases e <;> simp [lastEnter, ih]

/-- The saved value is the flag at the last zone entered. -/
theorem cached_eq (p : Prog) : ∀ s : St, (exec p s).st.cached = (lastEnter (exec p s).log).getD s.cached := by
  induction p with
  | skip => intro s; rfl
  | seq p q hp hq =>
    intro s
    simp only [exec]
    split
    · exact hp s
    · dsimp only
      rw [hq, lastEnter_append, hp]
      cases lastEnter (exec q (exec p s).st).log <;> rfl
  | allow b => intro s; rfl
  | scope p ih =>
    intro s
    simp only [exec, lastEnter]
    rw [ih]
    cases lastEnter (exec p ⟨false, s.allowed⟩).log <;> rfl
  | call n => intro s; rfl
  | raise => intro s; rfl
  | attempt p ih => intro s; exact ih s

/-- **C80**: a zone restores the flag exactly if the last zone entered in it, if any, was entered with that value. -/
theorem C80_restores_iff (p : Prog) (s : St) :
    (exec (.scope p) s).st.allowed = s.allowed ↔
      ∀ b, lastEnter (exec p ⟨false, s.allowed⟩).log = some b → b = s.allowed := by
  simp only [exec]
  rw [cached_eq]
  cases lastEnter (exec p ⟨false, s.allowed⟩).log with
  | none => simp
  | some b => simp

theorem noScope_spec (p : Prog) (h : NoScope p) : ∀ s : St, AsIntended p s ∧ (exec p s).st.cached = s.cached := by
  induction p with
  | skip => intro s; exact ⟨⟨rfl, rfl, rfl⟩, rfl⟩
  | seq p q hp hq =>
    intro s
    obtain ⟨⟨a, b, c⟩, d⟩ := hp h.1 s
    obtain ⟨⟨a', b', c'⟩, d'⟩ := hq h.2 (exec p s).st
    rw [a] at a' b' c'
    unfold AsIntended
    simp only [exec, intended, ← c]
    split
    · exact ⟨⟨a, b, c⟩, d⟩
    · exact ⟨⟨a', by rw [callsOf_append, b, b'], c'⟩, d'.trans d⟩
  | allow b => intro s; exact ⟨⟨rfl, rfl, rfl⟩, rfl⟩
  | scope p ih => exact h.elim
  | call n => intro s; exact ⟨⟨rfl, rfl, rfl⟩, rfl⟩
  | raise => intro s; exact ⟨⟨rfl, rfl, rfl⟩, rfl⟩
  | attempt p ih =>
    intro s
    obtain ⟨⟨a, b, c⟩, d⟩ := ih h s
    exact ⟨⟨a, b, rfl⟩, d⟩

/-- **C80**: if zones are not nested, they restore the flag, also when exceptions leave them and when allocation is
allowed or forbidden explicitly within; all code of the user sees the flag it should see. -/
theorem C80_flat_programs_as_intended (p : Prog) (h : Flat p) : ∀ s : St, AsIntended p s := by
  induction p with
  | skip => intro s; exact ⟨rfl, rfl, rfl⟩
  | seq p q hp hq =>
    intro s
    obtain ⟨a, b, c⟩ := hp h.1 s
    obtain ⟨a', b', c'⟩ := hq h.2 (exec p s).st
    rw [a] at a' b' c'
    unfold AsIntended
    simp only [exec, intended, ← c]
    split
    · exact ⟨a, b, c⟩
    · exact ⟨a', by rw [callsOf_append, b, b'], c'⟩
  | allow b => intro s; exact ⟨rfl, rfl, rfl⟩
  | scope p ih =>
    intro s
    obtain ⟨⟨a, b, c⟩, d⟩ := noScope_spec p h ⟨false, s.allowed⟩
    refine ⟨d, ?_, c⟩
    simp only [exec, intended, callsOf]
    exact b
  | call n => intro s; exact ⟨rfl, rfl, rfl⟩
  | raise => intro s; exact ⟨rfl, rfl, rfl⟩
  | attempt p ih =>
    intro s
    obtain ⟨a, b, c⟩ := ih h s
    exact ⟨a, b, rfl⟩

/-- A program that never allows allocation leaves it forbidden if it was. -/
theorem neverAllows_spec (p : Prog) (h : NeverAllows p) : ∀ s : St, s.allowed = false →
    (exec p s).st.allowed = false ∧ (s.cached = false → (exec p s).st.cached = false) ∧
      (∀ e ∈ (exec p s).log, e = .enter false ∨ ∃ n, e = .call n false) := by
  induction p with
  | skip => intro s hs; exact ⟨hs, id, by simp [exec]⟩
  | seq p q hp hq =>
    intro s hs
    obtain ⟨a, b, c⟩ := hp h.1 s hs
    obtain ⟨a', b', c'⟩ := hq h.2 (exec p s).st a
    simp only [exec]
    split
    · exact ⟨a, b, c⟩
    · refine ⟨a', fun hc => b' (b hc), fun e he => ?_⟩
      rcases List.mem_append.1 he with he | he
      · exact c e he
      · exact c' e he
  | allow b => intro s hs; exact ⟨h, id, by simp [exec]⟩
  | scope p ih =>
    intro s hs
    obtain ⟨a, b, c⟩ := ih h ⟨false, s.allowed⟩ rfl
    simp only [exec]
    refine ⟨b hs, fun _ => b hs, fun e he => ?_⟩
    rcases List.mem_cons.1 he with rfl | he
    · left; rw [hs]
    · exact c e he
  | call n => intro s hs; exact ⟨hs, id, by simp [exec, hs]⟩
  | raise => intro s hs; exact ⟨hs, id, by simp [exec]⟩
  | attempt p ih =>
    intro s hs
    exact ih h s hs

/-- **C80** (negative): a zone in which another zone is entered, and in which allocation is not allowed explicitly, leaves
allocation forbidden, whatever it was before. -/
theorem C80_nested_zone_forbids (p : Prog) (h : NeverAllows p) (s : St)
    (hn : lastEnter (exec p ⟨false, s.allowed⟩).log ≠ none) : (exec (.scope p) s).st.allowed = false := by
  obtain ⟨-, -, c⟩ := neverAllows_spec p h ⟨false, s.allowed⟩ rfl
  have hc := cached_eq p ⟨false, s.allowed⟩
  simp only [exec]
  rw [hc]
  have key : ∀ (l : List Ev), (∀ e ∈ l, e = .enter false ∨ ∃ n, e = .call n false) → lastEnter l ≠ none →
      lastEnter l = some false := by
    intro l
    induction l with
    | nil => intro _ h; exact absurd rfl h
    | cons e l ih =>
      intro h1 h2
      rcases h1 e (by simp) with rfl | ⟨n, rfl⟩
      · simp only [lastEnter]
        by_cases hl : lastEnter l = none
        · rw [hl]; rfl
        · rw [ih (fun e he => h1 e (by simp [he])) hl]; rfl
      · simp only [lastEnter] at h2 ⊢
        exact ih (fun e he => h1 e (by simp [he])) h2
  rw [key _ c hn]; rfl

/-! ### The solvers -/

theorem flat_seqs (l : List Prog) (h : ∀ p ∈ l, Flat p) : Flat (seqs l) := by
  induction l with
  | nil => trivial
  | cons p l ih => exact ⟨h p (by simp), ih fun q hq => h q (by simp [hq])⟩

theorem never_seqs (l : List Prog) (h : ∀ p ∈ l, NeverAllows p) : NeverAllows (seqs l) := by
  induction l with
  | nil => trivial
  | cons p l ih => exact ⟨h p (by simp), ih fun q hq => h q (by simp [hq])⟩

theorem proxddp_flat {l : Lin} (hl : l ≠ .parallel) (loops : List (List Turn)) : Flat (proxddp l loops) := by
  refine flat_seqs _ fun p hp => ?_
  obtain ⟨ts, -, rfl⟩ := List.mem_map.1 hp
  refine ⟨⟨trivial, trivial⟩, flat_seqs _ fun p hp => ?_⟩
  obtain ⟨t, -, rfl⟩ := List.mem_map.1 hp
  cases t with
  | done => exact flat_seqs _ (by simp [Flat, NoScope])
  | step k n =>
    refine flat_seqs _ fun p hp => ?_
    simp only [List.mem_cons, List.not_mem_nil, or_false] at hp
    rcases hp with rfl | rfl | rfl | rfl | rfl | rfl | rfl | rfl | rfl
    · trivial
    · trivial
    · trivial
    · trivial
    · cases l <;> first | trivial | exact absurd rfl hl
    · cases l <;> first | trivial | exact absurd rfl hl
    · trivial
    · refine flat_seqs _ fun p hp => ?_
      rw [List.eq_of_mem_replicate hp]
      exact ⟨trivial, trivial, trivial⟩
    · trivial

theorem backward_never (k : ℕ) (l : Lin) : NeverAllows (backward k l) := by
  cases l
  · trivial
  · exact never_seqs _ fun p hp => by rw [List.eq_of_mem_replicate hp]; trivial
  · trivial

theorem forward_never (l : Lin) : NeverAllows (forward l) := by cases l <;> trivial

theorem turn_never (l : Lin) (t : Turn) : NeverAllows (turn l t) := by
  cases t with
  | done => exact never_seqs _ (by simp [NeverAllows])
  | step k n =>
    refine never_seqs _ fun p hp => ?_
    simp only [List.mem_cons, List.not_mem_nil, or_false] at hp
    rcases hp with rfl | rfl | rfl | rfl | rfl | rfl | rfl | rfl | rfl
    · trivial
    · trivial
    · trivial
    · trivial
    · exact backward_never k l
    · exact forward_never l
    · trivial
    · refine never_seqs _ fun p hp => ?_
      rw [List.eq_of_mem_replicate hp]
      exact ⟨trivial, trivial, trivial⟩
    · trivial

theorem proxddp_never (l : Lin) (loops : List (List Turn)) : NeverAllows (proxddp l loops) := by
  refine never_seqs _ fun p hp => ?_
  obtain ⟨ts, -, rfl⟩ := List.mem_map.1 hp
  refine ⟨⟨trivial, trivial⟩, never_seqs _ fun p hp => ?_⟩
  obtain ⟨t, -, rfl⟩ := List.mem_map.1 hp
  exact turn_never l t

/-- What is intended of a program that neither allows nor forbids: the flag stays, all code of the user sees it unless it
runs in a zone. -/
theorem intended_seqs (b : Bool) (l : List Prog)
    (h : ∀ p ∈ l, (intended p b).1 = b ∧ (∀ c ∈ (intended p b).2.1, c.2 = b) ∧ (intended p b).2.2 = false) :
    (intended (seqs l) b).1 = b ∧ (∀ c ∈ (intended (seqs l) b).2.1, c.2 = b) ∧ (intended (seqs l) b).2.2 = false := by
  induction l with
  | nil => exact ⟨rfl, by simp [seqs, intended], rfl⟩
  | cons p l ih =>
    obtain ⟨a1, a2, a3⟩ := h p (by simp)
    obtain ⟨b1, b2, b3⟩ := ih fun q hq => h q (by simp [hq])
    simp only [seqs, intended, a3, a1, if_false, Bool.false_eq_true]
    refine ⟨b1, fun c hc => ?_, b3⟩
    rcases List.mem_append.1 hc with hc | hc
    · exact a2 c hc
    · exact b2 c hc

theorem intended_proxddp (b : Bool) (l : Lin) (loops : List (List Turn)) :
    (intended (proxddp l loops) b).1 = b ∧ (∀ c ∈ (intended (proxddp l loops) b).2.1, c.2 = b) ∧
      (intended (proxddp l loops) b).2.2 = false := by
  have hs : ∀ (p : List Prog), (∀ q ∈ p, ∃ r, q = .scope r ∧ (intended r false).2 = ([], false)) →
      (intended (seqs p) false).2 = ([], false) := by
    intro p
    induction p with
    | nil => intro _; rfl
    | cons q p ih =>
      intro h
      obtain ⟨r, rfl, hr⟩ := h q (by simp)
      have := ih fun q hq => h q (by simp [hq])
      simp [seqs, intended, hr, this]
  have hb : ∀ k, (intended (backward k l) b).1 = b ∧ (∀ c ∈ (intended (backward k l) b).2.1, c.2 = b) ∧
      (intended (backward k l) b).2.2 = false := by
    intro k
    cases l
    · simp [backward, intended]
    · simp only [backward, intended]
      rw [hs _ fun q hq => ⟨.skip, List.eq_of_mem_replicate hq, rfl⟩]
      simp
    · simp [backward, intended]
  have hf : (intended (forward l) b).1 = b ∧ (∀ c ∈ (intended (forward l) b).2.1, c.2 = b) ∧
      (intended (forward l) b).2.2 = false := by
    cases l <;> simp [forward, intended]
  have hev : (intended evaluate b).1 = b ∧ (∀ c ∈ (intended evaluate b).2.1, c.2 = b) ∧
      (intended evaluate b).2.2 = false := by simp [evaluate, intended]
  refine intended_seqs b _ fun p hp => ?_
  obtain ⟨ts, -, rfl⟩ := List.mem_map.1 hp
  have ht := intended_seqs b (ts.map (turn l)) fun p hp => by
    obtain ⟨t, -, rfl⟩ := List.mem_map.1 hp
    cases t with
    | done => exact intended_seqs b _ (by simp [intended])
    | step k n =>
      refine intended_seqs b _ fun p hp => ?_
      simp only [List.mem_cons, List.not_mem_nil, or_false] at hp
      rcases hp with rfl | rfl | rfl | rfl | rfl | rfl | rfl | rfl | rfl
      · simp [intended]
      · simp [intended]
      · simp [intended]
      · simp [intended]
      · exact hb k
      · exact hf
      · simp [intended]
      · refine intended_seqs b _ fun p hp => ?_
        rw [List.eq_of_mem_replicate hp]
        simp [trial, evaluate, intended]
      · simp [intended]
  simp only [innerLoop, intended, hev.1, hev.2.2, Bool.false_eq_true, if_false]
  refine ⟨ht.1, fun c hc => ?_, ht.2.2⟩
  rcases List.mem_append.1 hc with hc | hc
  · exact hev.2.1 c hc
  · exact ht.2.1 c hc

/-- **C80**: with the serial and the dense linear solver, ProxDDP leaves the flag as it was and all functions of the user,
in all iterations, run with the flag as it was. -/
theorem C80_proxddp_restores {l : Lin} (hl : l ≠ .parallel) (loops : List (List Turn)) (s : St) :
    (exec (proxddp l loops) s).st.allowed = s.allowed ∧
      ∀ c ∈ callsOf (exec (proxddp l loops) s).log, c.2 = s.allowed := by
  obtain ⟨a, b, -⟩ := C80_flat_programs_as_intended _ (proxddp_flat hl loops) s
  obtain ⟨c, d, -⟩ := intended_proxddp s.allowed l loops
  exact ⟨a.trans c, fun x hx => d x (by rw [← b]; exact hx)⟩

theorem exec_seq {p : Prog} {s : St} (h : (exec p s).raised = false) (q : Prog) :
    exec (.seq p q) s = ⟨(exec q (exec p s).st).st, (exec p s).log ++ (exec q (exec p s).st).log,
      (exec q (exec p s).st).raised⟩ := by
  simp [exec, h]

theorem exec_allow (b : Bool) (q : Prog) (s : St) : exec (.seq (.allow b) q) s = exec q ⟨b, s.cached⟩ := by
  simp [exec]

theorem exec_call (n : ℕ) (q : Prog) (s : St) :
    exec (.seq (.call n) q) s = ⟨(exec q s).st, .call n s.allowed :: (exec q s).log, (exec q s).raised⟩ := by
  simp [exec]

theorem exec_zone (q : Prog) (s : St) : exec (.seq (.scope .skip) q) s =
    ⟨(exec q ⟨s.allowed, s.allowed⟩).st, .enter s.allowed :: (exec q ⟨s.allowed, s.allowed⟩).log,
      (exec q ⟨s.allowed, s.allowed⟩).raised⟩ := by
  simp [exec]

theorem quiet_seqs (l : List Prog) (h : ∀ p ∈ l, ∀ s, (exec p s).raised = false) :
    ∀ s, (exec (seqs l) s).raised = false := by
  induction l with
  | nil => intro s; rfl
  | cons p l ih =>
    intro s
    rw [seqs, exec_seq (h p (by simp) s)]
    exact ih (fun q hq => h q (by simp [hq])) _

theorem quiet_scope {p : Prog} (h : ∀ s, (exec p s).raised = false) (s : St) : (exec (.scope p) s).raised = false :=
  h _

theorem backward_parallel_forbids (k : ℕ) (s : St) : (exec (backward k .parallel) s).st.allowed = false := by
  refine C80_nested_zone_forbids _ (never_seqs _ fun p hp => by rw [List.eq_of_mem_replicate hp]; trivial) s ?_
  simp only [List.replicate_succ, seqs, exec, Bool.false_eq_true, if_false, lastEnter_append]
  simp [lastEnter]

theorem turn_quiet (t : Turn) : ∀ s, (exec (turn .parallel t) s).raised = false := by
  cases t with
  | done => exact fun s => rfl
  | step k n =>
    refine quiet_seqs _ fun p hp s => ?_
    simp only [List.mem_cons, List.not_mem_nil, or_false] at hp
    rcases hp with rfl | rfl | rfl | rfl | rfl | rfl | rfl | rfl | rfl
    · rfl
    · rfl
    · rfl
    · rfl
    · exact quiet_scope (quiet_seqs _ fun p hp s => by rw [List.eq_of_mem_replicate hp]; rfl) s
    · rfl
    · rfl
    · exact quiet_seqs _ (fun p hp s => by rw [List.eq_of_mem_replicate hp]; rfl) s
    · rfl

theorem calls_false {l : List Ev} (h : ∀ e ∈ l, e = .enter false ∨ ∃ n, e = .call n false) :
    ∀ c ∈ callsOf l, c.2 = false := by
  induction l with
  | nil => simp [callsOf]
  | cons e l ih =>
    have ih' := ih fun e he => h e (by simp [he])
    rcases h e (by simp) with rfl | ⟨n, rfl⟩
    · exact ih'
    · intro c hc
      rcases List.mem_cons.1 hc with rfl | hc
      · rfl
      · exact ih' c hc

theorem mem_callsOf {l : List Ev} {n : ℕ} {b : Bool} (h : .call n b ∈ l) : (n, b) ∈ callsOf l := by
  induction l with
  | nil => simp at h
  | cons e l ih =>
    rcases List.mem_cons.1 h with rfl | h'
    · simp [callsOf]
    · cases e <;> simp [callsOf, ih h']

/-- **C80**: each pass of the parallel solver leaves allocation forbidden, each pass of the others restores the flag. -/
theorem C80_passes (k : ℕ) (l : Lin) (s : St) :
    (exec (backward k l) s).st.allowed = (if l = .parallel then false else s.allowed) ∧
      (exec (forward l) s).st.allowed = (if l = .parallel then false else s.allowed) := by
  cases l with
  | parallel => exact ⟨backward_parallel_forbids k s, rfl⟩
  | serial => exact ⟨rfl, rfl⟩
  | dense => exact ⟨rfl, rfl⟩

/-- **C80** (negative): with the parallel linear solver, after its first call allocation is forbidden: the trial steps, the
functions of the user in them and the callbacks of that iteration and everything after it run with the flag off, although
it was on, and it is off when the solver returns. -/
theorem C80_parallel_solver_forbids (k n : ℕ) (ts : List Turn) (loops : List (List Turn)) (s : St) :
    let o := exec (proxddp .parallel ((.step k n :: ts) :: loops)) s
    o.st.allowed = false ∧
      ∃ rest, callsOf o.log = (functions, s.allowed) :: (functions, s.allowed) :: rest ∧
        (∀ c ∈ rest, c.2 = false) ∧ (n ≠ 0 → (functions, false) ∈ rest) ∧ (callbacks, false) ∈ rest := by
  have qs : ∀ s, (exec (.scope .skip) s).raised = false := fun s => rfl
  have qb : ∀ s, (exec (backward k .parallel) s).raised = false :=
    quiet_scope (quiet_seqs _ fun p hp s => by rw [List.eq_of_mem_replicate hp]; rfl)
  have qt : ∀ s, (exec (seqs (List.replicate n trial)) s).raised = false :=
    quiet_seqs _ fun p hp s => by rw [List.eq_of_mem_replicate hp]; rfl
  -- the part after the call of `backward`
  let R : Prog := seqs [forward .parallel, .scope .skip, seqs (List.replicate n trial), .call callbacks]
  have qR : ∀ s, (exec R s).raised = false := quiet_seqs _ fun p hp s => by
    simp only [List.mem_cons, List.not_mem_nil, or_false] at hp
    rcases hp with rfl | rfl | rfl | rfl
    · rfl
    · rfl
    · exact qt s
    · rfl
  have nR : NeverAllows R := never_seqs _ fun p hp => by
    simp only [List.mem_cons, List.not_mem_nil, or_false] at hp
    rcases hp with rfl | rfl | rfl | rfl
    · trivial
    · trivial
    · refine never_seqs _ fun p hp => ?_
      rw [List.eq_of_mem_replicate hp]
      exact ⟨trivial, trivial, trivial⟩
    · trivial
  let B := backward k .parallel
  let b : St := (exec B ⟨s.allowed, s.allowed⟩).st
  have hb : b.allowed = false := backward_parallel_forbids k _
  have eT : exec (turn .parallel (.step k n)) ⟨s.allowed, s.allowed⟩ = ⟨(exec R b).st,
      [.call functions s.allowed, .enter s.allowed, .enter s.allowed, .enter s.allowed] ++
        ((exec B ⟨s.allowed, s.allowed⟩).log ++ (exec R b).log), false⟩ := by
    show exec (.seq (.call functions) (.seq (.scope .skip) (.seq (.scope .skip) (.seq (.scope .skip) (.seq B R))))) _ = _
    rw [exec_seq (p := .call functions) rfl, exec_seq (p := .scope .skip) rfl, exec_seq (p := .scope .skip) rfl,
      exec_seq (p := .scope .skip) rfl]
    rw [exec_seq (p := B) (qb _)]
    simp only [qR]
    rfl
  let TS := seqs (ts.map (turn .parallel))
  let L := seqs (loops.map (innerLoop .parallel))
  have nTS : NeverAllows TS := never_seqs _ fun p hp => by
    obtain ⟨t, -, rfl⟩ := List.mem_map.1 hp
    exact turn_never _ t
  have nL : NeverAllows L := proxddp_never .parallel loops
  have eR : exec (.seq (turn .parallel (.step k n)) TS) ⟨s.allowed, s.allowed⟩ = _ := exec_seq (by rw [eT]) TS
  rw [eT] at eR
  dsimp only at eR
  obtain ⟨r1, -, r3⟩ := neverAllows_spec R nR b hb
  obtain ⟨t1, -, t3⟩ := neverAllows_spec TS nTS _ r1
  obtain ⟨l1, -, l3⟩ := neverAllows_spec L nL _ t1
  have e1 : exec (innerLoop .parallel (.step k n :: ts)) s = ⟨(exec TS (exec R b).st).st,
      [.call functions s.allowed, .enter s.allowed] ++ (([.call functions s.allowed, .enter s.allowed, .enter s.allowed,
        .enter s.allowed] ++ ((exec B ⟨s.allowed, s.allowed⟩).log ++ (exec R b).log)) ++ (exec TS (exec R b).st).log),
      (exec TS (exec R b).st).raised⟩ := by
    show exec (.seq evaluate (.seq (turn .parallel (.step k n)) TS)) s = _
    rw [exec_seq (p := evaluate) rfl]
    have es : (exec evaluate s).st = ⟨s.allowed, s.allowed⟩ := rfl
    rw [es, eR]
    rfl
  have lR : (exec R b).log = (exec (forward .parallel) b).log ++ ((exec (.scope .skip) (exec (forward .parallel) b).st).log ++
      ((exec (seqs (List.replicate n trial)) (exec (.scope .skip) (exec (forward .parallel) b).st).st).log ++
        [.call callbacks (exec (seqs (List.replicate n trial)) (exec (.scope .skip)
          (exec (forward .parallel) b).st).st).st.allowed])) := by
    show (exec (.seq (forward .parallel) (.seq (.scope .skip) (.seq (seqs (List.replicate n trial))
      (.seq (.call callbacks) .skip)))) b).log = _
    rw [exec_seq (p := forward .parallel) rfl, exec_seq (p := .scope .skip) rfl, exec_seq (qt _)]
    rfl
  have qTS : ∀ s, (exec TS s).raised = false := quiet_seqs _ fun p hp => by
    obtain ⟨t, -, rfl⟩ := List.mem_map.1 hp
    exact turn_quiet t
  have eo : exec (proxddp .parallel ((.step k n :: ts) :: loops)) s = _ :=
    exec_seq (p := innerLoop .parallel (.step k n :: ts)) (by rw [e1]; exact qTS _) L
  rw [e1] at eo
  dsimp only at eo
  rw [eo]
  refine ⟨l1, callsOf (exec B ⟨s.allowed, s.allowed⟩).log ++ callsOf (exec R b).log ++
    callsOf (exec TS (exec R b).st).log ++ callsOf (exec L (exec TS (exec R b).st).st).log, ?_, ?_, ?_, ?_⟩
  · simp [callsOf_append, callsOf]
  · intro c hc
    simp only [List.mem_append] at hc
    rcases hc with ((hc | hc) | hc) | hc
    · have hB := (neverAllows_spec (seqs (List.replicate (k + 1) (.scope .skip)))
        (never_seqs _ fun p hp => by rw [List.eq_of_mem_replicate hp]; trivial) ⟨false, s.allowed⟩ rfl).2.2
      exact calls_false hB c hc
    · exact calls_false r3 c hc
    · exact calls_false t3 c hc
    · exact calls_false l3 c hc
  · intro hn
    obtain ⟨m, rfl⟩ := Nat.exists_eq_succ_of_ne_zero hn
    have hm : ∃ y, Ev.call functions y ∈ (exec R b).log := by
      refine ⟨(exec (.scope .skip) (exec (forward .parallel) b).st).st.allowed, ?_⟩
      rw [lR]
      simp only [List.mem_append, List.replicate_succ, seqs]
      right; right; left
      rw [exec_seq (p := trial) rfl]
      exact List.mem_append_left _ (by simp [trial, evaluate, exec])
    obtain ⟨y, hy⟩ := hm
    have hy' : y = false := by
      rcases r3 _ hy with h | ⟨n, h⟩
      · cases h
      · cases h; rfl
    subst hy'
    simp only [List.mem_append]
    exact .inl (.inl (.inr (mem_callsOf hy)))
  · have hm : ∃ y, Ev.call callbacks y ∈ (exec R b).log := by
      refine ⟨(exec (seqs (List.replicate n trial)) (exec (.scope .skip)
          (exec (forward .parallel) b).st).st).st.allowed, ?_⟩
      rw [lR]
      simp only [List.mem_append]
      right; right; right
      exact List.mem_singleton.2 rfl
    obtain ⟨y, hy⟩ := hm
    have hy' : y = false := by
      rcases r3 _ hy with h | ⟨n, h⟩
      · cases h
      · cases h; rfl
    subst hy'
    simp only [List.mem_append]
    exact .inl (.inl (.inr (mem_callsOf hy)))

/-- It applies: a run of two iterations, one trial each, with two block solves. -/
example : (exec (proxddp .parallel [[.step 1 1, .step 1 1, .done]]) .start).st.allowed = false ∧
    (exec (proxddp .serial [[.step 1 1, .step 1 1, .done]]) .start).st.allowed = true :=
  ⟨(C80_parallel_solver_forbids 1 1 _ [] .start).1, (C80_proxddp_restores (by decide) _ .start).1⟩

/-! ### FDDP -/

theorem stages_spec (oks : List Bool) (c : Bool) :
    (exec (seqs (oks.map fddpStage)) ⟨false, c⟩).st = ⟨false, c⟩ ∧
    (exec (seqs (oks.map fddpStage)) ⟨false, c⟩).raised = oks.contains false ∧
    ∀ e ∈ callsOf (exec (seqs (oks.map fddpStage)) ⟨false, c⟩).log, e.2 = (e.1 == functions) := by
  induction oks with
  | nil => exact ⟨rfl, rfl, by simp [seqs, exec, callsOf]⟩
  | cons ok oks ih =>
    cases ok with
    | false =>
      refine ⟨rfl, rfl, ?_⟩
      simp [seqs, exec, fddpStage, callsOf, functions, manifold]
    | true =>
      obtain ⟨a, b, c'⟩ := ih
      have h : exec (fddpStage true) ⟨false, c⟩ = ⟨⟨false, c⟩, [.call manifold false, .call functions true,
        .call manifold false, .call manifold false], false⟩ := rfl
      have e : exec (seqs ((true :: oks).map fddpStage)) ⟨false, c⟩ = _ :=
        exec_seq (p := fddpStage true) (by rw [h]) (seqs (oks.map fddpStage))
      rw [h] at e
      dsimp only at e
      rw [e]
      refine ⟨a, by simp [b], fun x hx => ?_⟩
      dsimp only at hx
      rw [callsOf_append] at hx
      rcases List.mem_append.1 hx with hx | hx
      · simp [callsOf] at hx
        rcases hx with rfl | rfl | rfl | rfl <;> rfl
      · exact c' x hx

theorem fddpForward_spec (oks : List Bool) (s : St) :
    (exec (fddpForward oks) s).st = ⟨!oks.contains false, s.cached⟩ ∧
    (exec (fddpForward oks) s).raised = oks.contains false ∧
    ∀ e ∈ callsOf (exec (fddpForward oks) s).log, e.2 = (e.1 == functions) := by
  obtain ⟨a, b, c⟩ := stages_spec oks s.cached
  have e : exec (fddpForward oks) s = _ := exec_seq (p := .allow false) rfl (.seq (.call manifold)
    (.seq (seqs (oks.map fddpStage)) (seqs [.allow true, .call functions, .allow false, .call manifold, .allow true])))
  rw [exec_seq (p := .call manifold) rfl] at e
  have hst : (exec (.call manifold) (exec (.allow false) s).st).st = ⟨false, s.cached⟩ := rfl
  rw [hst] at e
  rw [e]
  dsimp only
  cases hc : oks.contains false with
  | true =>
    have hr := b.trans hc
    have : exec (.seq (seqs (oks.map fddpStage)) (seqs [.allow true, .call functions, .allow false, .call manifold,
        .allow true])) ⟨false, s.cached⟩ = exec (seqs (oks.map fddpStage)) ⟨false, s.cached⟩ := by
      simp only [exec, hr, if_true]
    rw [this]
    refine ⟨a, hr, fun x hx => ?_⟩
    rw [callsOf_append, callsOf_append] at hx
    simp only [List.mem_append] at hx
    rcases hx with hx | hx | hx
    · simp [exec, callsOf] at hx
    · simp [exec, callsOf] at hx
      subst hx; rfl
    · exact c x hx
  | false =>
    have hr := b.trans hc
    rw [exec_seq hr, a]
    refine ⟨rfl, rfl, fun x hx => ?_⟩
    rw [callsOf_append, callsOf_append, callsOf_append] at hx
    simp only [List.mem_append] at hx
    rcases hx with hx | hx | hx | hx
    · simp [exec, callsOf] at hx
    · simp [exec, callsOf] at hx
      subst hx; rfl
    · exact c x hx
    · simp [seqs, exec, callsOf] at hx
      rcases hx with rfl | rfl <;> rfl

/-- **C80**: in a trial of FDDP the functions of the problem may allocate, the operations of the manifolds may not,
whatever the flag was before; after it allocation is allowed exactly if no state or control was NaN: the exception, which
the line search swallows, leaves it forbidden. -/
theorem C80_fddp_trial (oks : List Bool) (s : St) :
    (exec (fddpTrial oks) s).st.allowed = !oks.contains false ∧ (exec (fddpTrial oks) s).raised = false ∧
    ∀ e ∈ callsOf (exec (fddpTrial oks) s).log, e.2 = (e.1 == functions) := by
  obtain ⟨a, b, c⟩ := fddpForward_spec oks s
  unfold fddpTrial
  cases hc : oks.contains false with
  | true =>
    have hr := b.trans hc
    have : exec (.seq (fddpForward oks) (.seq (.allow false) (.allow true))) s = exec (fddpForward oks) s := by
      simp only [exec, hr, if_true]
    simp only [exec]
    simp only [exec] at this
    rw [this, a, hc]
    exact ⟨rfl, trivial, c⟩
  | false =>
    have hr := b.trans hc
    have : exec (.seq (fddpForward oks) (.seq (.allow false) (.allow true))) s = _ := exec_seq hr _
    simp only [exec]
    simp only [exec] at this
    rw [this]
    exact ⟨rfl, trivial, by simpa using c⟩

theorem trials_spec (l : List (List Bool)) (oks : List Bool) : ∀ s : St,
    (exec (seqs ((l ++ [oks]).map fddpTrial)) s).st.allowed = !oks.contains false ∧
    (exec (seqs ((l ++ [oks]).map fddpTrial)) s).raised = false := by
  induction l with
  | nil =>
    intro s
    have e : exec (seqs (([] ++ [oks]).map fddpTrial)) s = _ := exec_seq (p := fddpTrial oks) (C80_fddp_trial oks s).2.1 .skip
    rw [e]
    exact ⟨(C80_fddp_trial oks s).1, rfl⟩
  | cons a l ih =>
    intro s
    have e : exec (seqs ((a :: l ++ [oks]).map fddpTrial)) s = _ :=
      exec_seq (p := fddpTrial a) (C80_fddp_trial a s).2.1 (seqs ((l ++ [oks]).map fddpTrial))
    rw [e]
    exact ih _

/-- **C80** (negative): a turn of FDDP whose last trial has a NaN leaves allocation forbidden for the callbacks and the
derivatives of the next turn; otherwise a turn with trials leaves it allowed, even where it was forbidden before the
solver was called. -/
theorem C80_fddp_turn (trials : List (List Bool)) (oks : List Bool) (s : St) :
    (exec (fddpTurn (trials ++ [oks])) s).st.allowed = !oks.contains false ∧
    (functions, s.allowed) ∈ callsOf (exec (fddpTurn (trials ++ [oks])) s).log ∧
    (callbacks, !oks.contains false) ∈ callsOf (exec (fddpTurn (trials ++ [oks])) s).log := by
  let T := seqs ((trials ++ [oks]).map fddpTrial)
  let s1 : St := ⟨true, true⟩
  obtain ⟨a, b⟩ := trials_spec trials oks s1
  have e : exec (fddpTurn (trials ++ [oks])) s = ⟨(exec T s1).st, [.call functions s.allowed, .call manifold false,
      .enter true] ++ ((exec T s1).log ++ [.call callbacks (exec T s1).st.allowed]), false⟩ := by
    let X := Prog.seq T (.seq (.call callbacks) .skip)
    have e1 : exec X s1 = ⟨(exec T s1).st, (exec T s1).log ++ [.call callbacks (exec T s1).st.allowed], false⟩ :=
      exec_seq b _
    have e2 : exec (fddpTurn (trials ++ [oks])) s = ⟨(exec X s1).st, [.call functions s.allowed, .call manifold false,
        .enter true] ++ (exec X s1).log, (exec X s1).raised⟩ := by
      show exec (.seq (.call functions) (.seq (.allow false) (.seq (.call manifold) (.seq (.allow true) (.seq (.allow false)
        (.seq (.allow true) (.seq (.allow false) (.seq (.allow true) (.seq (.scope .skip) (.seq (.allow false)
        (.seq (.allow true) X))))))))))) s = _
      rw [exec_call, exec_allow, exec_call, exec_allow, exec_allow, exec_allow, exec_allow, exec_allow, exec_zone,
        exec_allow, exec_allow]
      rfl
    rw [e2, e1]
  rw [e]
  refine ⟨a, ?_, ?_⟩
  · simp [callsOf]
  · dsimp only
    rw [callsOf_append, callsOf_append, a]
    simp [callsOf]

/-- Both outcomes occur. -/
example : (exec (fddpTurn [[true, true], [true, false]]) .start).st.allowed = false ∧
    (exec (fddpTurn [[true, false], [true, true]]) ⟨false, false⟩).st.allowed = true :=
  ⟨(C80_fddp_turn [[true, true]] [true, false] .start).1, (C80_fddp_turn [[true, false]] [true, true] _).1⟩

/-- **C80**: the Hessian of a quadratic residual cost restores the flag; without the Gauss-Newton approximation the
residual may allocate even where that was forbidden. -/
theorem C80_quadratic_hessian (gn : Bool) (s : St) :
    (exec (quadHessians gn) s).st.allowed = s.allowed ∧
      callsOf (exec (quadHessians gn) s).log = if gn then [] else [(functions, true)] := by
  cases gn <;> exact ⟨rfl, rfl⟩

end Aligator.Malloc
