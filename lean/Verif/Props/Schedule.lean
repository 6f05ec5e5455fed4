import Verif.Lemmas.TrajOptProblem
import Verif.Props.GetWork

/-!
# Schedule independence of the parallel regions (C10)
-/

namespace Aligator.Prob

open Aligator.Sched

variable {A X U D : Type*} [DecidableEq A]

/-- **C10** `evaluate`: for any number of threads, any distribution of the stages and any interleaving, the
resulting problem data and the returned cost are the same, provided the data objects are distinct. -/
theorem C10_evaluate_schedule_independent (value : D → ℝ) (P : Problem X U D) (xs : List X) (us : List U)
    (d : Data A) (hnd : d.addrs.Nodup) (m : A → D) (o o' : Outcome (A → D) ℝ)
    (h : Evaluate value P xs us d m o) (h' : Evaluate value P xs us d m o') : o = o' := by
  cases h with
  | error hs =>
    cases h' with
    | error => rfl
    | ub h1 h2 _ => omega
    | ok x0 xN m2 h1 h2 => omega
  | ub h1 h2 h3 =>
    cases h' with
    | error hs => omega
    | ub => rfl
    | ok x0 xN m2 _ _ hr => exact absurd hr h3
  | ok x0 xN m1 h1 h2 h3 h4 h5 hp =>
    cases h' with
    | error hs => omega
    | ub _ _ hr => exact absurd h3 hr
    | ok x0' xN' m2 _ _ _ h4' h5' hp' =>
      cases Option.some.inj (h4.symm.trans h4')
      cases Option.some.inj (h5.symm.trans h5')
      rw [parallelFor_eq (fun i _ j _ hne => evaluateStage_indep hnd hne) hp,
        parallelFor_eq (fun i _ j _ hne => evaluateStage_indep hnd hne) hp']

/-- **C10** `computeDerivatives`: the same. -/
theorem C10_derivatives_schedule_independent (P : Problem X U D) (second : Bool) (xs : List X) (us : List U)
    (d : Data A) (hnd : d.addrs.Nodup) (m : A → D) (o o' : Outcome (A → D) Unit)
    (h : ComputeDerivatives P second xs us d m o) (h' : ComputeDerivatives P second xs us d m o') :
    o = o' := by
  cases h with
  | error hs =>
    cases h' with
    | error => rfl
    | ub h1 h2 _ => omega
    | ok x0 xN m2 h1 h2 => omega
  | ub h1 h2 h3 =>
    cases h' with
    | error hs => omega
    | ub => rfl
    | ok x0 xN m2 _ _ hr => exact absurd hr h3
  | ok x0 xN m1 h1 h2 h3 h4 h5 hp =>
    cases h' with
    | error hs => omega
    | ub _ _ hr => exact absurd h3 hr
    | ok x0' xN' m2 _ _ _ h4' h5' hp' =>
      cases Option.some.inj (h4.symm.trans h4')
      cases Option.some.inj (h5.symm.trans h5')
      rw [parallelFor_eq (fun i _ j _ hne => derivativesStage_indep hnd hne) hp,
        parallelFor_eq (fun i _ j _ hne => derivativesStage_indep hnd hne) hp']

/-- **C10** Data made by the constructor of the problem data satisfies the hypothesis, and all accesses
are in range: every `createData()` returns a new object. -/
theorem C10_created_data_is_private (P : Problem X U D) (next : ℕ) :
    (P.createData next).1.addrs.Nodup ∧ InRange P (P.createData next).1 :=
  ⟨createData_nodup P next, createData_inRange P next⟩

/-- A stage whose cost stores the state in its data object. -/
def raceStage : StageModel ℝ Unit ℝ :=
  { cost := ⟨fun x _ => [fun _ => x], fun _ _ => [], fun _ _ => []⟩
    dynamics := ⟨fun _ _ => [], fun _ _ => []⟩
    constraints := [] }

/-- Two such stages. -/
def raceProblem : Problem ℝ Unit ℝ :=
  { init_constraint := ⟨fun _ _ => [], fun _ _ => []⟩
    stages := [raceStage, raceStage]
    term_cost := ⟨fun _ _ => [fun _ => 0], fun _ _ => [], fun _ _ => []⟩
    term_cstrs := []
    unone := () }

/-- Data where both stages share the cost data object. -/
def raceData : Data ℕ :=
  { init_data := 10, stage_data := [⟨[], 0, 1⟩, ⟨[], 0, 2⟩], term_cost_data := 11, term_cstr_data := [] }

/-- **C10** With a shared data object the result does depend on the schedule: the two orders of the stages
return different costs. -/
theorem C10_shared_data_depends_on_schedule :
    ∃ m₁ m₂ : ℕ → ℝ, Evaluate id raceProblem [1, 2, 3] [(), ()] raceData (fun _ => 0) (.ok m₁ 4) ∧
      Evaluate id raceProblem [1, 2, 3] [(), ()] raceData (fun _ => 0) (.ok m₂ 2) := by
  have hr : InRange raceProblem raceData := by
    refine ⟨by simp [raceProblem, raceData], ?_, by simp [raceProblem, raceData]⟩
    intro i h h'
    have : i = 0 ∨ i = 1 := by simp [raceProblem] at h; omega
    rcases this with rfl | rfl <;> simp [raceProblem, raceStage]
  have mk : ∀ is : List ℕ, is.Perm [0, 1] → ∃ m', Evaluate id raceProblem [1, 2, 3] [(), ()] raceData
      (fun _ => 0) (.ok m' (computeTrajectoryCost id raceData (run (evaluateTerm raceProblem 3 raceData)
        (run (is.flatMap (evaluateStage raceProblem [1, 2, 3] [(), ()] raceData))
          (run (raceProblem.init_constraint.evaluate.at 1 raceProblem.unone raceData.init_data)
            fun _ => 0))))) := by
    intro is hp
    refine ⟨_, .ok 1 3 _ rfl rfl hr rfl rfl ⟨[is], is.flatMap _, by
      simpa [raceProblem, List.range_succ] using hp, ?_, rfl⟩⟩
    simpa using interleave_sequential [is.flatMap (evaluateStage raceProblem [1, 2, 3] [(), ()] raceData)]
  obtain ⟨m₁, h₁⟩ := mk [0, 1] (List.Perm.refl _)
  obtain ⟨m₂, h₂⟩ := mk [1, 0] (List.Perm.swap _ _ _)
  refine ⟨m₁, m₂, ?_, ?_⟩
  · convert h₁ using 2
    simp [computeTrajectoryCost, raceData, evaluateTerm, raceProblem, raceStage, evaluateStage, run, Callback.at,
      constraintLoop, StageModel.evaluate, Op.exec]
    norm_num
  · convert h₂ using 2
    simp [computeTrajectoryCost, raceData, evaluateTerm, raceProblem, raceStage, evaluateStage, run, Callback.at,
      constraintLoop, StageModel.evaluate, Op.exec]
    norm_num

/-- Non-vacuity: with its own data, the same problem evaluates to `1 + 2 + 0`. -/
example : ∃ m', Evaluate id raceProblem [1, 2, 3] [(), ()] (raceProblem.createData 0).1 (fun _ => 0)
    (.ok m' 3) := by
  have h := Evaluate.ok (value := id) (P := raceProblem) (xs := [1, 2, 3]) (us := [(), ()])
    (m := fun _ => 0) 1 3 _ rfl rfl (createData_inRange raceProblem 0) rfl rfl (parallelFor_seq _ _ _)
  refine ⟨_, by
    convert h using 2
    simp [computeTrajectoryCost, Problem.createData, createStageData, StageModel.createData, evaluateTerm,
      raceProblem, raceStage, evaluateStage, run, Callback.at, constraintLoop, StageModel.evaluate, Op.exec,
      seqFor, List.range_succ]
    norm_num⟩

end Aligator.Prob

namespace Aligator.Sched

variable {V : Type*}

theorem range_disjoint {N nthr i j t : ℕ} (h0 : 0 < nthr) (hij : i ≠ j)
    (hi : (Gar.getWork N i nthr).beg ≤ t) (hi' : t < (Gar.getWork N i nthr).stop)
    (hj : (Gar.getWork N j nthr).beg ≤ t) (hj' : t < (Gar.getWork N j nthr).stop) : False :=
  hij ((Gar.C09_partition N nthr h0 t).2 i j hi hi' hj hj')

theorem backwardLeg_mem {fT fS : ℕ → List V → V} {beg stop : ℕ} {o : Op Cell V}
    (h : o ∈ backwardLeg fT fS beg stop) :
    ∃ t, beg ≤ t ∧ t < stop ∧ o.tgt = .data t ∧
      ∀ c, o.reads c → ∃ s, beg ≤ s ∧ s < stop ∧ c = .data s := by
  unfold backwardLeg at h
  split at h
  · simp at h
  rename_i hlt
  rcases List.mem_cons.1 h with rfl | h
  · refine ⟨stop - 1, by omega, by omega, rfl, fun c hc => ?_⟩
    simp only [Op.ofList, List.mem_singleton] at hc
    exact ⟨stop - 1, by omega, by omega, hc⟩
  · obtain ⟨t, ht, rfl⟩ := List.mem_map.1 h
    simp only [List.mem_reverse, List.mem_range'_1] at ht
    refine ⟨t, by omega, by omega, rfl, fun c hc => ?_⟩
    simp only [Op.ofList, List.mem_cons, List.not_mem_nil, or_false] at hc
    rcases hc with rfl | rfl
    · exact ⟨t, by omega, by omega, rfl⟩
    · exact ⟨t + 1, by omega, by omega, rfl⟩

/-- **C10** The backward pass of the parallel LQ solver has no data race: whatever the interleaving of
the threads, the factors are those of the legs factored one after the other. -/
theorem C10_parallel_backward_race_free (fT fS : ℕ → List V → V) (N nthr : ℕ) (h0 : 0 < nthr)
    (m m' : Cell → V) (h : ParallelRegion (backwardThread fT fS N nthr) nthr m m') :
    m' = seqFor (backwardThread fT fS N nthr) nthr m := by
  refine parallelRegion_eq (fun i _ j _ hij p hp q hq => ?_) h
  obtain ⟨t, h1, h2, ht, hr⟩ := backwardLeg_mem hp
  obtain ⟨s, h3, h4, hs, hr'⟩ := backwardLeg_mem hq
  refine ⟨?_, fun hc => ?_, fun hc => ?_⟩
  · rw [ht, hs]
    intro e
    cases e
    exact range_disjoint h0 hij h1 h2 h3 h4
  · obtain ⟨r, h5, h6, e⟩ := hr _ hc
    rw [hs] at e; cases e
    exact range_disjoint h0 hij h5 h6 h3 h4
  · obtain ⟨r, h5, h6, e⟩ := hr' _ hc
    rw [ht] at e; cases e
    exact range_disjoint h0 hij h1 h2 h5 h6

/-- What a thread of the forward pass touches: it writes `us[t]`, `vs[t]` of its range and `xs[t]`,
`lbdas[t]` of its range except the first one; besides its range it only reads `lbdas[end]`. -/
theorem forwardLeg_mem {fU fV fX fL : ℕ → List V → V} {last : Bool} {beg stop : ℕ} {o : Op Cell V}
    (h : o ∈ forwardLeg fU fV fX fL last beg stop) :
    (∃ t, beg ≤ t ∧ t < stop ∧ (o.tgt = .u t ∨ o.tgt = .v t ∨ (beg < t ∧ (o.tgt = .x t ∨ o.tgt = .l t)))) ∧
      ∀ c, o.reads c → (c = .l stop ∨ ∃ s, (beg ≤ s ∧ s < stop ∧ (c = .u s ∨ c = .v s ∨ c = .x s)) ∨
        c = .data s) := by
  unfold forwardLeg at h
  obtain ⟨t, ht, h⟩ := List.mem_flatMap.1 h
  rw [List.mem_range'_1] at ht
  have hth : ∀ c, c ∈ (if last = true then ([] : List Cell) else [.l stop]) → c = .l stop := by
    intro c hc
    split at hc <;> simp_all
  unfold forwardStage at h
  generalize (if last = true then ([] : List Cell) else [.l stop]) = th at h hth
  simp only [List.mem_append, List.mem_cons, List.not_mem_nil, or_false] at h
  rcases h with (rfl | rfl) | h
  · refine ⟨⟨t, by omega, by omega, .inl rfl⟩, fun c hc => ?_⟩
    simp only [Op.ofList, List.mem_cons] at hc
    rcases hc with rfl | rfl | rfl | hc
    · exact .inr ⟨t, .inr rfl⟩
    · exact .inr ⟨t, .inl ⟨by omega, by omega, .inl rfl⟩⟩
    · exact .inr ⟨t, .inl ⟨by omega, by omega, .inr (.inr rfl)⟩⟩
    · exact .inl (hth c hc)
  · refine ⟨⟨t, by omega, by omega, .inr (.inl rfl)⟩, fun c hc => ?_⟩
    simp only [Op.ofList, List.mem_cons] at hc
    rcases hc with rfl | rfl | rfl | hc
    · exact .inr ⟨t, .inr rfl⟩
    · exact .inr ⟨t, .inl ⟨by omega, by omega, .inr (.inl rfl)⟩⟩
    · exact .inr ⟨t, .inl ⟨by omega, by omega, .inr (.inr rfl)⟩⟩
    · exact .inl (hth c hc)
  · split at h
    · simp only [List.mem_cons, List.not_mem_nil, or_false] at h
      rcases h with rfl | rfl
      · refine ⟨⟨t + 1, by omega, by omega, .inr (.inr ⟨by omega, .inl rfl⟩)⟩, fun c hc => ?_⟩
        simp only [Op.ofList, List.mem_cons] at hc
        rcases hc with rfl | rfl | hc
        · exact .inr ⟨t, .inr rfl⟩
        · exact .inr ⟨t, .inl ⟨by omega, by omega, .inr (.inr rfl)⟩⟩
        · exact .inl (hth c hc)
      · refine ⟨⟨t + 1, by omega, by omega, .inr (.inr ⟨by omega, .inr rfl⟩)⟩, fun c hc => ?_⟩
        simp only [Op.ofList, List.mem_cons] at hc
        rcases hc with rfl | rfl | hc
        · exact .inr ⟨t + 1, .inr rfl⟩
        · exact .inr ⟨t + 1, .inl ⟨by omega, by omega, .inr (.inr rfl)⟩⟩
        · exact .inl (hth c hc)
    · simp at h

/-- What a leg of the forward pass leaves behind, with `th` the cells of the parameter. -/
theorem forwardStages_values (fU fV fX fL : ℕ → List V → V) (th : List Cell) (stop : ℕ) (hth : ∀ c ∈ th, c = .l stop)
    (k beg : ℕ) (hk : beg + k = stop) (m : Cell → V) :
    ∀ t, beg ≤ t → t < stop →
      let m' := run ((List.range' beg k).flatMap (forwardStage fU fV fX fL th stop)) m
      m' (.u t) = fU t (m (.data t) :: m (.u t) :: m' (.x t) :: th.map m) ∧
      m' (.v t) = fV t (m (.data t) :: m (.v t) :: m' (.x t) :: th.map m) ∧
      (t + 1 < stop → m' (.x (t + 1)) = fX t (m (.data t) :: m' (.x t) :: th.map m) ∧
        m' (.l (t + 1)) = fL t (m (.data (t + 1)) :: m' (.x (t + 1)) :: th.map m)) := by
  induction k generalizing beg m with
  | zero => intro t h1 h2; omega
  | succ k ih =>
    intro t h1 h2 m'
    set rest := (List.range' (beg + 1) k).flatMap (forwardStage fU fV fX fL th stop) with hrest
    have hm' : m' = run rest (run (forwardStage fU fV fX fL th stop beg) m) := by
      show run _ m = _
      rw [List.range'_succ, List.flatMap_cons, run_append]
    set m1 := run (forwardStage fU fV fX fL th stop beg) m with hm1
    have hw : ∀ o ∈ rest, ∃ s, beg + 1 ≤ s ∧ s < stop ∧
        (o.tgt = .u s ∨ o.tgt = .v s ∨ (beg + 1 < s ∧ (o.tgt = .x s ∨ o.tgt = .l s))) := by
      intro o ho
      obtain ⟨s, hs, ho⟩ := List.mem_flatMap.1 ho
      rw [List.mem_range'_1] at hs
      unfold forwardStage at ho
      simp only [List.mem_append, List.mem_cons, List.not_mem_nil, or_false] at ho
      rcases ho with (rfl | rfl) | ho
      · exact ⟨s, by omega, by omega, .inl rfl⟩
      · exact ⟨s, by omega, by omega, .inr (.inl rfl)⟩
      · split at ho
        · simp only [List.mem_cons, List.not_mem_nil, or_false] at ho
          rcases ho with rfl | rfl
          · exact ⟨s + 1, by omega, by omega, .inr (.inr ⟨by omega, .inl rfl⟩)⟩
          · exact ⟨s + 1, by omega, by omega, .inr (.inr ⟨by omega, .inr rfl⟩)⟩
        · simp at ho
    have hne : ∀ c, (∀ s, beg + 1 ≤ s → s < stop → c ≠ .u s ∧ c ≠ .v s ∧ (beg + 1 < s → c ≠ .x s ∧ c ≠ .l s)) →
        m' c = m1 c := by
      intro c hc
      rw [hm']
      refine run_frame _ _ (fun o ho e => ?_) _
      obtain ⟨s, a, b, h⟩ := hw o ho
      obtain ⟨c1, c2, c3⟩ := hc s a b
      rcases h with h | h | ⟨h', h | h⟩
      · exact c1 (e.symm.trans h)
      · exact c2 (e.symm.trans h)
      · exact (c3 h').1 (e.symm.trans h)
      · exact (c3 h').2 (e.symm.trans h)
    have hm1c : ∀ c, c ≠ .u beg → c ≠ .v beg → (beg + 1 < stop → c ≠ .x (beg + 1) ∧ c ≠ .l (beg + 1)) → m1 c = m c := by
      intro c a b d
      refine run_frame _ _ (fun o ho e => ?_) _
      unfold forwardStage at ho
      simp only [List.mem_append, List.mem_cons, List.not_mem_nil, or_false] at ho
      rcases ho with (rfl | rfl) | ho
      · exact a e.symm
      · exact b e.symm
      · split at ho
        · rename_i hlt
          simp only [List.mem_cons, List.not_mem_nil, or_false] at ho
          rcases ho with rfl | rfl
          · exact (d hlt).1 e.symm
          · exact (d hlt).2 e.symm
        · simp at ho
    have hthm : th.map m1 = th.map m := by
      refine List.map_congr_left fun c hc => ?_
      rw [hth c hc]
      exact hm1c _ (by simp) (by simp) (fun h => ⟨by simp, by simp; omega⟩)
    rcases Nat.lt_or_ge beg t with hlt | hge
    · have := ih (beg + 1) (by omega) m1 t hlt h2
      dsimp only at this
      rw [← hrest, ← hm', hthm, hm1c (.data t) (by simp) (by simp) (by simp), hm1c (.data (t + 1)) (by simp) (by simp) (by simp),
        hm1c (.u t) (by simp; omega) (by simp) (by simp), hm1c (.v t) (by simp) (by simp; omega) (by simp)] at this
      exact this
    · obtain rfl : t = beg := by omega
      have ex : m' (.x t) = m (.x t) := by
        rw [hne _ (by simp; omega), hm1c _ (by simp) (by simp) (by simp)]
      have hth2 (g : Cell → V) (hg : g (.l stop) = m (.l stop)) : th.map g = th.map m := by
        refine List.map_congr_left fun c hc => ?_
        rw [hth c hc, hg]
      rw [hne (.u t) (by simp; omega), hne (.v t) (by simp; omega), ex]
      have hx1 : m' (.x (t + 1)) = m1 (.x (t + 1)) := hne _ (by simp; omega)
      have hl1 : m' (.l (t + 1)) = m1 (.l (t + 1)) := hne _ (by simp; omega)
      rw [hx1, hl1, hm1]
      unfold forwardStage
      by_cases hs : t + 1 < stop
      · rw [if_pos hs]
        have hs' : stop ≠ t + 1 := by omega
        refine ⟨?_, ?_, fun _ => ⟨?_, ?_⟩⟩ <;>
          simp only [run, List.cons_append, List.nil_append, List.foldl_cons, List.foldl_nil, Op.exec, Op.ofList,
            Function.update_apply, List.map_cons] <;> simp <;> repeat rw [hth2 (Function.update _ _ _) (by simp [hs'])]
      · rw [if_neg hs]
        refine ⟨?_, ?_, fun h => absurd h hs⟩ <;>
          simp only [run, List.cons_append, List.nil_append, List.foldl_cons, List.foldl_nil, Op.exec, Op.ofList,
            Function.update_apply, List.map_cons] <;> simp <;> try rw [hth2 _ (by simp)]

theorem forward_no_touch {fU fV fX fL : ℕ → List V → V} {N nthr i j : ℕ} (h0 : 0 < nthr)
    (hne : nthr ≤ N + 1) (hij : i ≠ j) {p q : Op Cell V}
    (hj : j < nthr)
    (hp : p ∈ forwardThread fU fV fX fL N nthr i) (hq : q ∈ forwardThread fU fV fX fL N nthr j) :
    ¬ p.reads q.tgt := by
  intro hc
  obtain ⟨s, h3, h4, hs⟩ := (forwardLeg_mem hq).1
  rcases (forwardLeg_mem hp).2 _ hc with e | ⟨r, ⟨h5, h6, e⟩ | e⟩
  · -- `lbdas[end]` is the first entry of the range of the next thread, which nobody writes
    have hls : (Gar.getWork N j nthr).beg < s ∧ s = (Gar.getWork N i nthr).stop := by
      rw [e] at hs; rcases hs with h | h | ⟨h, h' | h'⟩ <;> simp_all
    have hb : (Gar.getWork N i nthr).stop = (Gar.getWork N (i + 1) nthr).beg := rfl
    have hn := (Gar.C09_nonempty_iff N nthr h0).2 hne
    by_cases hi : i + 1 < nthr
    · have hlen := hn (i + 1) hi
      have := (Gar.C09_partition N nthr h0 s).2 j (i + 1) h3 h4 (by omega) (by omega)
      subst this
      omega
    · have hst := ((Gar.C09_ranges_chain N nthr h0).2.1)
      have hsN : s ≤ N := ((Gar.C09_partition N nthr h0 s).1).2 ⟨j, hj, h3, h4⟩
      have : (Gar.getWork N (nthr - 1) nthr).stop ≤ (Gar.getWork N i nthr).stop :=
        Nat.div_le_div_right (Nat.mul_le_mul_right _ (by omega))
      omega
  · have : s = r := by
      rcases e with e | e | e <;> rw [e] at hs <;> rcases hs with h | h | ⟨_, h | h⟩ <;>
        first | (cases h; rfl) | cases h
    subst this
    exact range_disjoint h0 hij h5 h6 h3 h4
  · rw [e] at hs; rcases hs with h | h | ⟨_, h | h⟩ <;> simp at h

/-- **C10** The forward pass of the parallel LQ solver has no data race when every thread has a stage: in
particular the parameter `lbdas[end]` read by a thread is not written by the next one. -/
theorem C10_parallel_forward_race_free (fU fV fX fL : ℕ → List V → V) (N nthr : ℕ) (h0 : 0 < nthr)
    (hne : nthr ≤ N + 1) (m m' : Cell → V)
    (h : ParallelRegion (forwardThread fU fV fX fL N nthr) nthr m m') :
    m' = seqFor (forwardThread fU fV fX fL N nthr) nthr m := by
  refine parallelRegion_eq (fun i hi j hj hij p hp q hq => ⟨?_, ?_, ?_⟩) h
  · obtain ⟨t, h1, h2, ht⟩ := (forwardLeg_mem hp).1
    obtain ⟨s, h3, h4, hs⟩ := (forwardLeg_mem hq).1
    intro e
    have : t = s := by
      rcases ht with a | a | ⟨_, a | a⟩ <;> rcases hs with b | b | ⟨_, b | b⟩ <;>
        rw [a, b] at e <;> first | (cases e; rfl) | cases e
    subst this
    exact range_disjoint h0 hij h1 h2 h3 h4
  · exact forward_no_touch h0 hne hij hj hp hq
  · exact forward_no_touch h0 hne hij.symm hi hq hp

/-- Non-vacuity: the threads of a horizon of 4 with 2 threads do interfere with their own stages, and the
region has executions. -/
example (f : ℕ → List ℕ → ℕ) (m : Cell → ℕ) :
    ∃ m', ParallelRegion (forwardThread f f f f 4 2) 2 m m' :=
  ⟨_, _, interleave_sequential _, rfl⟩

/-- **C10** What the forward pass of the parallel LQ solver leaves behind, for every interleaving of the threads, in terms
of the memory before and after: on each leg the recursion is that of the serial pass from the entries which the condensed
system wrote at its start, with the multiplier at the end of the leg as the parameter, except on the last leg, which has
none.  The entries at the start of the legs and the factors keep their values. -/
theorem C10_parallel_forward_values (fU fV fX fL : ℕ → List V → V) (N nthr : ℕ) (h0 : 0 < nthr)
    (hne : nthr ≤ N + 1) (m m' : Cell → V)
    (h : ParallelRegion (forwardThread fU fV fX fL N nthr) nthr m m') (i : ℕ) (hi : i < nthr) :
    let b := (Gar.getWork N i nthr).beg
    let e := (Gar.getWork N i nthr).stop
    let th := if i + 1 < nthr then [m (.l e)] else []
    m' (.x b) = m (.x b) ∧ m' (.l b) = m (.l b) ∧ (∀ t, m' (.data t) = m (.data t)) ∧
    ∀ t, b ≤ t → t < e →
      m' (.u t) = fU t (m (.data t) :: m (.u t) :: m' (.x t) :: th) ∧
      m' (.v t) = fV t (m (.data t) :: m (.v t) :: m' (.x t) :: th) ∧
      (t + 1 < e → m' (.x (t + 1)) = fX t (m (.data t) :: m' (.x t) :: th) ∧
        m' (.l (t + 1)) = fL t (m (.data (t + 1)) :: m' (.x (t + 1)) :: th)) := by
  intro b e th
  have hm := C10_parallel_forward_race_free fU fV fX fL N nthr h0 hne m m' h
  have hn := (Gar.C09_nonempty_iff N nthr h0).2 hne
  have hbe : b < e := hn i hi
  -- the other threads
  set L := fun j => forwardThread fU fV fX fL N nthr j with hL
  have hother : ∀ j, j < nthr → j ≠ i → ∀ o ∈ L j, (∀ t, o.tgt ≠ .data t) ∧ (∀ t, b ≤ t → t < e →
      o.tgt ≠ .u t ∧ o.tgt ≠ .v t ∧ o.tgt ≠ .x t ∧ o.tgt ≠ .l t) ∧ (i + 1 < nthr → o.tgt ≠ .l e) := by
    intro j hj hji o ho
    obtain ⟨s, h3, h4, hs⟩ := (forwardLeg_mem ho).1
    have key : ∀ t, b ≤ t → t < e → t ≠ s := by
      rintro t ht1 ht2 rfl
      exact range_disjoint h0 hji h3 h4 ht1 ht2
    refine ⟨?_, fun t ht1 ht2 => ?_, fun hi1 hl => ?_⟩
    · rcases hs with a | a | ⟨_, a | a⟩ <;> simp [a]
    · have := key t ht1 ht2
      rcases hs with a | a | ⟨_, a | a⟩ <;> simp [a] <;> omega
    · have hls : (Gar.getWork N j nthr).beg < s ∧ s = e := by
        rw [hl] at hs; rcases hs with h | h | ⟨h, h' | h'⟩ <;> simp_all
      have hb : e = (Gar.getWork N (i + 1) nthr).beg := rfl
      have hlen := hn (i + 1) hi1
      have := (Gar.C09_partition N nthr h0 s).2 j (i + 1) h3 h4 (by omega) (by omega)
      subst this
      omega
  -- split the sequence at thread `i`
  obtain ⟨pre, post, hsplit, hpre, hpost⟩ : ∃ pre post, List.range nthr = pre ++ i :: post ∧ i ∉ pre ∧ i ∉ post := by
    obtain ⟨pre, post, hs⟩ := List.append_of_mem (List.mem_range.2 hi)
    have hnd := List.nodup_range (n := nthr)
    rw [hs] at hnd
    have := List.nodup_middle.1 hnd
    simp only [List.nodup_cons, List.mem_append, not_or] at this
    exact ⟨pre, post, hs, this.1.1, this.1.2⟩
  have hmem : ∀ j, j ∈ pre ∨ j ∈ post → j < nthr ∧ j ≠ i := by
    intro j hj
    refine ⟨List.mem_range.1 (by rw [hsplit]; rcases hj with hj | hj <;> simp [hj]), ?_⟩
    rintro rfl
    exact hj.elim hpre hpost
  set mA := run (pre.flatMap L) m with hmA
  set mB := run (L i) mA with hmB
  have hmC : m' = run (post.flatMap L) mB := by
    rw [hm, seqFor, hsplit, List.flatMap_append, List.flatMap_cons, run_append, run_append]
  have hA : ∀ c, (∀ j, j < nthr → j ≠ i → ∀ o ∈ L j, o.tgt ≠ c) → mA c = m c ∧ m' c = mB c := by
    intro c hc
    refine ⟨run_frame _ _ (fun o ho => ?_) _, ?_⟩
    · obtain ⟨j, hj, ho⟩ := List.mem_flatMap.1 ho
      exact hc j (hmem j (.inl hj)).1 (hmem j (.inl hj)).2 o ho
    · rw [hmC]
      refine run_frame _ _ (fun o ho => ?_) _
      obtain ⟨j, hj, ho⟩ := List.mem_flatMap.1 ho
      exact hc j (hmem j (.inr hj)).1 (hmem j (.inr hj)).2 o ho
  have hd (t : ℕ) := hA (.data t) fun j a c o ho => (hother j a c o ho).1 t
  have hu (t : ℕ) (h1 : b ≤ t) (h2 : t < e) := hA (.u t) fun j a c o ho => ((hother j a c o ho).2.1 t h1 h2).1
  have hv (t : ℕ) (h1 : b ≤ t) (h2 : t < e) := hA (.v t) fun j a c o ho => ((hother j a c o ho).2.1 t h1 h2).2.1
  have hx (t : ℕ) (h1 : b ≤ t) (h2 : t < e) := hA (.x t) fun j a c o ho => ((hother j a c o ho).2.1 t h1 h2).2.2.1
  have hl (t : ℕ) (h1 : b ≤ t) (h2 : t < e) := hA (.l t) fun j a c o ho => ((hother j a c o ho).2.1 t h1 h2).2.2.2
  have hB : ∀ c, (∀ s, b ≤ s → s < e → c ≠ .u s ∧ c ≠ .v s ∧ (b < s → c ≠ .x s ∧ c ≠ .l s)) → mB c = mA c := by
    intro c hc
    refine run_frame _ _ (fun o ho ec => ?_) _
    obtain ⟨s, h3, h4, hs⟩ := (forwardLeg_mem ho).1
    obtain ⟨c1, c2, c3⟩ := hc s h3 h4
    rcases hs with a | a | ⟨h', a | a⟩
    · exact c1 (ec.symm.trans a)
    · exact c2 (ec.symm.trans a)
    · exact (c3 h').1 (ec.symm.trans a)
    · exact (c3 h').2 (ec.symm.trans a)
  refine ⟨?_, ?_, fun t => ?_, fun t h1 h2 => ?_⟩
  · rw [(hx b le_rfl hbe).2, hB _ (by simp; omega), (hx b le_rfl hbe).1]
  · rw [(hl b le_rfl hbe).2, hB _ (by simp; omega), (hl b le_rfl hbe).1]
  · rw [(hd t).2, hB _ (by simp), (hd t).1]
  · have hlast : (!(decide (i < nthr - 1))) = !(decide (i + 1 < nthr)) := by
      congr 2; rw [eq_iff_iff]; omega
    have := forwardStages_values fU fV fX fL (if (!(decide (i + 1 < nthr))) = true then [] else [.l e]) e
      (by intro c hc; split at hc <;> simp_all) (e - b) b (by omega) mA t h1 h2
    have hLi : L i = (List.range' b (e - b)).flatMap
        (forwardStage fU fV fX fL (if (!(decide (i + 1 < nthr))) = true then [] else [.l e]) e) := by
      simp only [hL]
      unfold forwardThread forwardLeg
      rw [hlast]
    dsimp only at this
    rw [← hLi, ← hmB] at this
    have hthe : (if (!(decide (i + 1 < nthr))) = true then [] else [Cell.l e]).map mA = th := by
      simp only [th]
      by_cases hi1 : i + 1 < nthr
      · have := (hA (.l e) fun j a c o ho => (hother j a c o ho).2.2 hi1).1
        simp [hi1, this]
      · simp [hi1]
    rw [hthe, (hd t).1, (hd (t + 1)).1, (hu t h1 h2).1, (hv t h1 h2).1] at this
    rw [(hu t h1 h2).2, (hv t h1 h2).2, (hx t h1 h2).2]
    refine ⟨this.1, this.2.1, fun h3 => ?_⟩
    rw [(hx (t + 1) (by omega) h3).2, (hl (t + 1) (by omega) h3).2]
    exact this.2.2 h3

/-- Non-vacuity of the values: two threads on a horizon of 4, the first leg is `[0, 2)` and has the multiplier at 2 as its
parameter, the second has none. -/
example (f : ℕ → List ℕ → ℕ) (m : Cell → ℕ) : ∃ m', ParallelRegion (forwardThread f f f f 4 2) 2 m m' ∧
    m' (.u 1) = f 1 [m (.data 1), m (.u 1), f 0 [m (.data 0), m (.x 0), m (.l 2)], m (.l 2)] ∧
    m' (.u 2) = f 2 [m (.data 2), m (.u 2), m (.x 2)] := by
  refine ⟨_, ⟨_, interleave_sequential _, rfl⟩, ?_⟩
  have a := C10_parallel_forward_values f f f f 4 2 (by simp) (by simp) m _ ⟨_, interleave_sequential _, rfl⟩ 0 (by simp)
  have b := C10_parallel_forward_values f f f f 4 2 (by simp) (by simp) m _ ⟨_, interleave_sequential _, rfl⟩ 1 (by simp)
  have w0 : Gar.getWork 4 0 2 = ⟨0, 2⟩ := rfl
  have w1 : Gar.getWork 4 1 2 = ⟨2, 5⟩ := rfl
  simp only [w0, w1] at a b
  obtain ⟨a1, -, -, a2⟩ := a
  obtain ⟨b1, -, -, b2⟩ := b
  refine ⟨?_, ?_⟩
  · rw [(a2 1 (by simp) (by simp)).1, ((a2 0 (by simp) (by simp)).2.2 (by simp)).1, a1]
    simp
  · rw [(b2 2 (by simp) (by simp)).1, b1]
    simp

/-- What a leg of the backward pass leaves behind, from the last knot down to `beg`. -/
theorem backwardSteps_values (fS : ℕ → List V → V) (k beg : ℕ) (m : Cell → V) :
    ∀ t, beg ≤ t → t < beg + k →
      let m' := run ((List.range' beg k).reverse.map fun t => Op.ofList (Cell.data t) [Cell.data t, Cell.data (t + 1)] (fS t)) m
      m' (.data t) = fS t [m (.data t), m' (.data (t + 1))] := by
  induction k generalizing m with
  | zero => intro t h1 h2; omega
  | succ k ih =>
    intro t h1 h2 m'
    set o : Op Cell V := .ofList (.data (beg + k)) [.data (beg + k), .data (beg + k + 1)] (fS (beg + k)) with ho
    set rest := (List.range' beg k).reverse.map fun t => Op.ofList (Cell.data t) [Cell.data t, Cell.data (t + 1)] (fS t) with hrest
    have hm' : m' = run rest (o.exec m) := by
      show run _ m = _
      rw [List.range'_concat, List.reverse_append, List.map_append, run_append]
      simp [run, ho, hrest]
    have hfr : ∀ s, beg + k ≤ s → m' (.data s) = o.exec m (.data s) := by
      intro s hs
      rw [hm']
      refine run_frame _ _ (fun p hp => ?_) _
      obtain ⟨r, hr, rfl⟩ := List.mem_map.1 hp
      simp only [List.mem_reverse, List.mem_range'_1] at hr
      simp only [Op.ofList, ne_eq, Cell.data.injEq]
      omega
    have hex : ∀ s, s ≠ beg + k → o.exec m (.data s) = m (.data s) := by
      intro s hs
      rw [Op.exec, Function.update_of_ne (by simpa [ho, Op.ofList] using hs)]
    rcases Nat.lt_or_ge t (beg + k) with hlt | hge
    · have := ih (o.exec m) t h1 hlt
      dsimp only at this
      rw [← hm', hex t (by omega)] at this
      exact this
    · obtain rfl : t = beg + k := by omega
      rw [hfr _ le_rfl, hfr (beg + k + 1) (by omega), hex (beg + k + 1) (by omega)]
      simp [Op.exec, ho, Op.ofList]

/-- **C10** What the backward pass of the parallel LQ solver leaves behind, for every interleaving of the threads: on each
leg the last factor is computed from itself alone, as that of a terminal knot, and every other one from itself and from the
new factor after it; no factor of another leg enters. -/
theorem C10_parallel_backward_values (fT fS : ℕ → List V → V) (N nthr : ℕ) (h0 : 0 < nthr)
    (m m' : Cell → V) (h : ParallelRegion (backwardThread fT fS N nthr) nthr m m') (i : ℕ) (hi : i < nthr) :
    let b := (Gar.getWork N i nthr).beg
    let e := (Gar.getWork N i nthr).stop
    ∀ t, b ≤ t → t < e →
      m' (.data t) = if t + 1 = e then fT t [m (.data t)] else fS t [m (.data t), m' (.data (t + 1))] := by
  intro b e t h1 h2
  have hm := C10_parallel_backward_race_free fT fS N nthr h0 m m' h
  set L := fun j => backwardThread fT fS N nthr j with hL
  obtain ⟨pre, post, hsplit, hpre, hpost⟩ : ∃ pre post, List.range nthr = pre ++ i :: post ∧ i ∉ pre ∧ i ∉ post := by
    obtain ⟨pre, post, hs⟩ := List.append_of_mem (List.mem_range.2 hi)
    have hnd := List.nodup_range (n := nthr)
    rw [hs] at hnd
    have := List.nodup_middle.1 hnd
    simp only [List.nodup_cons, List.mem_append, not_or] at this
    exact ⟨pre, post, hs, this.1.1, this.1.2⟩
  have hother : ∀ j, j ≠ i → ∀ o ∈ L j, ∀ s, b ≤ s → s < e → o.tgt ≠ .data s := by
    intro j hji o ho s hs1 hs2 he
    obtain ⟨r, h3, h4, hr, -⟩ := backwardLeg_mem ho
    rw [hr] at he; cases he
    exact range_disjoint h0 hji h3 h4 hs1 hs2
  set mA := run (pre.flatMap L) m with hmA
  set mB := run (L i) mA with hmB
  have hmC : m' = run (post.flatMap L) mB := by
    rw [hm, seqFor, hsplit, List.flatMap_append, List.flatMap_cons, run_append, run_append]
  have hA : ∀ s, b ≤ s → s < e → mA (.data s) = m (.data s) ∧ m' (.data s) = mB (.data s) := by
    intro s hs1 hs2
    refine ⟨run_frame _ _ (fun o ho => ?_) _, ?_⟩
    · obtain ⟨j, hj, ho⟩ := List.mem_flatMap.1 ho
      exact hother j (fun he => hpre (he ▸ hj)) o ho s hs1 hs2
    · rw [hmC]
      refine run_frame _ _ (fun o ho => ?_) _
      obtain ⟨j, hj, ho⟩ := List.mem_flatMap.1 ho
      exact hother j (fun he => hpost (he ▸ hj)) o ho s hs1 hs2
  have hbe : ¬ e ≤ b := by omega
  set oT : Op Cell V := .ofList (.data (e - 1)) [.data (e - 1)] (fT (e - 1)) with hoT
  have hLi : L i = oT :: ((List.range' b (e - 1 - b)).reverse.map fun t =>
      Op.ofList (Cell.data t) [Cell.data t, Cell.data (t + 1)] (fS t)) := by
    simp only [hL]
    unfold backwardThread backwardLeg
    rw [if_neg hbe]
  have hB : mB = run ((List.range' b (e - 1 - b)).reverse.map fun t =>
      Op.ofList (Cell.data t) [Cell.data t, Cell.data (t + 1)] (fS t)) (oT.exec mA) := by
    rw [hmB, hLi, run_cons]
  split_ifs with ht
  · have : t = e - 1 := by omega
    subst this
    rw [(hA _ h1 h2).2, hB, run_frame]
    · simp [Op.exec, hoT, Op.ofList, (hA _ h1 h2).1]
    · intro o ho
      obtain ⟨r, hr, rfl⟩ := List.mem_map.1 ho
      simp only [List.mem_reverse, List.mem_range'_1] at hr
      simp only [Op.ofList, ne_eq, Cell.data.injEq]
      omega
  · have := backwardSteps_values fS (e - 1 - b) b (oT.exec mA) t h1 (by omega)
    dsimp only at this
    rw [← hB] at this
    rw [(hA t h1 h2).2, (hA (t + 1) (by omega) (by omega)).2, this, Op.exec,
      Function.update_of_ne (by simp [hoT, Op.ofList]; omega), (hA t h1 h2).1]

/-- Non-vacuity: two threads on a horizon of 4; the factor of knot 1 ends the first leg. -/
example (f g : ℕ → List ℕ → ℕ) (m : Cell → ℕ) : ∃ m', ParallelRegion (backwardThread f g 4 2) 2 m m' ∧
    m' (.data 0) = g 0 [m (.data 0), f 1 [m (.data 1)]] := by
  refine ⟨_, ⟨_, interleave_sequential _, rfl⟩, ?_⟩
  have a := C10_parallel_backward_values f g 4 2 (by simp) m _ ⟨_, interleave_sequential _, rfl⟩ 0 (by simp)
  have w0 : Gar.getWork 4 0 2 = ⟨0, 2⟩ := rfl
  simp only [w0] at a
  rw [a 0 (by simp) (by simp), a 1 (by simp) (by simp)]
  simp

end Aligator.Sched
