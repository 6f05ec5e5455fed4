import Verif.Model.Schedule
import Mathlib.Data.List.Perm.Basic
import Mathlib.Data.List.Nodup

/-! # Lemmas on interleavings -/

namespace Aligator.Sched

variable {A V : Type*} [DecidableEq A]

/-- Two steps that do not touch what the other one writes. -/
def Op.Indep (o p : Op A V) : Prop := o.tgt ≠ p.tgt ∧ ¬ o.reads p.tgt ∧ ¬ p.reads o.tgt

/-- No step of one program touches what the other one writes. -/
def ProgIndep (p q : List (Op A V)) : Prop := ∀ a ∈ p, ∀ b ∈ q, a.Indep b

theorem Op.Indep.symm {o p : Op A V} (h : o.Indep p) : p.Indep o := ⟨Ne.symm h.1, h.2.2, h.2.1⟩

theorem ProgIndep.symm {p q : List (Op A V)} (h : ProgIndep p q) : ProgIndep q p :=
  fun a ha b hb => (h b hb a ha).symm

theorem Op.Indep.comm {o p : Op A V} (h : o.Indep p) (m : A → V) :
    p.exec (o.exec m) = o.exec (p.exec m) := by
  have h1 : p.val (o.exec m) = p.val m := p.dep _ _ fun a ha => by
    unfold Op.exec; rw [Function.update_of_ne]; rintro rfl; exact h.2.2 ha
  have h2 : o.val (p.exec m) = o.val m := o.dep _ _ fun a ha => by
    unfold Op.exec; rw [Function.update_of_ne]; rintro rfl; exact h.2.1 ha
  rw [Op.exec, h1, Op.exec, Op.exec, h2, Op.exec]
  exact Function.update_comm h.1.symm _ _ _ |>.symm ▸ rfl

theorem run_append (l l' : List (Op A V)) (m : A → V) : run (l ++ l') m = run l' (run l m) :=
  List.foldl_append

theorem run_cons (o : Op A V) (l : List (Op A V)) (m : A → V) : run (o :: l) m = run l (o.exec m) := rfl

theorem run_exec_comm (o : Op A V) (l : List (Op A V)) (h : ∀ b ∈ l, o.Indep b) (m : A → V) :
    run l (o.exec m) = o.exec (run l m) := by
  induction l generalizing m with
  | nil => rfl
  | cons b l ih =>
    rw [run_cons, (h b List.mem_cons_self).comm, ih fun c hc => h c (List.mem_cons_of_mem _ hc), run_cons]

theorem run_comm (p q : List (Op A V)) (h : ProgIndep p q) (m : A → V) :
    run q (run p m) = run p (run q m) := by
  induction p generalizing m with
  | nil => rfl
  | cons a p ih =>
    rw [run_cons, ih (fun c hc => h c (List.mem_cons_of_mem _ hc)), run_cons,
      run_exec_comm a q (h a List.mem_cons_self)]

/-- Without races, an interleaving has the effect of the threads run one after the other. -/
theorem interleave_run {ts : List (List (Op A V))} {out : List (Op A V)} (hi : Interleave ts out)
    (h : ts.Pairwise ProgIndep) (m : A → V) : run out m = run ts.flatten m := by
  induction hi generalizing m with
  | done ts hts =>
    have : ts.flatten = [] := by simpa [List.flatten_eq_nil_iff] using hts
    rw [this]
  | step pre a l post out _ ih =>
    have hpw : (pre ++ l :: post).Pairwise ProgIndep := by
      rw [List.pairwise_append, List.pairwise_cons] at h ⊢
      refine ⟨h.1, ⟨fun b hb c hc d hd => h.2.1.1 b hb c (List.mem_cons_of_mem _ hc) d hd, h.2.1.2⟩, ?_⟩
      intro p hp q hq
      rcases List.mem_cons.1 hq with rfl | hq
      · exact fun c hc d hd => h.2.2 p hp _ List.mem_cons_self c hc d (List.mem_cons_of_mem _ hd)
      · exact h.2.2 p hp q (List.mem_cons_of_mem _ hq)
    have ha : ∀ b ∈ pre.flatten, a.Indep b := by
      intro b hb
      obtain ⟨p, hp, hb⟩ := List.mem_flatten.1 hb
      exact ((List.pairwise_append.1 h).2.2 p hp _ List.mem_cons_self b hb a List.mem_cons_self).symm
    rw [run_cons, ih hpw]
    simp only [List.flatten_append, List.flatten_cons, run_append, List.cons_append, run_cons]
    rw [run_exec_comm a _ ha]

theorem run_flatMap (prog : ℕ → List (Op A V)) (is : List ℕ) (m : A → V) :
    run (is.flatMap prog) m = is.foldl (fun m i => run (prog i) m) m := by
  induction is generalizing m with
  | nil => rfl
  | cons i is ih => rw [List.flatMap_cons, run_append, ih]; rfl

theorem flatMap_flatten (prog : ℕ → List (Op A V)) (tss : List (List ℕ)) :
    (tss.map fun is => is.flatMap prog).flatten = tss.flatten.flatMap prog := by
  induction tss with
  | nil => rfl
  | cons t ts ih => simp [List.flatMap_append, ih]

/-- A parallel loop whose iterations do not interfere has the effect of the sequential loop, whatever the
distribution and the interleaving. -/
theorem parallelFor_eq {prog : ℕ → List (Op A V)} {n : ℕ} {m m' : A → V}
    (hind : ∀ i < n, ∀ j < n, i ≠ j → ProgIndep (prog i) (prog j))
    (h : ParallelFor prog n m m') : m' = seqFor prog n m := by
  obtain ⟨threads, out, hp, hi, rfl⟩ := h
  have hnd : threads.flatten.Nodup := hp.nodup_iff.2 List.nodup_range
  have hlt : ∀ i ∈ threads.flatten, i < n := fun i hi => List.mem_range.1 (hp.mem_iff.1 hi)
  have hpw : (threads.map fun is => is.flatMap prog).Pairwise ProgIndep := by
    rw [List.pairwise_map]
    have hd := (List.nodup_flatten.1 hnd).2
    refine hd.imp_of_mem ?_
    intro a b ha hb hdis p hp q hq
    obtain ⟨i, hia, hp⟩ := List.mem_flatMap.1 hp
    obtain ⟨j, hjb, hq⟩ := List.mem_flatMap.1 hq
    exact hind i (hlt i (List.mem_flatten.2 ⟨a, ha, hia⟩)) j (hlt j (List.mem_flatten.2 ⟨b, hb, hjb⟩))
      (fun e => hdis hia (e ▸ hjb)) p hp q hq
  rw [interleave_run hi hpw, flatMap_flatten, run_flatMap, seqFor, run_flatMap]
  refine hp.foldl_eq' (fun i hi j hj z => ?_) m
  by_cases e : i = j
  · rw [e]
  · exact run_comm _ _ (hind i (hlt i hi) j (hlt j hj) e) z

/-- The same for a parallel region with one program per thread. -/
theorem parallelRegion_eq {prog : ℕ → List (Op A V)} {k : ℕ} {m m' : A → V}
    (hind : ∀ i < k, ∀ j < k, i ≠ j → ProgIndep (prog i) (prog j))
    (h : ParallelRegion prog k m m') : m' = seqFor prog k m := by
  obtain ⟨out, hi, rfl⟩ := h
  have hpw : ((List.range k).map prog).Pairwise ProgIndep := by
    rw [List.pairwise_map]
    refine List.nodup_range.imp_of_mem ?_
    intro i j hi hj hne
    exact hind i (List.mem_range.1 hi) j (List.mem_range.1 hj) hne
  rw [interleave_run hi hpw, seqFor, List.flatMap_def]

/-! ### Interleavings exist -/

theorem interleave_cons {α : Type*} (l : List α) (ts : List (List α)) (out : List α)
    (h : Interleave ts out) : Interleave (l :: ts) (l ++ out) := by
  induction l with
  | nil =>
    clear * - h
    induction h with
    | done ts hts => exact .done _ (by simpa using hts)
    | step pre a l post out _ ih => exact .step ([] :: pre) a l post out ih
  | cons a l ih => exact .step [] a l ts (l ++ out) ih

theorem interleave_sequential {α : Type*} (ts : List (List α)) : Interleave ts ts.flatten := by
  induction ts with
  | nil => exact .done _ (by simp)
  | cons l ts ih => exact interleave_cons l ts _ ih

/-- The sequential execution is one of the executions of the parallel loop. -/
theorem parallelFor_seq (prog : ℕ → List (Op A V)) (n : ℕ) (m : A → V) :
    ParallelFor prog n m (seqFor prog n m) :=
  ⟨[List.range n], (List.range n).flatMap prog, by simp, by
    simpa using interleave_sequential [(List.range n).flatMap prog], rfl⟩

/-! ### Steps that only use their own cell -/

/-- The steps of `l` only read the cell they write. -/
def LocalProg (l : List (Op A V)) : Prop := ∀ o ∈ l, ∀ a, o.reads a → a = o.tgt

theorem run_frame (l : List (Op A V)) (a : A) (h : ∀ o ∈ l, o.tgt ≠ a) (m : A → V) : run l m a = m a := by
  induction l generalizing m with
  | nil => rfl
  | cons o l ih =>
    rw [run_cons, ih fun p hp => h p (List.mem_cons_of_mem _ hp), Op.exec,
      Function.update_of_ne (h o List.mem_cons_self).symm]

theorem run_congr_at (l : List (Op A V)) (hl : LocalProg l) (a : A) (m m' : A → V) (h : m a = m' a) :
    run l m a = run l m' a := by
  induction l generalizing m m' with
  | nil => exact h
  | cons o l ih =>
    rw [run_cons, run_cons]
    apply ih fun p hp => hl p (List.mem_cons_of_mem _ hp)
    unfold Op.exec
    by_cases e : a = o.tgt
    · subst e
      simp only [Function.update_self]
      exact o.dep _ _ fun b hb => by rw [hl o List.mem_cons_self b hb, h]
    · rw [Function.update_of_ne e, Function.update_of_ne e, h]

theorem seqFor_at (prog : ℕ → List (Op A V)) (hl : ∀ i, LocalProg (prog i)) (n i : ℕ) (hi : i < n) (a : A)
    (h : ∀ j < n, j ≠ i → ∀ o ∈ prog j, o.tgt ≠ a) (m : A → V) : seqFor prog n m a = run (prog i) m a := by
  unfold seqFor
  induction n with
  | zero => omega
  | succ n ih =>
    rw [List.range_succ, List.flatMap_append, run_append]
    simp only [List.flatMap_cons, List.flatMap_nil, List.append_nil]
    by_cases e : i = n
    · subst e
      refine run_congr_at _ (hl i) a _ _ ?_
      rw [run_frame]
      intro o ho
      obtain ⟨j, hj, ho⟩ := List.mem_flatMap.1 ho
      have := List.mem_range.1 hj
      exact h j (by omega) (by omega) o ho
    · rw [run_frame _ _ (h n (by omega) (by omega)), ih (by omega) fun j hj => h j (by omega)]

theorem seqFor_frame (prog : ℕ → List (Op A V)) (n : ℕ) (a : A)
    (h : ∀ j < n, ∀ o ∈ prog j, o.tgt ≠ a) (m : A → V) : seqFor prog n m a = m a := by
  refine run_frame _ _ ?_ m
  intro o ho
  obtain ⟨j, hj, ho⟩ := List.mem_flatMap.1 ho
  exact h j (List.mem_range.1 hj) o ho

end Aligator.Sched
