import Verif.Model.TrajOptProblem
import Verif.Spec.TrajOptProblem
import Verif.Lemmas.Schedule

/-! # Lemmas on the evaluation of trajectory problems -/

namespace Aligator.Prob

open Aligator.Sched

variable {A X U D : Type*} [DecidableEq A]

theorem at_mem {f : Callback X U D} {x : X} {u : U} {a : A} {o : Op A D} (h : o ∈ f.at x u a) :
    o.tgt = a ∧ ∀ b, o.reads b → b = a := by
  obtain ⟨g, _, rfl⟩ := List.mem_map.1 h
  exact ⟨rfl, fun b hb => hb⟩

theorem run_at (f : Callback X U D) (x : X) (u : U) (a : A) (m : A → D) :
    run (f.at x u a) m a = after (f x u) (m a) := by
  unfold Callback.at after
  generalize f x u = l
  induction l generalizing m with
  | nil => rfl
  | cons g l ih =>
    rw [List.map_cons, run_cons, ih]
    simp [Op.exec]

theorem local_at (f : Callback X U D) (x : X) (u : U) (a : A) : LocalProg (f.at x u a) :=
  fun _ ho b hb => by rw [(at_mem ho).1]; exact (at_mem ho).2 b hb

theorem LocalProg.append {l l' : List (Op A D)} (h : LocalProg l) (h' : LocalProg l') :
    LocalProg (l ++ l') := fun o ho =>
  (List.mem_append.1 ho).elim (h o) (h' o)

theorem local_nil : LocalProg ([] : List (Op A D)) := fun _ h => absurd h List.not_mem_nil

theorem cl_mem {sel : Func X U D → Callback X U D} {x : X} {u : U} {fs : List (Func X U D)} {as : List A}
    {o : Op A D} (h : o ∈ constraintLoop sel x u fs as) : o.tgt ∈ as ∧ ∀ b, o.reads b → b = o.tgt := by
  induction fs generalizing as with
  | nil => simp [constraintLoop] at h
  | cons f fs ih =>
    cases as with
    | nil => simp [constraintLoop] at h
    | cons a as =>
      rw [constraintLoop] at h
      rcases List.mem_append.1 h with h | h
      · rw [(at_mem h).1]; exact ⟨List.mem_cons_self, (at_mem h).2⟩
      · exact ⟨List.mem_cons_of_mem _ (ih h).1, (ih h).2⟩

theorem local_cl (sel : Func X U D → Callback X U D) (x : X) (u : U) (fs : List (Func X U D))
    (as : List A) : LocalProg (constraintLoop sel x u fs as) := fun _ ho => (cl_mem ho).2

theorem run_cl (sel : Func X U D → Callback X U D) (x : X) (u : U) (fs : List (Func X U D))
    (as : List A) (hnd : as.Nodup) (m : A → D) (j : ℕ) (f : Func X U D) (a : A) (hf : fs[j]? = some f)
    (ha : as[j]? = some a) : run (constraintLoop sel x u fs as) m a = after (sel f x u) (m a) := by
  induction fs generalizing as j m with
  | nil => simp at hf
  | cons f' fs ih =>
    cases as with
    | nil => simp at ha
    | cons a' as =>
      rw [constraintLoop, run_append]
      have hnd' := List.nodup_cons.1 hnd
      cases j with
      | zero =>
        simp only [List.getElem?_cons_zero, Option.some.injEq] at hf ha
        subst hf ha
        rw [run_frame, run_at]
        intro o ho e
        exact hnd'.1 (e ▸ (cl_mem ho).1)
      | succ j =>
        simp only [List.getElem?_cons_succ] at hf ha
        rw [ih as hnd'.2 _ j hf ha, run_frame]
        intro o ho
        rw [(at_mem ho).1]
        rintro rfl
        exact hnd'.1 (List.mem_of_getElem? ha)

/-! ### Addresses -/

theorem stage_addrs_mem {d : Data A} {i : ℕ} {sd : StageData A} (h : d.stage_data[i]? = some sd) {a : A}
    (ha : a ∈ sd.addrs) : a ∈ d.addrs := by
  unfold Data.addrs
  exact List.mem_append_right _ (List.mem_flatMap.2 ⟨sd, List.mem_of_getElem? h, ha⟩)

theorem stage_addrs_disjoint {d : Data A} (hnd : d.addrs.Nodup) {i j : ℕ} {si sj : StageData A}
    (hi : d.stage_data[i]? = some si) (hj : d.stage_data[j]? = some sj) (hne : i ≠ j) {a : A}
    (ha : a ∈ si.addrs) : a ∉ sj.addrs := by
  have h := (List.nodup_append.1 (show (_ ++ _ : List A).Nodup from hnd)).2.1
  have hp := (List.nodup_flatMap.1 h).2
  obtain ⟨hi1, rfl⟩ := List.getElem?_eq_some_iff.1 hi
  obtain ⟨hj1, rfl⟩ := List.getElem?_eq_some_iff.1 hj
  rcases lt_or_gt_of_ne hne with hlt | hlt
  · exact fun hb => (List.pairwise_iff_getElem.1 hp i j hi1 hj1 hlt) ha hb
  · exact fun hb => (List.pairwise_iff_getElem.1 hp j i hj1 hi1 hlt) hb ha

theorem stage_addrs_nodup {d : Data A} (hnd : d.addrs.Nodup) {i : ℕ} {si : StageData A}
    (hi : d.stage_data[i]? = some si) : si.addrs.Nodup := by
  have h := (List.nodup_append.1 (show (_ ++ _ : List A).Nodup from hnd)).2.1
  exact (List.nodup_flatMap.1 h).1 si (List.mem_of_getElem? hi)

theorem stage_addrs_other {d : Data A} (hnd : d.addrs.Nodup) {i : ℕ} {si : StageData A}
    (hi : d.stage_data[i]? = some si) {a : A} (ha : a ∈ si.addrs) :
    a ≠ d.init_data ∧ a ≠ d.term_cost_data ∧ a ∉ d.term_cstr_data := by
  have h := (List.nodup_append.1 (show (_ ++ _ : List A).Nodup from hnd)).2.2
  have hm : a ∈ d.stage_data.flatMap StageData.addrs :=
    List.mem_flatMap.2 ⟨si, List.mem_of_getElem? hi, ha⟩
  refine ⟨fun e => h d.init_data (by simp) a hm e.symm, fun e => h d.term_cost_data (by simp) a hm e.symm,
    fun e => h a (by simp [e]) a hm rfl⟩

/-! ### A stage only touches its own data -/

theorem evaluateStage_mem {P : Problem X U D} {xs : List X} {us : List U} {d : Data A} {i : ℕ} {o : Op A D}
    (h : o ∈ evaluateStage P xs us d i) :
    (∃ sd, d.stage_data[i]? = some sd ∧ o.tgt ∈ sd.addrs) ∧ ∀ b, o.reads b → b = o.tgt := by
  unfold evaluateStage at h
  split at h
  · rename_i s x u sd _ _ _ hsd
    simp only [StageModel.evaluate, List.mem_append] at h
    rcases h with (h | h) | h
    · exact ⟨⟨sd, hsd, by rw [(at_mem h).1]; simp [StageData.addrs]⟩, by rw [(at_mem h).1]; exact (at_mem h).2⟩
    · exact ⟨⟨sd, hsd, by simp [StageData.addrs, (cl_mem h).1]⟩, (cl_mem h).2⟩
    · exact ⟨⟨sd, hsd, by rw [(at_mem h).1]; simp [StageData.addrs]⟩, by rw [(at_mem h).1]; exact (at_mem h).2⟩
  · simp at h

theorem derivativesStage_mem {P : Problem X U D} {second : Bool} {xs : List X} {us : List U} {d : Data A}
    {i : ℕ} {o : Op A D} (h : o ∈ derivativesStage P second xs us d i) :
    (∃ sd, d.stage_data[i]? = some sd ∧ o.tgt ∈ sd.addrs) ∧ ∀ b, o.reads b → b = o.tgt := by
  unfold derivativesStage at h
  split at h
  · rename_i s x u sd _ _ _ hsd
    have key : ∀ f : Callback X U D, ∀ a ∈ sd.addrs, o ∈ f.at x u a →
        (∃ sd, d.stage_data[i]? = some sd ∧ o.tgt ∈ sd.addrs) ∧ ∀ b, o.reads b → b = o.tgt := by
      intro f a ha h
      exact ⟨⟨sd, hsd, by rw [(at_mem h).1]; exact ha⟩, by rw [(at_mem h).1]; exact (at_mem h).2⟩
    simp only [StageModel.computeFirstOrderDerivatives, List.mem_append] at h
    rcases h with ((h | h) | h) | h
    · exact key _ _ (by simp [StageData.addrs]) h
    · exact ⟨⟨sd, hsd, by simp [StageData.addrs, (cl_mem h).1]⟩, (cl_mem h).2⟩
    · exact key _ _ (by simp [StageData.addrs]) h
    · cases second
      · simp at h
      · exact key _ _ (by simp [StageData.addrs]) h
  · simp at h

theorem indep_of_mem {d : Data A} (hnd : d.addrs.Nodup) {i j : ℕ} (hne : i ≠ j) {p q : Op A D}
    (hp : (∃ sd, d.stage_data[i]? = some sd ∧ p.tgt ∈ sd.addrs) ∧ ∀ b, p.reads b → b = p.tgt)
    (hq : (∃ sd, d.stage_data[j]? = some sd ∧ q.tgt ∈ sd.addrs) ∧ ∀ b, q.reads b → b = q.tgt) :
    p.Indep q := by
  obtain ⟨⟨si, hi, ha⟩, hr⟩ := hp
  obtain ⟨⟨sj, hj, hb⟩, hr'⟩ := hq
  have hpq : p.tgt ≠ q.tgt := fun e => stage_addrs_disjoint hnd hi hj hne ha (e ▸ hb)
  exact ⟨hpq, fun h => hpq (hr _ h).symm, fun h => hpq (hr' _ h)⟩

theorem evaluateStage_indep {P : Problem X U D} {xs : List X} {us : List U} {d : Data A}
    (hnd : d.addrs.Nodup) {i j : ℕ} (hne : i ≠ j) :
    ProgIndep (evaluateStage P xs us d i) (evaluateStage P xs us d j) := fun _ hp _ hq =>
  indep_of_mem hnd hne (evaluateStage_mem hp) (evaluateStage_mem hq)

theorem derivativesStage_indep {P : Problem X U D} {second : Bool} {xs : List X} {us : List U} {d : Data A}
    (hnd : d.addrs.Nodup) {i j : ℕ} (hne : i ≠ j) :
    ProgIndep (derivativesStage P second xs us d i) (derivativesStage P second xs us d j) := fun _ hp _ hq =>
  indep_of_mem hnd hne (derivativesStage_mem hp) (derivativesStage_mem hq)

/-! ### Fresh data -/

theorem createStageData_spec (ss : List (StageModel X U D)) (next : ℕ) :
    (createStageData ss next).1.length = ss.length ∧ next ≤ (createStageData ss next).2 ∧
    (∀ a ∈ (createStageData ss next).1.flatMap StageData.addrs, next ≤ a ∧ a < (createStageData ss next).2) ∧
    ((createStageData ss next).1.flatMap StageData.addrs).Nodup ∧
    ∀ i (h : i < ss.length) (h' : i < (createStageData ss next).1.length),
      (createStageData ss next).1[i].constraint_data.length = ss[i].constraints.length := by
  induction ss generalizing next with
  | nil => simp [createStageData]
  | cons s ss ih =>
    obtain ⟨h1, h2, h3, h4, h5⟩ := ih (next + 2 + s.constraints.length)
    simp only [createStageData, StageModel.createData]
    refine ⟨by simp [h1], by omega, ?_, ?_, ?_⟩
    · intro a ha
      rw [List.flatMap_cons] at ha
      rcases List.mem_append.1 ha with ha | ha
      · simp only [StageData.addrs, List.mem_append, List.mem_range'_1, List.mem_cons, List.not_mem_nil,
          or_false] at ha
        omega
      · have := h3 a ha; omega
    · rw [List.flatMap_cons, List.nodup_append]
      refine ⟨?_, h4, ?_⟩
      · simp only [StageData.addrs, List.nodup_append]
        refine ⟨List.nodup_range', by simp, ?_⟩
        intro a ha b hb
        simp only [List.mem_range'_1, List.mem_cons, List.not_mem_nil, or_false] at ha hb
        omega
      · intro a ha b hb
        have := h3 b hb
        simp only [StageData.addrs, List.mem_append, List.mem_range'_1, List.mem_cons, List.not_mem_nil,
          or_false] at ha
        omega
    · intro i h h'
      cases i with
      | zero => simp
      | succ i =>
        simp only [List.getElem_cons_succ]
        exact h5 i (by simpa using h) _

theorem createData_nodup (P : Problem X U D) (next : ℕ) : (P.createData next).1.addrs.Nodup := by
  obtain ⟨h1, h2, h3, h4, _⟩ := createStageData_spec P.stages (next + 1)
  unfold Data.addrs Problem.createData
  dsimp only
  generalize hst : createStageData P.stages (next + 1) = st at *
  rw [List.nodup_append]
  refine ⟨?_, h4, ?_⟩
  · rw [List.nodup_cons, List.nodup_cons]
    refine ⟨?_, ?_, List.nodup_range'⟩
    · simp only [List.mem_cons, List.mem_range'_1]; omega
    · simp only [List.mem_range'_1]; omega
  · intro a ha b hb
    have := h3 b hb
    simp only [List.mem_cons, List.mem_range'_1] at ha
    omega

theorem createData_inRange (P : Problem X U D) (next : ℕ) : InRange P (P.createData next).1 := by
  obtain ⟨h1, _, _, _, h5⟩ := createStageData_spec P.stages (next + 1)
  refine ⟨h1.ge, fun i h h' => (h5 i h (h1 ▸ h)).ge, by simp [Problem.createData]⟩

end Aligator.Prob
