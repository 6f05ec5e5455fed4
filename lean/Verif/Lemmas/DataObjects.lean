import Verif.Spec.DataObjects
import Verif.Props.TrajOptProblem

/-! # Lemmas on data objects -/

namespace Aligator.DataObj

open Prob Sched

variable {X U D : Type}

/-! ### New objects -/

/-- Memory holds the list from `a0` on. -/
def Holds (m : ℕ → D) (a0 : ℕ) (l : List D) : Prop := ∀ i x, l[i]? = some x → m (a0 + i) = x

theorem holds_store (a0 : ℕ) (l : List D) (m : ℕ → D) : Holds (store a0 l m) a0 l := by
  intro i x hx
  unfold store
  rw [if_pos (by omega), show a0 + i - a0 = i by omega, hx]
  rfl

theorem store_below (a0 : ℕ) (l : List D) (m : ℕ → D) {a : ℕ} (h : a < a0) : store a0 l m a = m a := by
  unfold store; rw [if_neg (by omega)]

theorem Holds.cons {m : ℕ → D} {a0 : ℕ} {x : D} {l : List D} (h : Holds m a0 (x :: l)) : m a0 = x ∧ Holds m (a0 + 1) l :=
  ⟨h 0 x rfl, fun i y hy => by rw [← h (i + 1) y hy]; congr 1; omega⟩

theorem Holds.append {m : ℕ → D} {a0 : ℕ} {l l' : List D} (h : Holds m a0 (l ++ l')) :
    Holds m a0 l ∧ Holds m (a0 + l.length) l' := by
  refine ⟨fun i x hx => h i x ?_, fun i x hx => ?_⟩
  · rw [List.getElem?_append_left (List.getElem?_eq_some_iff.1 hx).1]; exact hx
  · rw [← h (l.length + i) x ?_]
    · congr 1; omega
    · rw [List.getElem?_append_right (by omega), Nat.add_sub_cancel_left]; exact hx

theorem Holds.range' {m : ℕ → D} {a0 : ℕ} {l : List D} (h : Holds m a0 l) : (List.range' a0 l.length).map m = l := by
  apply List.ext_getElem (by simp)
  intro i h1 h2
  rw [List.getElem_map, List.getElem_range', Nat.one_mul]
  exact h i _ (List.getElem?_eq_getElem h2)

theorem stageNew_length (new : New X U D) (s : StageModel X U D) : (stageNew new s).length = 2 + s.constraints.length := by
  simp [stageNew]; omega

theorem show_newStage {new : New X U D} {s : StageModel X U D} {m : ℕ → D} {a0 : ℕ} (h : Holds m a0 (stageNew new s)) :
    show1 m (s.createData a0).1 = Spec.newStage new s := by
  obtain ⟨h1, h2⟩ := h.cons
  obtain ⟨h2, h3⟩ := h2.cons
  have h3 := h3.range'
  rw [List.length_map] at h3
  simp only [show1, StageModel.createData, Spec.newStage, h1, h2, StageData.mk.injEq, and_self, and_true]
  exact h3

theorem show_newStages {new : New X U D} {m : ℕ → D} : ∀ (ss : List (StageModel X U D)) (a0 : ℕ),
    Holds m a0 (ss.flatMap (stageNew new)) →
    (createStageData ss a0).1.map (show1 m) = ss.map (Spec.newStage new) ∧
      (createStageData ss a0).2 = a0 + (ss.flatMap (stageNew new)).length
  | [], _, _ => ⟨rfl, rfl⟩
  | s :: ss, a0, h => by
    rw [List.flatMap_cons] at h
    obtain ⟨h1, h2⟩ := h.append
    have e : (s.createData a0).2 = a0 + (stageNew new s).length := by
      rw [stageNew_length]; simp only [StageModel.createData]; omega
    obtain ⟨k1, k2⟩ := show_newStages ss (s.createData a0).2 (by rw [e]; exact h2)
    refine ⟨?_, ?_⟩
    · simp only [createStageData, List.map_cons, k1, show_newStage h1]
    · simp only [createStageData, k2, List.flatMap_cons, List.length_append]
      rw [e]; omega

theorem show_newData {new : New X U D} {P : Problem X U D} {m : ℕ → D} {a0 : ℕ} (h : Holds m a0 (problemNew new P)) :
    showAll m (P.createData a0).1 = Spec.newData new P := by
  obtain ⟨h1, h2⟩ := h.cons
  obtain ⟨h2, h3⟩ := h2.append
  obtain ⟨k1, k2⟩ := show_newStages P.stages (a0 + 1) h2
  rw [← k2] at h3
  obtain ⟨h3, h4⟩ := h3.cons
  have h4 := h4.range'
  rw [List.length_map] at h4
  simp only [showAll, Problem.createData, Spec.newData, h1, k1, h3, Data.mk.injEq, true_and]
  exact h4

theorem newStage_addrs (s : StageModel X U D) (a0 : ℕ) :
    (s.createData a0).1.addrs.Nodup ∧ (∀ a ∈ (s.createData a0).1.addrs, a0 ≤ a ∧ a < (s.createData a0).2) ∧
      a0 ≤ (s.createData a0).2 := by
  have h := createStageData_spec [s] a0
  simp only [createStageData, List.flatMap_cons, List.flatMap_nil, List.append_nil] at h
  exact ⟨h.2.2.2.1, h.2.2.1, h.2.1⟩

theorem newData_addrs (P : Problem X U D) (a0 : ℕ) :
    (∀ a ∈ (P.createData a0).1.addrs, a0 ≤ a ∧ a < (P.createData a0).2) ∧ a0 ≤ (P.createData a0).2 := by
  obtain ⟨_, h2, h3, _, _⟩ := createStageData_spec P.stages (a0 + 1)
  unfold Problem.createData
  refine ⟨fun a ha => ?_, ?_⟩
  · simp only [Data.addrs, List.cons_append, List.mem_cons, List.mem_append, List.mem_range'_1] at ha ⊢
    rcases ha with rfl | rfl | ha | ha
    · omega
    · omega
    · omega
    · have := h3 a ha; omega
  · dsimp only; omega

/-! ### Contents -/

theorem show1_congr {m m' : ℕ → D} {d : StageData ℕ} (h : ∀ a ∈ d.addrs, m a = m' a) : show1 m d = show1 m' d := by
  unfold show1
  rw [List.map_congr_left (fun a ha => h a (by simp [StageData.addrs, ha])), h d.cost_data (by simp [StageData.addrs]),
    h d.dynamics_data (by simp [StageData.addrs])]

theorem showAll_congr {m m' : ℕ → D} {d : Prob.Data ℕ} (h : ∀ a ∈ d.addrs, m a = m' a) : showAll m d = showAll m' d := by
  unfold showAll
  rw [h d.init_data (by simp [Data.addrs]), h d.term_cost_data (by simp [Data.addrs]),
    List.map_congr_left (fun a ha => h a (by simp [Data.addrs, ha])),
    List.map_congr_left (f := show1 m) (g := show1 m') (fun sd hsd => show1_congr fun a ha => h a ?_)]
  simp only [Data.addrs, List.mem_append, List.mem_flatMap]
  exact .inr ⟨sd, hsd, ha⟩

theorem total_show (value : D → ℝ) (m : ℕ → D) (d : Prob.Data ℕ) :
    computeTrajectoryCost value d m = Spec.total value (showAll m d) := by
  unfold computeTrajectoryCost Spec.total showAll
  rw [foldl_add_eq_sum, zero_add, List.map_map]
  rfl

theorem fits_lengths {P : Problem X U D} {m : ℕ → D} {d : Prob.Data ℕ} (h : Spec.Fits P (showAll m d)) :
    d.stage_data.length = P.stages.length ∧
    (∀ i (h1 : i < d.stage_data.length) (h2 : i < P.stages.length),
      (d.stage_data[i]).constraint_data.length = (P.stages[i]).constraints.length) ∧
    d.term_cstr_data.length = P.term_cstrs.length := by
  obtain ⟨h1, h2⟩ := h
  simp only [showAll, List.map_map, List.length_map] at h1 h2
  have hl := congrArg List.length h1
  simp only [List.length_map] at hl
  refine ⟨hl, fun i k1 k2 => ?_, h2⟩
  have := congrArg (fun l => l[i]?) h1
  simp only [List.getElem?_map, List.getElem?_eq_getElem k1, List.getElem?_eq_getElem k2, Option.map_some,
    Option.some.injEq, Function.comp, show1, List.length_map] at this
  exact this

theorem fits_inRange {P : Problem X U D} {m : ℕ → D} {d : Prob.Data ℕ} (h : Spec.Fits P (showAll m d)) : InRange P d := by
  obtain ⟨h1, h2, h3⟩ := fits_lengths h
  exact ⟨h1.ge, fun i a b => (h2 i b a).ge, h3.ge⟩

/-- The common part of the two calls. -/
theorem show_update {P : Problem X U D} {xs : List X} {us : List U} {m m' : ℕ → D} {d : Prob.Data ℕ} {x0 xN : X}
    (hf : Spec.Fits P (showAll m d)) (h1 : xs.length = P.stages.length + 1) (h2 : us.length = P.stages.length)
    (hN : xs[P.stages.length]? = some xN)
    (cf cd : StageModel X U D → X → U → D → D) (ff : Func X U D → X → U → D → D) (ci : D → D) (ct : X → D → D)
    (hi : m' d.init_data = ci (m d.init_data))
    (hs : ∀ (i : ℕ) (s : StageModel X U D), P.stages[i]? = some s →
      ∃ x u sd, xs[i]? = some x ∧ us[i]? = some u ∧ d.stage_data[i]? = some sd ∧
        m' sd.dynamics_data = cd s x u (m sd.dynamics_data) ∧ m' sd.cost_data = cf s x u (m sd.cost_data) ∧
        ∀ (j : ℕ) (f : Func X U D), s.constraints[j]? = some f →
          ∃ a, sd.constraint_data[j]? = some a ∧ m' a = ff f x u (m a))
    (ht : m' d.term_cost_data = ct xN (m d.term_cost_data) ∧
      ∀ (k : ℕ) (f : Func X U D), P.term_cstrs[k]? = some f →
        ∃ a, d.term_cstr_data[k]? = some a ∧ m' a = ff f xN P.unone (m a)) :
    showAll m' d = ⟨ci (showAll m d).init_data,
      List.zipWith (fun (s, x, u) d => ⟨List.zipWith (fun f o => ff f x u o) s.constraints d.constraint_data,
        cf s x u d.cost_data, cd s x u d.dynamics_data⟩) (P.stages.zip (xs.zip us)) (showAll m d).stage_data,
      ct xN (showAll m d).term_cost_data,
      List.zipWith (fun f o => ff f xN P.unone o) P.term_cstrs (showAll m d).term_cstr_data⟩ := by
  obtain ⟨l1, l2, l3⟩ := fits_lengths hf
  simp only [showAll, hi, ht.1, Data.mk.injEq, true_and]
  constructor
  · apply List.ext_getElem
    · simp; omega
    intro i k1 k2
    rw [List.length_map] at k1
    have ki : i < P.stages.length := by omega
    obtain ⟨x, u, sd, e1, e2, e3, e4, e5, e6⟩ := hs i _ (List.getElem?_eq_getElem ki)
    have hx := (List.getElem?_eq_some_iff.1 e1).2
    have hu := (List.getElem?_eq_some_iff.1 e2).2
    have hsd := (List.getElem?_eq_some_iff.1 e3).2
    simp only [List.getElem_map, List.getElem_zipWith, List.getElem_zip, hx, hu, hsd, show1, e4, e5, StageData.mk.injEq,
      and_self, and_true]
    have hc := l2 i k1 ki
    rw [hsd] at hc
    apply List.ext_getElem
    · simp [hc]
    intro j j1 j2
    rw [List.length_map] at j1
    obtain ⟨a, ha, hm⟩ := e6 j _ (List.getElem?_eq_getElem (by omega))
    have ha := (List.getElem?_eq_some_iff.1 ha).2
    simp only [List.getElem_map, List.getElem_zipWith, ha, hm]
  · apply List.ext_getElem
    · simp [l3]
    intro k k1 k2
    rw [List.length_map] at k1
    obtain ⟨a, ha, hm⟩ := ht.2 k _ (List.getElem?_eq_getElem (by omega))
    have ha := (List.getElem?_eq_some_iff.1 ha).2
    simp only [List.getElem_map, List.getElem_zipWith, ha, hm]

theorem evaluate_show {value : D → ℝ} {P : Problem X U D} {xs : List X} {us : List U} {d : Prob.Data ℕ} {m m' : ℕ → D} {c : ℝ}
    (hnd : d.addrs.Nodup) (hf : Spec.Fits P (showAll m d)) (h : Evaluate value P xs us d m (.ok m' c)) {x0 xN : X}
    (h0 : xs[0]? = some x0) (hN : xs[P.stages.length]? = some xN) :
    showAll m' d = Spec.evaluate P x0 xN xs us (showAll m d) ∧ c = Spec.total value (showAll m' d) ∧
      ∀ a, a ∉ d.addrs → m' a = m a := by
  obtain ⟨e1, e2, e3, e4⟩ := C32_each_stage_at_its_own_point value P xs us d hnd m m' c h
  have hc : c = computeTrajectoryCost value d m' := by cases h; rfl
  have hl : xs.length = P.stages.length + 1 ∧ us.length = P.stages.length := by
    cases h with | ok _ _ _ a b => exact ⟨a, b⟩
  refine ⟨?_, by rw [hc, total_show], e4⟩
  exact show_update (x0 := x0) hf hl.1 hl.2 hN (fun s x u => after (s.cost.evaluate x u))
    (fun s x u => after (s.dynamics.forward x u)) (fun f x u => after (f.evaluate x u)) _
    (fun x => after (P.term_cost.evaluate x P.unone)) (e1 x0 h0) e2 (e3 xN hN)

theorem derivatives_show {P : Problem X U D} {second : Bool} {xs : List X} {us : List U} {d : Prob.Data ℕ} {m m' : ℕ → D}
    (hnd : d.addrs.Nodup) (hf : Spec.Fits P (showAll m d)) (h : ComputeDerivatives P second xs us d m (.ok m' ())) {x0 xN : X}
    (h0 : xs[0]? = some x0) (hN : xs[P.stages.length]? = some xN) :
    showAll m' d = Spec.derivatives P second x0 xN xs us (showAll m d) ∧ ∀ a, a ∉ d.addrs → m' a = m a := by
  obtain ⟨e1, e2, e3, e4⟩ := C32_derivatives_at_own_point P second xs us d hnd m m' h
  have hl : xs.length = P.stages.length + 1 ∧ us.length = P.stages.length := by
    cases h with | ok _ _ _ a b => exact ⟨a, b⟩
  refine ⟨?_, e4⟩
  exact show_update (x0 := x0) hf hl.1 hl.2 hN
    (fun s x u o => (if second then after (s.cost.computeHessians x u) else id) (after (s.cost.computeGradients x u) o))
    (fun s x u => after (s.dynamics.dForward x u)) (fun f x u => after (f.computeJacobians x u)) _
    (fun x o => (if second then after (P.term_cost.computeHessians x P.unone) else id)
      (after (P.term_cost.computeGradients x P.unone) o)) (e1 x0 h0) e2 (e3 xN hN)

/-! ### Separation -/

/-- Owners have different addresses, all below `next`. -/
structure Sep {ι : Type} (f : ι → List ℕ) (next : ℕ) : Prop where
  nodup : ∀ i, (f i).Nodup
  disj : ∀ i j, i ≠ j → ∀ a ∈ f i, a ∉ f j
  lt : ∀ i, ∀ a ∈ f i, a < next

theorem Sep.update {ι : Type} [DecidableEq ι] {f : ι → List ℕ} {next : ℕ} (h : Sep f next) (i : ι) {l : List ℕ} {next' : ℕ}
    (hle : next ≤ next') (hl : l.Nodup) (hlt : ∀ a ∈ l, a < next') (hd : ∀ j, j ≠ i → ∀ a ∈ l, a ∉ f j) :
    Sep (Function.update f i l) next' := by
  refine ⟨fun j => ?_, fun j k hjk a ha => ?_, fun j a ha => ?_⟩
  · by_cases e : j = i
    · rw [e, Function.update_self]; exact hl
    · rw [Function.update_of_ne e]; exact h.nodup j
  · by_cases e : j = i
    · subst e
      rw [Function.update_self] at ha
      rw [Function.update_of_ne (Ne.symm hjk)]
      exact hd k (Ne.symm hjk) a ha
    · rw [Function.update_of_ne e] at ha
      by_cases e' : k = i
      · subst e'
        rw [Function.update_self]
        exact fun hal => hd j e a hal ha
      · rw [Function.update_of_ne e']; exact h.disj j k hjk a ha
  · by_cases e : j = i
    · rw [e, Function.update_self] at ha; exact hlt a ha
    · rw [Function.update_of_ne e] at ha; exact lt_of_lt_of_le (h.lt j a ha) hle

end Aligator.DataObj
