import Verif.Lemmas.DataObjects
import Mathlib.Tactic.FinCases
import Mathlib.Tactic.NormNum

/-!
# Data objects of problems and their owners (C83)
-/

namespace Aligator.DataObj

open Prob Sched
open Spec (State)

variable {X U D : Type}

/-- The variables hold the values, each in objects of its own. -/
def RepW (w : World D) (s : State D) : Prop :=
  ∃ f : ℕ ⊕ ℕ → List ℕ, Sep f w.next ∧
    (∀ n v c, s.data n = some (v, c) →
      ∃ o, w.data n = some o ∧ o.cost = c ∧ showAll w.mem o.d = v ∧ f (.inl n) = o.d.addrs) ∧
    ∀ k v, s.stage k = some v → ∃ d, w.stage k = some d ∧ show1 w.mem d = v ∧ f (.inr k) = d.addrs

theorem shiftList_cons {α : Type} (a : α) (l : List α) (d : α) : shiftList (a :: l) d = some (l ++ [d]) := by
  simp [shiftList, rotateLeft]

theorem appendList_cons {α : Type} (a : α) (l : List α) (d : α) : appendList (a :: l) d = some (l ++ [d]) := by
  simp only [appendList, rotateLeft, List.cons_append, Option.bind_eq_bind, Option.bind_some]
  rw [List.dropLast_concat]

/-- New objects leave the old ones as they are. -/
theorem RepW.mem {w : World D} {s : State D} (h : RepW w s) (a0 : ℕ) (l : List D) (ha : w.next = a0) :
    RepW { w with mem := store a0 l w.mem } s := by
  obtain ⟨f, hf, h1, h2⟩ := h
  refine ⟨f, hf, fun n v c hn => ?_, fun k v hk => ?_⟩
  · obtain ⟨o, e1, e2, e3, e4⟩ := h1 n v c hn
    refine ⟨o, e1, e2, ?_, e4⟩
    rw [← e3]
    exact showAll_congr fun a ha' => store_below _ _ _ (ha ▸ hf.lt (.inl n) a (e4 ▸ ha'))
  · obtain ⟨d, e1, e2, e3⟩ := h2 k v hk
    refine ⟨d, e1, ?_, e3⟩
    rw [← e2]
    exact show1_congr fun a ha' => store_below _ _ _ (ha ▸ hf.lt (.inr k) a (e3 ▸ ha'))

/-- Another value for one variable for problem data, in objects that no other variable has. -/
theorem RepW.putData {w : World D} {s : State D} {f : ℕ ⊕ ℕ → List ℕ} (hf : Sep f w.next)
    (h1 : ∀ n v c, s.data n = some (v, c) →
      ∃ o, w.data n = some o ∧ o.cost = c ∧ showAll w.mem o.d = v ∧ f (.inl n) = o.d.addrs)
    (h2 : ∀ k v, s.stage k = some v → ∃ d, w.stage k = some d ∧ show1 w.mem d = v ∧ f (.inr k) = d.addrs)
    (n : ℕ) (o : Obj) (next' : ℕ) (hle : w.next ≤ next') (hnd : o.d.addrs.Nodup) (hlt : ∀ a ∈ o.d.addrs, a < next')
    (hd : ∀ j, j ≠ .inl n → ∀ a ∈ o.d.addrs, a ∉ f j) :
    RepW { w with next := next', data := Function.update w.data n (some o) }
      { s with data := Function.update s.data n (some (showAll w.mem o.d, o.cost)) } := by
  refine ⟨_, hf.update (.inl n) hle hnd hlt hd, fun n' v c hn => ?_, fun k v hk => ?_⟩
  · by_cases e : n' = n
    · subst e
      simp only [Function.update_self] at hn ⊢
      cases hn
      exact ⟨o, rfl, rfl, rfl, rfl⟩
    · simp only [Function.update_of_ne e] at hn ⊢
      rw [Function.update_of_ne (by simpa using e)]
      exact h1 n' v c hn
  · rw [Function.update_of_ne (by simp)]
    exact h2 k v hk

theorem perm_shift {d : Prob.Data ℕ} {a sd : StageData ℕ} {l : List (StageData ℕ)} (hl : d.stage_data = a :: l) :
    (∀ x ∈ ({ d with stage_data := l ++ [sd] } : Prob.Data ℕ).addrs, x ∈ d.addrs ∨ x ∈ sd.addrs) ∧
    (d.addrs.Nodup → sd.addrs.Nodup → (∀ x ∈ sd.addrs, x ∉ d.addrs) →
      ({ d with stage_data := l ++ [sd] } : Prob.Data ℕ).addrs.Nodup) := by
  constructor
  · intro x hx
    simp only [Data.addrs, List.cons_append, List.mem_cons, List.mem_append, List.flatMap_append, List.flatMap_cons,
      List.flatMap_nil, List.append_nil, hl] at hx ⊢
    tauto
  · intro h1 h2 h3
    simp only [Data.addrs, hl, List.flatMap_append, List.flatMap_cons, List.flatMap_nil, List.append_nil] at h1 h3 ⊢
    rw [← List.append_assoc, List.nodup_append]
    refine ⟨?_, h2, fun x hx y hy e => ?_⟩
    · rw [List.nodup_append] at h1 ⊢
      refine ⟨h1.1, (List.nodup_append.1 h1.2.1).2.1, fun x hx y hy => h1.2.2 x hx y (List.mem_append_right _ hy)⟩
    · subst e
      refine h3 x hy ?_
      simp only [List.mem_append] at hx ⊢
      tauto

theorem perm_rotate {d : Prob.Data ℕ} {a : StageData ℕ} {l : List (StageData ℕ)} (hl : d.stage_data = a :: l) :
    ({ d with stage_data := l ++ [a] } : Prob.Data ℕ).addrs.Perm d.addrs := by
  simp only [Data.addrs, hl, List.flatMap_append, List.flatMap_cons, List.flatMap_nil, List.append_nil]
  exact List.Perm.append_left _ List.perm_append_comm

theorem showAll_stages {m : ℕ → D} {d : Prob.Data ℕ} {v : StageData D} {l : List (StageData D)}
    (h : (showAll m d).stage_data = v :: l) : ∃ a r, d.stage_data = a :: r ∧ v = show1 m a ∧ l = r.map (show1 m) := by
  simp only [showAll] at h
  obtain ⟨a, r, e1, e2, e3⟩ := List.map_eq_cons_iff.1 h
  exact ⟨a, r, e1, e2.symm, e3.symm⟩

/-- Handing the data of a stage over. -/
theorem rep_shift {w : World D} {s : State D} (h : RepW w s) {n k : ℕ} {v : Prob.Data D} {c : ℝ} {d : StageData D}
    (hn : s.data n = some (v, c)) (hk : s.stage k = some d) {v0 : StageData D} {l : List (StageData D)}
    (hv : v.stage_data = v0 :: l) :
    ∃ o sd a r, w.data n = some o ∧ w.stage k = some sd ∧ o.d.stage_data = a :: r ∧
      RepW { w with data := Function.update w.data n (some ⟨{ o.d with stage_data := r ++ [sd] }, o.cost⟩) }
        ⟨Function.update s.data n (some ({ v with stage_data := l ++ [d] }, c)), Function.update s.stage k none⟩ := by
  obtain ⟨f, hf, h1, h2⟩ := h
  obtain ⟨o, e1, e2, e3, e4⟩ := h1 n v c hn
  obtain ⟨sd, g1, g2, g3⟩ := h2 k d hk
  subst e3 e2 g2
  obtain ⟨a, r, k1, k2, k3⟩ := showAll_stages hv
  refine ⟨o, sd, a, r, e1, g1, k1, ?_⟩
  obtain ⟨p1, p2⟩ := perm_shift (sd := sd) k1
  have hsep : Sep (Function.update f (.inr k) []) w.next :=
    hf.update (.inr k) le_rfl List.nodup_nil (by simp) (by simp)
  have hdis : ∀ x ∈ sd.addrs, x ∉ o.d.addrs := by
    intro x hx
    rw [← e4]
    exact hf.disj (.inr k) (.inl n) (by simp) x (g3 ▸ hx)
  have := RepW.putData (w := w) (s := ⟨s.data, Function.update s.stage k none⟩) hsep
    (fun n' v' c' hn' => by
      rw [Function.update_of_ne (by simp)]; exact h1 n' v' c' hn')
    (fun k' v' hk' => by
      by_cases e : k' = k
      · subst e; simp at hk'
      · simp only [Function.update_of_ne e] at hk'
        rw [Function.update_of_ne (by simpa using e)]
        exact h2 k' v' hk')
    n ⟨{ o.d with stage_data := r ++ [sd] }, o.cost⟩ w.next le_rfl
    (p2 (e4 ▸ hf.nodup (.inl n)) (g3 ▸ hf.nodup (.inr k)) hdis)
    (fun x hx => (p1 x hx).elim (fun hx => hf.lt (.inl n) x (e4 ▸ hx)) fun hx => hf.lt (.inr k) x (g3 ▸ hx))
    (fun j hj x hx => by
      by_cases e : j = .inr k
      · rw [e, Function.update_self]; simp
      · rw [Function.update_of_ne e]
        exact (p1 x hx).elim (fun hx => hf.disj (.inl n) j (Ne.symm hj) x (e4 ▸ hx))
          fun hx => hf.disj (.inr k) j (Ne.symm e) x (g3 ▸ hx))
  have ev : showAll w.mem { o.d with stage_data := r ++ [sd] } =
      { showAll w.mem o.d with stage_data := l ++ [show1 w.mem sd] } := by
    simp [showAll, k3]
  rw [← ev]
  exact this

/-- The memory after a call that changes the objects of one variable only. -/
theorem rep_call {w : World D} {s : State D} (h : RepW w s) {n : ℕ} {v : Prob.Data D} {c : ℝ} (hn : s.data n = some (v, c))
    {o : Obj} (ho : w.data n = some o) (m' : ℕ → D) (hm : ∀ a, a ∉ o.d.addrs → m' a = w.mem a) (c' : ℝ) :
    RepW { w with mem := m', data := Function.update w.data n (some ⟨o.d, c'⟩) }
      { s with data := Function.update s.data n (some (showAll m' o.d, c')) } := by
  obtain ⟨f, hf, h1, h2⟩ := h
  obtain ⟨o', e1, e2, e3, e4⟩ := h1 n v c hn
  cases Option.some.inj (ho.symm.trans e1)
  refine ⟨f, hf, fun n' v' c' hn' => ?_, fun k v' hk => ?_⟩
  · by_cases e : n' = n
    · subst e
      simp only [Function.update_self] at hn' ⊢
      cases hn'
      exact ⟨_, rfl, rfl, rfl, e4⟩
    · simp only [Function.update_of_ne e] at hn' ⊢
      obtain ⟨o2, k1, k2, k3, k4⟩ := h1 n' v' c' hn'
      refine ⟨o2, k1, k2, ?_, k4⟩
      rw [← k3]
      exact showAll_congr fun a ha => hm a (e4 ▸ hf.disj (.inl n') (.inl n) (by simpa using e) a (k4 ▸ ha))
  · obtain ⟨d, k1, k2, k3⟩ := h2 k v' hk
    refine ⟨d, k1, ?_, k3⟩
    rw [← k2]
    exact show1_congr fun a ha => hm a (e4 ▸ hf.disj (.inr k) (.inl n) (by simp) a (k3 ▸ ha))

theorem RepW.get {w : World D} {s : State D} (h : RepW w s) {n : ℕ} {v : Prob.Data D} {c : ℝ} (hn : s.data n = some (v, c)) :
    ∃ o, w.data n = some o ∧ o.cost = c ∧ showAll w.mem o.d = v ∧ o.d.addrs.Nodup := by
  obtain ⟨f, hf, h1, _⟩ := h
  obtain ⟨o, e1, e2, e3, e4⟩ := h1 n v c hn
  exact ⟨o, e1, e2, e3, e4 ▸ hf.nodup (.inl n)⟩

/-- One statement: it has a result, and all its results are what the values say. -/
theorem step_rep (new : New X U D) (value : D → ℝ) {w : World D} {s s' : State D} (h : RepW w s) (op : Op X U D) {x : Out D}
    (hs : Spec.step new value s op = some (s', x)) :
    (∃ r, Step new value w op r) ∧ ∀ r, Step new value w op r → ∃ w', r = .ok w' x ∧ RepW w' s' := by
  cases op with
  | create n P =>
    simp only [Spec.step, Option.some.injEq, Prod.mk.injEq] at hs
    obtain ⟨rfl, rfl⟩ := hs
    refine ⟨⟨_, rfl⟩, ?_⟩
    rintro r rfl
    refine ⟨_, rfl, ?_⟩
    obtain ⟨f, hf, h1, h2⟩ := h.mem w.next (problemNew new P) rfl
    obtain ⟨n1, n2⟩ := newData_addrs P w.next
    have := RepW.putData hf h1 h2 n ⟨(P.createData w.next).1, 0⟩ _ n2 (createData_nodup P w.next) (fun a ha => (n1 a ha).2)
      (fun j _ a ha hj => absurd (hf.lt j a hj) (not_lt.2 (n1 a ha).1))
    rw [show_newData (holds_store _ _ _)] at this
    exact this
  | createStage k m =>
    simp only [Spec.step, Option.some.injEq, Prod.mk.injEq] at hs
    obtain ⟨rfl, rfl⟩ := hs
    refine ⟨⟨_, rfl⟩, ?_⟩
    rintro r rfl
    refine ⟨_, rfl, ?_⟩
    obtain ⟨f, hf, h1, h2⟩ := h.mem w.next (stageNew new m) rfl
    obtain ⟨n0, n1, n2⟩ := newStage_addrs m w.next
    refine ⟨_, hf.update (.inr k) n2 n0 (fun a ha => (n1 a ha).2)
      (fun j _ a ha hj => absurd (hf.lt j a hj) (not_lt.2 (n1 a ha).1)), fun n v c hn => ?_, fun k' v hk => ?_⟩
    · rw [Function.update_of_ne (by simp)]
      exact h1 n v c hn
    · by_cases e : k' = k
      · subst e
        simp only [Function.update_self] at hk ⊢
        cases hk
        exact ⟨_, rfl, show_newStage (holds_store _ _ _), rfl⟩
      · simp only [Function.update_of_ne e] at hk ⊢
        rw [Function.update_of_ne (by simpa using e)]
        exact h2 k' v hk
  | copy n m => cases hs
  | drop n =>
    simp only [Spec.step, Option.some.injEq, Prod.mk.injEq] at hs
    obtain ⟨rfl, rfl⟩ := hs
    refine ⟨⟨_, rfl⟩, ?_⟩
    rintro r rfl
    refine ⟨_, rfl, ?_⟩
    obtain ⟨f, hf, h1, h2⟩ := h
    refine ⟨f, hf, fun n' v c hn => ?_, h2⟩
    by_cases e : n' = n
    · subst e; simp at hn
    · simp only [Function.update_of_ne e] at hn ⊢
      exact h1 n' v c hn
  | shift n k =>
    simp only [Spec.step] at hs
    split at hs
    · rename_i v c d hn hk
      split at hs
      · cases hs
      · rename_i v0 l hv
        cases hs
        obtain ⟨o, sd, a, r, e1, e2, e3, e4⟩ := rep_shift h hn hk hv
        simp only [Step, e1, e2, e3, shiftList_cons]
        exact ⟨⟨_, rfl⟩, fun r hr => ⟨_, hr, e4⟩⟩
    · cases hs
  | append n k =>
    simp only [Spec.step] at hs
    split at hs
    · rename_i v c d hn hk
      split at hs
      · cases hs
      · rename_i v0 l hv
        cases hs
        obtain ⟨o, sd, a, r, e1, e2, e3, e4⟩ := rep_shift h hn hk hv
        simp only [Step, e1, e2, e3, appendList_cons]
        exact ⟨⟨_, rfl⟩, fun r hr => ⟨_, hr, e4⟩⟩
    · cases hs
  | rotate n =>
    simp only [Spec.step] at hs
    split at hs
    · rename_i v c hn
      split at hs
      · cases hs
      · rename_i v0 l hv
        cases hs
        obtain ⟨f, hf, h1, h2⟩ := h
        obtain ⟨o, e1, e2, e3, e4⟩ := h1 n v c hn
        subst e3 e2
        obtain ⟨a, r, k1, k2, k3⟩ := showAll_stages hv
        simp only [Step, e1, k1, rotateLeft]
        refine ⟨⟨_, rfl⟩, fun r' hr => ⟨_, hr, ?_⟩⟩
        have hp := perm_rotate k1
        have := RepW.putData hf h1 h2 n ⟨{ o.d with stage_data := r ++ [a] }, o.cost⟩ w.next le_rfl
          (hp.nodup_iff.2 (e4 ▸ hf.nodup (.inl n))) (fun x hx => hf.lt (.inl n) x (e4 ▸ hp.mem_iff.1 hx))
          (fun j hj x hx => hf.disj (.inl n) j (Ne.symm hj) x (e4 ▸ hp.mem_iff.1 hx))
        have ev : showAll w.mem { o.d with stage_data := r ++ [a] } = { showAll w.mem o.d with stage_data := l ++ [v0] } := by
          simp [showAll, k2, k3]
        rw [← ev]
        exact this
    · cases hs
  | evaluate n P xs us =>
    simp only [Spec.step] at hs
    split at hs
    · rename_i v c hn
      obtain ⟨o, e1, e2, e3, e4⟩ := h.get hn
      split at hs
      · rename_i hl
        split at hs
        · rename_i x0 xN h0 hN
          split at hs
          · rename_i hfit
            cases hs
            rw [← e3] at hfit
            simp only [Step, e1]
            constructor
            · exact ⟨_, _, .ok x0 xN _ hl.1 hl.2 (fits_inRange hfit) h0 hN (parallelFor_seq _ _ _), rfl⟩
            · rintro r ⟨oc, ho, rfl⟩
              cases ho with
              | error hne => exact absurd hl (by tauto)
              | ub _ _ hr => exact absurd (fits_inRange hfit) hr
              | ok y0 yN m' a1 a2 a3 a4 a5 a6 =>
                obtain ⟨k1, k2, k3⟩ := evaluate_show e4 hfit (.ok y0 yN m' a1 a2 a3 a4 a5 a6 : Evaluate value P xs us o.d w.mem _)
                  h0 hN
                rw [e3] at k1
                dsimp only
                rw [k2, k1]
                refine ⟨_, rfl, ?_⟩
                have := rep_call h hn e1 _ k3 (Spec.total value (Spec.evaluate P x0 xN xs us v))
                rw [k1] at this
                exact this
          · cases hs
        · cases hs
      · rename_i hl
        cases hs
        simp only [Step, e1]
        have hne : xs.length ≠ P.stages.length + 1 ∨ us.length ≠ P.stages.length := by tauto
        refine ⟨⟨_, _, .error hne, rfl⟩, ?_⟩
        rintro r ⟨oc, ho, rfl⟩
        cases ho with
        | error hne => exact ⟨_, rfl, h⟩
        | ub a b _ => exact absurd ⟨a, b⟩ hl
        | ok y0 yN m' a1 a2 a3 a4 a5 a6 => exact absurd ⟨a1, a2⟩ hl
    · cases hs
  | derivatives n P second xs us =>
    simp only [Spec.step] at hs
    split at hs
    · rename_i v c hn
      obtain ⟨o, e1, e2, e3, e4⟩ := h.get hn
      split at hs
      · rename_i hl
        split at hs
        · rename_i x0 xN h0 hN
          split at hs
          · rename_i hfit
            cases hs
            rw [← e3] at hfit
            simp only [Step, e1]
            constructor
            · exact ⟨_, _, .ok x0 xN _ hl.1 hl.2 (fits_inRange hfit) h0 hN (parallelFor_seq _ _ _), rfl⟩
            · rintro r ⟨oc, ho, rfl⟩
              cases ho with
              | error hne => exact absurd hl (by tauto)
              | ub _ _ hr => exact absurd (fits_inRange hfit) hr
              | ok y0 yN m' a1 a2 a3 a4 a5 a6 =>
                obtain ⟨k1, k3⟩ := derivatives_show e4 hfit
                  (.ok y0 yN m' a1 a2 a3 a4 a5 a6 : ComputeDerivatives P second xs us o.d w.mem _) h0 hN
                rw [e3] at k1
                refine ⟨_, rfl, ?_⟩
                have := rep_call h hn e1 _ k3 o.cost
                rw [k1, e2] at this
                have eo : Function.update w.data n (some ⟨o.d, c⟩) = w.data := by
                  rw [← e2]
                  exact Function.update_eq_self_iff.2 e1.symm
                rw [eo] at this
                exact this
          · cases hs
        · cases hs
      · rename_i hl
        cases hs
        simp only [Step, e1]
        have hne : xs.length ≠ P.stages.length + 1 ∨ us.length ≠ P.stages.length := by tauto
        refine ⟨⟨_, _, .error hne, rfl⟩, ?_⟩
        rintro r ⟨oc, ho, rfl⟩
        cases ho with
        | error hne => exact ⟨_, rfl, h⟩
        | ub a b _ => exact absurd ⟨a, b⟩ hl
        | ok y0 yN m' a1 a2 a3 a4 a5 a6 => exact absurd ⟨a1, a2⟩ hl
    · cases hs
  | total n =>
    simp only [Spec.step] at hs
    split at hs
    · rename_i v c hn; cases hs
      obtain ⟨o, e1, e2, e3, e4⟩ := h.get hn
      simp only [Step, e1, total_show, e3]
      exact ⟨⟨_, rfl⟩, fun r hr => ⟨_, hr, h⟩⟩
    · cases hs
  | readCost n =>
    simp only [Spec.step] at hs
    split at hs
    · rename_i v c hn; cases hs
      obtain ⟨o, e1, e2, e3, e4⟩ := h.get hn
      simp only [Step, e1, e2]
      exact ⟨⟨_, rfl⟩, fun r hr => ⟨_, hr, h⟩⟩
    · cases hs
  | look n =>
    simp only [Spec.step] at hs
    split at hs
    · rename_i v c hn; cases hs
      obtain ⟨o, e1, e2, e3, e4⟩ := h.get hn
      simp only [Step, e1, e3]
      exact ⟨⟨_, rfl⟩, fun r hr => ⟨_, hr, h⟩⟩
    · cases hs

/-- **C83.** Programs of any length over any number of problem data objects and solvers that do not misuse them (`Spec.step`: no
copies of problem data, stage data handed over once): they can be executed, and every execution, on any number of threads and
with any schedule, is defined and shows what the program shows on values. -/
theorem C83_data_objects_are_values (new : New X U D) (value : D → ℝ) (m : ℕ → D) (ops : List (Op X U D)) (s' : State D)
    (outs : List (Out D)) (h : Spec.run new value ⟨fun _ => none, fun _ => none⟩ ops = some (s', outs)) :
    (∃ r xs, Runs new value (empty m) ops r xs) ∧
    ∀ r xs, Runs new value (empty m) ops r xs → ∃ w', r = some w' ∧ xs = outs ∧ RepW w' s' := by
  suffices H : ∀ (w : World D) (s : State D) outs, RepW w s → Spec.run new value s ops = some (s', outs) →
      (∃ r xs, Runs new value w ops r xs) ∧
      ∀ r xs, Runs new value w ops r xs → ∃ w', r = some w' ∧ xs = outs ∧ RepW w' s' from
    H _ _ outs ⟨fun _ => [], ⟨fun _ => List.nodup_nil, by simp, by simp⟩, by simp, by simp⟩ h
  clear h outs
  induction ops with
  | nil =>
    intro w s outs hw h
    cases h
    refine ⟨⟨_, _, .nil w⟩, ?_⟩
    intro r xs hr
    cases hr
    exact ⟨w, rfl, rfl, hw⟩
  | cons op ops ih =>
    intro w s outs hw h
    simp only [Spec.run] at h
    split at h
    · rename_i s1 x hs
      obtain ⟨⟨s2, os⟩, h2, e⟩ := Option.map_eq_some_iff.1 h
      cases e
      obtain ⟨⟨r, hr⟩, hall⟩ := step_rep new value hw op hs
      constructor
      · obtain ⟨w1, rfl, hw1⟩ := hall r hr
        obtain ⟨⟨r2, xs, hr2⟩, _⟩ := ih w1 s1 os hw1 h2
        exact ⟨_, _, .cons _ _ _ _ _ _ _ hr hr2⟩
      · intro r xs hr
        cases hr with
        | ub _ _ _ h3 => obtain ⟨w1, e, _⟩ := hall _ h3; cases e
        | cons _ w1 _ _ y _ ys h3 h4 =>
          obtain ⟨w2, e, hw1⟩ := hall _ h3
          cases e
          obtain ⟨w', e1, e2, e3⟩ := (ih w1 s1 os hw1 h2).2 _ _ h4
          exact ⟨w', e1, by rw [e2], e3⟩
    · cases h

/-- A stage whose cost is its state. -/
def exStage : StageModel ℝ Unit ℝ :=
  ⟨⟨fun x _ => [fun _ => x], fun _ _ => [], fun _ _ => []⟩, ⟨fun _ _ => [], fun _ _ => []⟩, []⟩

/-- Two such stages, terminal cost zero. -/
def exProblem : Problem ℝ Unit ℝ :=
  ⟨⟨fun _ _ => [], fun _ _ => []⟩, [exStage, exStage], ⟨fun _ _ => [fun _ => 0], fun _ _ => [], fun _ _ => []⟩, [], ()⟩

/-- New data holds zero. -/
def exNew : New ℝ Unit ℝ := ⟨fun _ => 0, fun _ => 0, fun _ => 0⟩

/-- Non-vacuity: two data objects of one problem, evaluated at different trajectories, one of them shifted; the second
evaluation does not show in the first one. -/
example (m : ℕ → ℝ) (r : Option (World ℝ)) (xs : List (Out ℝ))
    (h : Runs exNew id (empty m) [.create 0 exProblem, .create 1 exProblem, .createStage 0 exStage, .shift 0 0,
      .evaluate 0 exProblem [1, 2, 3] [(), ()], .evaluate 1 exProblem [5, 6, 7] [(), ()], .total 0, .readCost 1,
      .evaluate 1 exProblem [5] [(), ()], .rotate 0, .total 0] r xs) :
    xs = [.unit, .unit, .unit, .unit, .cost 3, .cost 11, .cost 3, .cost 11, .thrown, .unit, .cost 3] := by
  obtain ⟨w, -, rfl, -⟩ := (C83_data_objects_are_values exNew id m _ _ _ rfl).2 r xs h
  simp [Spec.run, Spec.step, exProblem, exStage, Spec.Fits, Spec.newData, Spec.newStage, Spec.evaluate, Spec.total, after]
  norm_num

/-- **C83.** What is missing, first part: a copy of problem data has the same objects behind its pointers.  Evaluating with the
copy changes everything the original shows, except `cost_`, which keeps the cost of the trajectory evaluated before. -/
theorem C83_copy_shares (new : New X U D) (value : D → ℝ) (w w1 w2 : World D) (n m : ℕ) (hnm : n ≠ m) (o : Obj)
    (ho : w.data m = some o) (hnd : o.d.addrs.Nodup) (P : Problem X U D) (xs : List X) (us : List U) (x0 xN : X)
    (h0 : xs[0]? = some x0) (hN : xs[P.stages.length]? = some xN) (hfit : Spec.Fits P (showAll w.mem o.d)) (y : Out D) (c : ℝ)
    (h1 : Step new value w (.copy n m) (.ok w1 y)) (h2 : Step new value w1 (.evaluate n P xs us) (.ok w2 (.cost c))) :
    Step new value w2 (.look m) (.ok w2 (.contents (Spec.evaluate P x0 xN xs us (showAll w.mem o.d)))) ∧
    Step new value w2 (.total m) (.ok w2 (.cost c)) ∧ Step new value w2 (.readCost m) (.ok w2 (.cost o.cost)) := by
  simp only [Step, ho] at h1
  cases h1
  simp only [Step, Function.update_self] at h2
  obtain ⟨oc, he, hr⟩ := h2
  cases oc with
  | error => cases hr
  | ub => cases hr
  | ok m' c' =>
    cases hr
    obtain ⟨k1, k2, k3⟩ := evaluate_show hnd hfit he h0 hN
    have e : (Function.update (Function.update w.data n (some o)) n (some ⟨o.d, c⟩)) m = some o := by
      rw [Function.update_of_ne (Ne.symm hnm), Function.update_of_ne (Ne.symm hnm), ho]
    simp only [Step, e, k1, total_show, ← k2, and_self, and_true, true_and]
    rw [k2, k1]

/-- An evaluation of the example by one thread. -/
theorem exEvaluate (m : ℕ → ℝ) (a b c : ℝ) : ∃ m', Evaluate id exProblem [a, b, c] [(), ()] (exProblem.createData 0).1 m
    (.ok m' (a + b)) ∧ computeTrajectoryCost id (exProblem.createData 0).1 m' = a + b := by
  have h := Evaluate.ok (value := id) (P := exProblem) (xs := [a, b, c]) (us := [(), ()]) (d := (exProblem.createData 0).1)
    (m := m) a c _ rfl rfl (createData_inRange _ _) rfl rfl (parallelFor_seq _ _ _)
  have e : ∀ M : ℕ → ℝ, M 1 = a → M 3 = b → M 5 = 0 → computeTrajectoryCost id (exProblem.createData 0).1 M = a + b := by
    intro M h1 h2 h3
    simp [exProblem, exStage, Problem.createData, createStageData, StageModel.createData, computeTrajectoryCost, h1, h2, h3]
  obtain ⟨M, hM, h1, h2, h3⟩ : ∃ M, Evaluate id exProblem [a, b, c] [(), ()] (exProblem.createData 0).1 m
      (.ok M (computeTrajectoryCost id (exProblem.createData 0).1 M)) ∧ M 1 = a ∧ M 3 = b ∧ M 5 = 0 := by
    refine ⟨_, h, ?_, ?_, ?_⟩ <;>
    simp [exProblem, exStage, Problem.createData, createStageData, StageModel.createData, evaluateTerm, constraintLoop, seqFor,
      evaluateStage, StageModel.evaluate, Callback.at, Sched.run, Op.exec, List.range_succ]
  have e' := e M h1 h2 h3
  exact ⟨M, e' ▸ hM, e'⟩

/-- Non-vacuity: the original reports cost 3 although what it holds sums up to 11. -/
example (m : ℕ → ℝ) : ∃ w, Runs exNew id (empty m) [.create 0 exProblem, .evaluate 0 exProblem [1, 2, 3] [(), ()], .copy 1 0,
    .evaluate 1 exProblem [5, 6, 7] [(), ()], .readCost 0, .total 0] (some w)
    [.unit, .cost (1 + 2), .unit, .cost (5 + 6), .cost (1 + 2), .cost (5 + 6)] := by
  obtain ⟨m1, h1, -⟩ := exEvaluate (store 0 (problemNew exNew exProblem) m) 1 2 3
  obtain ⟨m2, h2, e2⟩ := exEvaluate m1 5 6 7
  refine ⟨_, .cons _ _ _ _ _ _ _ rfl (.cons _ _ _ _ _ _ _ ⟨_, h1, rfl⟩ (.cons _ _ _ _ _ _ _ rfl (.cons _ _ _ _ _ _ _
    ⟨_, h2, rfl⟩ (.cons _ _ _ _ _ _ _ rfl (.cons _ _ _ _ _ _ _ (congrArg (fun c => Res.ok _ (Out.cost c)) e2.symm)
      (.nil _))))))⟩

/-- **C83.** What is missing, second part: a shift takes whatever stage data it is given.  The knots have data of their own
afterwards exactly if what was given is not behind another knot already. -/
theorem C83_shift_iff (d : Prob.Data ℕ) (a sd : StageData ℕ) (l : List (StageData ℕ)) (hl : d.stage_data = a :: l)
    (hnd : d.addrs.Nodup) :
    ∃ l', shiftList d.stage_data sd = some l' ∧ appendList d.stage_data sd = some l' ∧
      (({ d with stage_data := l' } : Prob.Data ℕ).addrs.Nodup ↔
        sd.addrs.Nodup ∧ ∀ x ∈ sd.addrs, x ∉ ({ d with stage_data := l } : Prob.Data ℕ).addrs) := by
  refine ⟨l ++ [sd], by rw [hl, shiftList_cons], by rw [hl, appendList_cons], ?_⟩
  have h1 : ({ d with stage_data := l } : Prob.Data ℕ).addrs.Nodup := by
    simp only [Data.addrs, hl, List.flatMap_cons] at hnd ⊢
    rw [List.nodup_append] at hnd ⊢
    exact ⟨hnd.1, (List.nodup_append.1 hnd.2.1).2.1, fun x hx y hy => hnd.2.2 x hx y (List.mem_append_right _ hy)⟩
  have e : ({ d with stage_data := l ++ [sd] } : Prob.Data ℕ).addrs =
      ({ d with stage_data := l } : Prob.Data ℕ).addrs ++ sd.addrs := by
    simp [Data.addrs]
  rw [e, List.nodup_append]
  exact ⟨fun h => ⟨h.2.1, fun x hx hy => h.2.2 x hy x hx rfl⟩, fun h => ⟨h1, h.1, fun x hx y hy e => h.2 y hy (e ▸ hx)⟩⟩

/-- **C83.** A client that shifts twice with the same stage data: both knots are evaluated in the same objects, the result of
an evaluation depends on the schedule, and both results are wrong (the cost of the trajectory is 3). -/
theorem C83_same_stage_data_twice (m : ℕ → ℝ) (c : ℝ) (hc : c = 2 ∨ c = 4) :
    ∃ w, Runs exNew id (empty m) [.create 0 exProblem, .createStage 0 exStage, .shift 0 0, .shift 0 0,
      .evaluate 0 exProblem [1, 2, 3] [(), ()]] (some w) [.unit, .unit, .unit, .unit, .cost c] := by
  have key : ∀ ts : List ℕ, ts.Perm [0, 1] → ∀ v : ℝ,
      (∀ M : ℕ → ℝ, run (ts.flatMap (evaluateStage exProblem [1, 2, 3] [(), ()] ⟨0, [⟨[], 6, 7⟩, ⟨[], 6, 7⟩], 5, []⟩)) M 6 = v) →
      v + v = c → ∃ m', Evaluate id exProblem [1, 2, 3] [(), ()] ⟨0, [⟨[], 6, 7⟩, ⟨[], 6, 7⟩], 5, []⟩
        (store 6 (stageNew exNew exStage) (store 0 (problemNew exNew exProblem) m)) (.ok m' c) := by
    intro ts hts v hv hc
    have h := Evaluate.ok (value := id) (P := exProblem) (xs := [1, 2, 3]) (us := [(), ()])
      (d := ⟨0, [⟨[], 6, 7⟩, ⟨[], 6, 7⟩], 5, []⟩) (m := store 6 (stageNew exNew exStage) (store 0 (problemNew exNew exProblem) m))
      1 3 _ rfl rfl ⟨le_rfl, by
        intro i h1 h2
        have : i = 0 ∨ i = 1 := by simp [exProblem] at h1; omega
        rcases this with rfl | rfl <;> exact le_rfl, le_rfl⟩ rfl rfl
      ⟨[ts], _, by simpa [exProblem, List.range_succ] using hts, interleave_sequential _, rfl⟩
    obtain ⟨M, hM, h1, h2⟩ : ∃ M, Evaluate id exProblem [1, 2, 3] [(), ()] ⟨0, [⟨[], 6, 7⟩, ⟨[], 6, 7⟩], 5, []⟩
        (store 6 (stageNew exNew exStage) (store 0 (problemNew exNew exProblem) m))
        (.ok M (computeTrajectoryCost id ⟨0, [⟨[], 6, 7⟩, ⟨[], 6, 7⟩], 5, []⟩ M)) ∧ M 6 = v ∧ M 5 = 0 := by
      refine ⟨_, h, ?_, ?_⟩
      · rw [← hv]
        simp [exProblem, evaluateTerm, constraintLoop, Callback.at, Sched.run, Op.exec]
        rfl
      · simp [exProblem, evaluateTerm, constraintLoop, Callback.at, Sched.run, Op.exec]
    refine ⟨M, ?_⟩
    have e : computeTrajectoryCost id ⟨0, [⟨[], 6, 7⟩, ⟨[], 6, 7⟩], 5, []⟩ M = c := by
      rw [← hc]
      simp [computeTrajectoryCost, h1, h2]
    exact e ▸ hM
  obtain ⟨m', h⟩ : ∃ m', Evaluate id exProblem [1, 2, 3] [(), ()] ⟨0, [⟨[], 6, 7⟩, ⟨[], 6, 7⟩], 5, []⟩
        (store 6 (stageNew exNew exStage) (store 0 (problemNew exNew exProblem) m)) (.ok m' c) := by
    rcases hc with rfl | rfl
    · refine key [1, 0] (List.Perm.swap _ _ _) 1 (fun M => ?_) (by norm_num)
      simp [exProblem, exStage, evaluateStage, StageModel.evaluate, constraintLoop, Callback.at, Sched.run, Op.exec]
    · refine key [0, 1] (List.Perm.refl _) 2 (fun M => ?_) (by norm_num)
      simp [exProblem, exStage, evaluateStage, StageModel.evaluate, constraintLoop, Callback.at, Sched.run, Op.exec]
  exact ⟨_, .cons _ _ _ _ _ _ _ rfl (.cons _ _ _ _ _ _ _ rfl (.cons _ _ _ _ _ _ _ rfl (.cons _ _ _ _ _ _ _ rfl
    (.cons _ _ _ _ _ _ _ ⟨_, h, rfl⟩ (.nil _)))))⟩

end Aligator.DataObj
