import Verif.Lemmas.TrajOptProblem
import Verif.Props.Schedule
import Mathlib.Algebra.BigOperators.Fin

/-!
# Evaluation of trajectories (C32)
-/

namespace Aligator.Prob

open Aligator.Sched

variable {A X U D : Type*} [DecidableEq A]

/-- **C32** `evaluate` throws exactly when the number of states or of controls is wrong; the check comes
before anything is written. -/
theorem C32_rejects_wrong_sizes (value : D → ℝ) (P : Problem X U D) (xs : List X) (us : List U) (d : Data A)
    (m : A → D) : Evaluate value P xs us d m .error ↔
      (xs.length ≠ P.stages.length + 1 ∨ us.length ≠ P.stages.length) :=
  ⟨fun h => by cases h; assumption, .error⟩

/-- **C32** The same for `computeDerivatives`. -/
theorem C32_derivatives_reject_wrong_sizes (P : Problem X U D) (second : Bool) (xs : List X) (us : List U)
    (d : Data A) (m : A → D) : ComputeDerivatives P second xs us d m .error ↔
      (xs.length ≠ P.stages.length + 1 ∨ us.length ≠ P.stages.length) :=
  ⟨fun h => by cases h; assumption, .error⟩

/-- The three phases of both functions: initial condition, parallel loop, terminal node. -/
theorem phases_at {d : Data A} (hnd : d.addrs.Nodup) {N : ℕ} {ini trm : List (Op A D)}
    {stg : ℕ → List (Op A D)} (m : A → D)
    (hini : ∀ o ∈ ini, o.tgt = d.init_data ∧ ∀ b, o.reads b → b = o.tgt)
    (hstg : ∀ i, ∀ o ∈ stg i, (∃ sd, d.stage_data[i]? = some sd ∧ o.tgt ∈ sd.addrs) ∧
      ∀ b, o.reads b → b = o.tgt)
    (htrm : ∀ o ∈ trm, (o.tgt = d.term_cost_data ∨ o.tgt ∈ d.term_cstr_data) ∧
      ∀ b, o.reads b → b = o.tgt) :
    (run trm (seqFor stg N (run ini m)) d.init_data = run ini m d.init_data) ∧
    (∀ i sd a, i < N → d.stage_data[i]? = some sd → a ∈ sd.addrs →
      run trm (seqFor stg N (run ini m)) a = run (stg i) m a) ∧
    (∀ a, (a = d.term_cost_data ∨ a ∈ d.term_cstr_data) →
      run trm (seqFor stg N (run ini m)) a = run trm m a) ∧
    (∀ a, a ∉ d.addrs → run trm (seqFor stg N (run ini m)) a = m a) := by
  have hl : ∀ i, LocalProg (stg i) := fun i o ho => (hstg i o ho).2
  have hini_ne : ∀ a, a ≠ d.init_data → run ini m a = m a := fun a ha =>
    run_frame _ _ (fun o ho => by rw [(hini o ho).1]; exact ha.symm) m
  have hnd1 := (List.nodup_append.1 (show (_ ++ _ : List A).Nodup from hnd)).1
  have hnd2 : d.init_data ≠ d.term_cost_data ∧ d.init_data ∉ d.term_cstr_data := by
    have := (List.nodup_cons.1 hnd1).1
    simpa using this
  refine ⟨?_, ?_, ?_, ?_⟩
  · rw [run_frame, seqFor_frame]
    · intro j _ o ho
      obtain ⟨⟨sd, hsd, hmem⟩, _⟩ := hstg j o ho
      exact (stage_addrs_other hnd hsd hmem).1
    · intro o ho
      rcases (htrm o ho).1 with e | e
      · rw [e]; exact hnd2.1.symm
      · exact fun e' => hnd2.2 (e' ▸ e)
  · intro i sd a hi hsd ha
    have hoth := stage_addrs_other hnd hsd ha
    rw [run_frame, seqFor_at stg hl N i hi a, run_congr_at _ (hl i) a _ m (hini_ne a hoth.1)]
    · intro j _ hji o ho e
      obtain ⟨⟨sj, hsj, hmem⟩, _⟩ := hstg j o ho
      exact stage_addrs_disjoint hnd hsd hsj (Ne.symm hji) ha (e ▸ hmem)
    · intro o ho
      rcases (htrm o ho).1 with e | e
      · rw [e]; exact hoth.2.1.symm
      · exact fun e' => hoth.2.2 (e' ▸ e)
  · intro a ha
    refine run_congr_at _ (fun o ho => (htrm o ho).2) a _ m ?_
    rw [seqFor_frame, hini_ne]
    · rintro rfl
      rcases ha with e | e
      · exact hnd2.1 e
      · exact hnd2.2 e
    · intro j _ o ho e
      obtain ⟨⟨sd, hsd, hmem⟩, _⟩ := hstg j o ho
      have := stage_addrs_other hnd hsd hmem
      rw [e] at this
      rcases ha with e | e
      · exact this.2.1 e
      · exact this.2.2 e
  · intro a ha
    have hb : a ≠ d.init_data ∧ a ≠ d.term_cost_data ∧ a ∉ d.term_cstr_data := by
      refine ⟨?_, ?_, ?_⟩
      · rintro rfl; exact ha (by simp [Data.addrs])
      · rintro rfl; exact ha (by simp [Data.addrs])
      · intro h; exact ha (by simp [Data.addrs, h])
    rw [run_frame, seqFor_frame, hini_ne a hb.1]
    · intro j _ o ho e
      obtain ⟨⟨sd, hsd, hmem⟩, _⟩ := hstg j o ho
      exact ha (stage_addrs_mem hsd (e ▸ hmem))
    · intro o ho
      rcases (htrm o ho).1 with e | e
      · rw [e]; exact hb.2.1.symm
      · exact fun e' => hb.2.2 (e' ▸ e)

theorem init_ops {f : Callback X U D} {x : X} {u : U} {d : Data A} :
    ∀ o ∈ f.at x u d.init_data, o.tgt = d.init_data ∧ ∀ b, o.reads b → b = o.tgt :=
  fun _ ho => ⟨(at_mem ho).1, by rw [(at_mem ho).1]; exact (at_mem ho).2⟩

/-- Dynamics, constraints, cost: what the program of a stage leaves in the objects of the stage. -/
theorem stageProg_at {sd : StageData A} (hsn : sd.addrs.Nodup) (fd fc : Callback X U D)
    (sel : Func X U D → Callback X U D) (x : X) (u : U) (fs : List (Func X U D)) (m : A → D) :
    let prog := fd.at x u sd.dynamics_data ++ constraintLoop sel x u fs sd.constraint_data ++
      fc.at x u sd.cost_data
    run prog m sd.dynamics_data = after (fd x u) (m sd.dynamics_data) ∧
    run prog m sd.cost_data = after (fc x u) (m sd.cost_data) ∧
    ∀ (j : ℕ) (f : Func X U D) (a : A), fs[j]? = some f → sd.constraint_data[j]? = some a →
      run prog m a = after (sel f x u) (m a) := by
  have hn := List.nodup_append.1 (show (_ ++ _ : List A).Nodup from hsn)
  have hcd : sd.cost_data ≠ sd.dynamics_data := by simpa using hn.2.1
  simp only [run_append]
  refine ⟨?_, ?_, ?_⟩
  · rw [run_frame, run_frame, run_at]
    · intro o ho e
      exact hn.2.2 _ (cl_mem ho).1 _ (by simp) e
    · intro o ho
      rw [(at_mem ho).1]; exact hcd
  · rw [run_at, run_frame, run_frame]
    · intro o ho
      rw [(at_mem ho).1]; exact hcd.symm
    · intro o ho e
      exact hn.2.2 _ (cl_mem ho).1 _ (by simp) e
  · intro j f a hf ha
    have hma := List.mem_of_getElem? ha
    rw [run_frame, run_cl _ _ _ _ _ hn.1 _ j f a hf ha, run_frame]
    · intro o ho
      rw [(at_mem ho).1]
      exact fun e => hn.2.2 a hma sd.dynamics_data (by simp) e.symm
    · intro o ho
      rw [(at_mem ho).1]
      exact fun e => hn.2.2 a hma sd.cost_data (by simp) e.symm

theorem at_append (f g : Callback X U D) (x : X) (u : U) (a : A) :
    f.at x u a ++ g.at x u a = Callback.at (fun x u => f x u ++ g x u) x u a := by
  simp [Callback.at]

/-- Terminal cost and constraints. -/
theorem termProg_at {d : Data A} (hnd : d.addrs.Nodup) (fc : Callback X U D)
    (sel : Func X U D → Callback X U D) (x : X) (u : U) (fs : List (Func X U D)) (m : A → D) :
    let prog := fc.at x u d.term_cost_data ++ constraintLoop sel x u fs d.term_cstr_data
    run prog m d.term_cost_data = after (fc x u) (m d.term_cost_data) ∧
    ∀ (j : ℕ) (f : Func X U D) (a : A), fs[j]? = some f → d.term_cstr_data[j]? = some a →
      run prog m a = after (sel f x u) (m a) := by
  have hnd1 := (List.nodup_append.1 (show (_ ++ _ : List A).Nodup from hnd)).1
  have hndt := (List.nodup_cons.1 (List.nodup_cons.1 hnd1).2)
  simp only [run_append]
  refine ⟨?_, ?_⟩
  · rw [run_frame, run_at]
    intro o ho e
    exact hndt.1 (e ▸ (cl_mem ho).1)
  · intro j f a hf ha
    rw [run_cl _ _ _ _ _ hndt.2 _ j f a hf ha, run_frame]
    intro o ho
    rw [(at_mem ho).1]
    exact fun e => hndt.1 (e ▸ List.mem_of_getElem? ha)

/-- **C32** After a successful `evaluate`, every data object has been updated by its own function, exactly
once, at its own point: stage `i` at `(xs[i], us[i])`, the initial condition at `xs[0]`, the terminal cost
and constraints at `xs[N]` with the dummy control; no other object has changed. -/
theorem C32_each_stage_at_its_own_point (value : D → ℝ) (P : Problem X U D) (xs : List X) (us : List U)
    (d : Data A) (hnd : d.addrs.Nodup) (m m' : A → D) (c : ℝ)
    (h : Evaluate value P xs us d m (.ok m' c)) :
    (∀ x, xs[0]? = some x → m' d.init_data = after (P.init_constraint.evaluate x P.unone) (m d.init_data)) ∧
    (∀ (i : ℕ) (s : StageModel X U D), P.stages[i]? = some s →
      ∃ x u sd, xs[i]? = some x ∧ us[i]? = some u ∧ d.stage_data[i]? = some sd ∧
        m' sd.dynamics_data = after (s.dynamics.forward x u) (m sd.dynamics_data) ∧
        m' sd.cost_data = after (s.cost.evaluate x u) (m sd.cost_data) ∧
        ∀ (j : ℕ) (f : Func X U D), s.constraints[j]? = some f →
          ∃ a, sd.constraint_data[j]? = some a ∧ m' a = after (f.evaluate x u) (m a)) ∧
    (∀ x, xs[P.stages.length]? = some x →
      m' d.term_cost_data = after (P.term_cost.evaluate x P.unone) (m d.term_cost_data) ∧
      ∀ (k : ℕ) (f : Func X U D), P.term_cstrs[k]? = some f →
        ∃ a, d.term_cstr_data[k]? = some a ∧ m' a = after (f.evaluate x P.unone) (m a)) ∧
    ∀ a, a ∉ d.addrs → m' a = m a := by
  cases h with
  | ok x0 xN m1 h1 h2 hr h4 h5 hp =>
  rw [parallelFor_eq (fun i _ j _ hne => evaluateStage_indep hnd hne) hp]
  have htrm : ∀ o ∈ evaluateTerm P xN d, (o.tgt = d.term_cost_data ∨ o.tgt ∈ d.term_cstr_data) ∧
      ∀ b, o.reads b → b = o.tgt := by
    intro o ho
    rcases List.mem_append.1 ho with ho | ho
    · exact ⟨.inl (at_mem ho).1, by rw [(at_mem ho).1]; exact (at_mem ho).2⟩
    · exact ⟨.inr (cl_mem ho).1, (cl_mem ho).2⟩
  obtain ⟨e1, e2, e3, e4⟩ := phases_at hnd (N := P.stages.length) (m := m)
    (init_ops (f := P.init_constraint.evaluate) (x := x0) (u := P.unone))
    (fun i o ho => evaluateStage_mem (P := P) (xs := xs) (us := us) (i := i) ho) htrm
  refine ⟨?_, ?_, ?_, e4⟩
  · intro x hx
    cases Option.some.inj (h4.symm.trans hx)
    rw [e1, run_at]
  · intro i s hs
    obtain ⟨hi, rfl⟩ := List.getElem?_eq_some_iff.1 hs
    have hxi : i < xs.length := by omega
    have hui : i < us.length := by omega
    have hdi : i < d.stage_data.length := lt_of_lt_of_le hi hr.1
    have hsd : d.stage_data[i]? = some d.stage_data[i] := List.getElem?_eq_getElem hdi
    refine ⟨xs[i], us[i], d.stage_data[i], List.getElem?_eq_getElem hxi, List.getElem?_eq_getElem hui,
      hsd, ?_⟩
    have hstage : evaluateStage P xs us d i = P.stages[i].evaluate xs[i] us[i] d.stage_data[i] := by
      unfold evaluateStage
      rw [hs, List.getElem?_eq_getElem hxi, List.getElem?_eq_getElem hui, hsd]
    obtain ⟨k1, k2, k3⟩ := stageProg_at (stage_addrs_nodup hnd hsd) P.stages[i].dynamics.forward
      P.stages[i].cost.evaluate Func.evaluate xs[i] us[i] P.stages[i].constraints m
    refine ⟨?_, ?_, ?_⟩
    · rw [e2 i _ _ hi hsd (by simp [StageData.addrs]), hstage]; exact k1
    · rw [e2 i _ _ hi hsd (by simp [StageData.addrs]), hstage]; exact k2
    · intro j f hf
      have hj := lt_of_lt_of_le (List.getElem?_eq_some_iff.1 hf).1 (hr.2.1 i hi hdi)
      refine ⟨_, List.getElem?_eq_getElem hj, ?_⟩
      rw [e2 i _ _ hi hsd (by simp [StageData.addrs]), hstage]
      exact k3 j f _ hf (List.getElem?_eq_getElem hj)
  · intro x hx
    cases Option.some.inj (h5.symm.trans hx)
    obtain ⟨k1, k2⟩ := termProg_at hnd P.term_cost.evaluate Func.evaluate xN P.unone P.term_cstrs m
    refine ⟨by rw [e3 _ (.inl rfl)]; exact k1, fun k f hf => ?_⟩
    have hk' := lt_of_lt_of_le (List.getElem?_eq_some_iff.1 hf).1 hr.2.2
    refine ⟨_, List.getElem?_eq_getElem hk', ?_⟩
    rw [e3 _ (.inr (List.getElem_mem hk'))]
    exact k2 k f _ hf (List.getElem?_eq_getElem hk')

/-- **C32** The same for `computeDerivatives`: first-order derivatives, then (only if asked for) the
Hessians of the costs. -/
theorem C32_derivatives_at_own_point (P : Problem X U D) (second : Bool) (xs : List X) (us : List U)
    (d : Data A) (hnd : d.addrs.Nodup) (m m' : A → D)
    (h : ComputeDerivatives P second xs us d m (.ok m' ())) :
    (∀ x, xs[0]? = some x →
      m' d.init_data = after (P.init_constraint.computeJacobians x P.unone) (m d.init_data)) ∧
    (∀ (i : ℕ) (s : StageModel X U D), P.stages[i]? = some s →
      ∃ x u sd, xs[i]? = some x ∧ us[i]? = some u ∧ d.stage_data[i]? = some sd ∧
        m' sd.dynamics_data = after (s.dynamics.dForward x u) (m sd.dynamics_data) ∧
        m' sd.cost_data = (if second then after (s.cost.computeHessians x u) else id)
          (after (s.cost.computeGradients x u) (m sd.cost_data)) ∧
        ∀ (j : ℕ) (f : Func X U D), s.constraints[j]? = some f →
          ∃ a, sd.constraint_data[j]? = some a ∧ m' a = after (f.computeJacobians x u) (m a)) ∧
    (∀ x, xs[P.stages.length]? = some x →
      m' d.term_cost_data = (if second then after (P.term_cost.computeHessians x P.unone) else id)
        (after (P.term_cost.computeGradients x P.unone) (m d.term_cost_data)) ∧
      ∀ (k : ℕ) (f : Func X U D), P.term_cstrs[k]? = some f →
        ∃ a, d.term_cstr_data[k]? = some a ∧ m' a = after (f.computeJacobians x P.unone) (m a)) ∧
    ∀ a, a ∉ d.addrs → m' a = m a := by
  cases h with
  | ok x0 xN m1 h1 h2 hr h4 h5 hp =>
  rw [parallelFor_eq (fun i _ j _ hne => derivativesStage_indep hnd hne) hp]
  have hmerge : ∀ (c : Cost X U D) (x : X) (u : U) (a : A), c.computeGradients.at x u a ++
      (if second then c.computeHessians.at x u a else []) =
      Callback.at (fun x u => c.computeGradients x u ++ if second then c.computeHessians x u else []) x u a := by
    intro c x u a
    cases second <;> simp [Callback.at]
  have hafter : ∀ (c : Cost X U D) (x : X) (u : U) (o : D),
      after (c.computeGradients x u ++ if second then c.computeHessians x u else []) o =
      (if second then after (c.computeHessians x u) else id) (after (c.computeGradients x u) o) := by
    intro c x u o
    cases second <;> simp [after]
  have htrm : ∀ o ∈ derivativesTerm P second xN d,
      (o.tgt = d.term_cost_data ∨ o.tgt ∈ d.term_cstr_data) ∧ ∀ b, o.reads b → b = o.tgt := by
    intro o ho
    rw [derivativesTerm, hmerge] at ho
    rcases List.mem_append.1 ho with ho | ho
    · exact ⟨.inl (at_mem ho).1, by rw [(at_mem ho).1]; exact (at_mem ho).2⟩
    · exact ⟨.inr (cl_mem ho).1, (cl_mem ho).2⟩
  obtain ⟨e1, e2, e3, e4⟩ := phases_at hnd (N := P.stages.length) (m := m)
    (init_ops (f := P.init_constraint.computeJacobians) (x := x0) (u := P.unone))
    (fun i o ho => derivativesStage_mem (P := P) (second := second) (xs := xs) (us := us) (i := i) ho) htrm
  refine ⟨?_, ?_, ?_, e4⟩
  · intro x hx
    cases Option.some.inj (h4.symm.trans hx)
    rw [e1, run_at]
  · intro i s hs
    obtain ⟨hi, rfl⟩ := List.getElem?_eq_some_iff.1 hs
    have hxi : i < xs.length := by omega
    have hui : i < us.length := by omega
    have hdi : i < d.stage_data.length := lt_of_lt_of_le hi hr.1
    have hsd : d.stage_data[i]? = some d.stage_data[i] := List.getElem?_eq_getElem hdi
    refine ⟨xs[i], us[i], d.stage_data[i], List.getElem?_eq_getElem hxi, List.getElem?_eq_getElem hui,
      hsd, ?_⟩
    have hstage : derivativesStage P second xs us d i =
        P.stages[i].dynamics.dForward.at xs[i] us[i] d.stage_data[i].dynamics_data ++
        constraintLoop Func.computeJacobians xs[i] us[i] P.stages[i].constraints
          d.stage_data[i].constraint_data ++
        Callback.at (fun x u => P.stages[i].cost.computeGradients x u ++
          if second then P.stages[i].cost.computeHessians x u else []) xs[i] us[i]
            d.stage_data[i].cost_data := by
      unfold derivativesStage
      rw [hs, List.getElem?_eq_getElem hxi, List.getElem?_eq_getElem hui, hsd, ← hmerge]
      simp [StageModel.computeFirstOrderDerivatives, StageModel.computeSecondOrderDerivatives]
    obtain ⟨k1, k2, k3⟩ := stageProg_at (stage_addrs_nodup hnd hsd) P.stages[i].dynamics.dForward
      (fun x u => P.stages[i].cost.computeGradients x u ++
          if second then P.stages[i].cost.computeHessians x u else [])
      Func.computeJacobians xs[i] us[i] P.stages[i].constraints m
    refine ⟨?_, ?_, ?_⟩
    · rw [e2 i _ _ hi hsd (by simp [StageData.addrs]), hstage]; exact k1
    · rw [e2 i _ _ hi hsd (by simp [StageData.addrs]), hstage, ← hafter]; exact k2
    · intro j f hf
      have hj := lt_of_lt_of_le (List.getElem?_eq_some_iff.1 hf).1 (hr.2.1 i hi hdi)
      refine ⟨_, List.getElem?_eq_getElem hj, ?_⟩
      rw [e2 i _ _ hi hsd (by simp [StageData.addrs]), hstage]
      exact k3 j f _ hf (List.getElem?_eq_getElem hj)
  · intro x hx
    cases Option.some.inj (h5.symm.trans hx)
    obtain ⟨k1, k2⟩ := termProg_at hnd (fun x u => P.term_cost.computeGradients x u ++
      if second then P.term_cost.computeHessians x u else []) Func.computeJacobians xN P.unone P.term_cstrs m
    rw [← hmerge] at k1 k2
    refine ⟨by rw [e3 _ (.inl rfl), ← hafter]; exact k1, fun k f hf => ?_⟩
    have hk' := lt_of_lt_of_le (List.getElem?_eq_some_iff.1 hf).1 hr.2.2
    refine ⟨_, List.getElem?_eq_getElem hk', ?_⟩
    rw [e3 _ (.inr (List.getElem_mem hk'))]
    exact k2 k f _ hf (List.getElem?_eq_getElem hk')

/-- `f` computes `φ` into the field `read` of its data object, whatever the object contained. -/
def Computes {R : Type*} (f : Callback X U D) (read : D → R) (φ : X → U → R) : Prop :=
  ∀ x u o, read (after (f x u) o) = φ x u

theorem foldl_add_eq_sum {α : Type*} (l : List α) (f : α → ℝ) (s : ℝ) :
    l.foldl (fun s a => s + f a) s = s + (l.map f).sum := by
  induction l generalizing s with
  | nil => simp
  | cons a l ih => rw [List.foldl_cons, ih]; simp [add_assoc]

/-- **C32** The cost returned by `evaluate` is the sum of the stage costs `ℓ i (xs i) (us i)` and of the
terminal cost, when the data belongs to a problem with as many stages and each cost writes its value. -/
theorem C32_cost_is_the_sum (value : D → ℝ) (P : Problem X U D) (d : Data A) (hnd : d.addrs.Nodup)
    (hlen : d.stage_data.length = P.stages.length) (ℓ : Fin P.stages.length → X → U → ℝ) (ℓN : X → U → ℝ)
    (hℓ : ∀ i, Computes (P.stages[i]).cost.evaluate value (ℓ i))
    (hℓN : Computes P.term_cost.evaluate value ℓN)
    (x : ℕ → X) (u : ℕ → U) (m m' : A → D) (c : ℝ)
    (h : Evaluate value P ((List.range (P.stages.length + 1)).map x) ((List.range P.stages.length).map u) d
      m (.ok m' c)) :
    c = ∑ i : Fin P.stages.length, ℓ i (x i) (u i) + ℓN (x P.stages.length) P.unone := by
  obtain ⟨_, hst, htm, _⟩ := C32_each_stage_at_its_own_point value P _ _ d hnd m m' c h
  have hc : c = computeTrajectoryCost value d m' := by cases h; rfl
  rw [hc, computeTrajectoryCost, foldl_add_eq_sum, zero_add]
  congr 1
  · rw [← List.sum_ofFn]
    congr 1
    apply List.ext_getElem (by simp [hlen])
    intro i h1 h2
    have hi : i < P.stages.length := by simpa using h2
    obtain ⟨xi, ui, sd, hx, hu, hsd, _, hcost, _⟩ := hst i _ (List.getElem?_eq_getElem hi)
    obtain ⟨h3, e3⟩ := List.getElem?_eq_some_iff.1 hsd
    simp only [List.getElem_map, List.getElem_ofFn]
    rw [e3, hcost]
    have := hℓ ⟨i, hi⟩ xi ui (m sd.cost_data)
    simp only [Fin.getElem_fin] at this
    rw [this]
    have e1 : x i = xi := by
      rw [List.getElem?_map, List.getElem?_range (by omega)] at hx
      simpa using hx
    have e2 : u i = ui := by
      rw [List.getElem?_map, List.getElem?_range (by omega)] at hu
      simpa using hu
    rw [e1, e2]
  · rw [(htm (x P.stages.length) (by
      rw [List.getElem?_map, List.getElem?_range (by omega)]; rfl)).1]
    exact hℓN _ _ _

/-- Data of a problem with three stages. -/
def longData : Data ℕ :=
  { init_data := 10, stage_data := [⟨[], 0, 1⟩, ⟨[], 2, 3⟩, ⟨[], 4, 5⟩], term_cost_data := 11,
    term_cstr_data := [] }

/-- **C32** The hypothesis on the number of stages of the data is needed: `evaluate` adds the stage costs *of
the data*, so with data of a longer problem it adds stale values. -/
theorem C32_longer_data_adds_stale_costs :
    ∃ m', Evaluate id raceProblem [1, 2, 3] [(), ()] longData (fun _ => (7 : ℝ)) (.ok m' (1 + 2 + 7)) := by
  have hr : InRange raceProblem longData := by
    refine ⟨by simp [raceProblem, longData], ?_, by simp [raceProblem]⟩
    intro i h h'
    have : i = 0 ∨ i = 1 := by simp [raceProblem] at h; omega
    rcases this with rfl | rfl <;> simp [raceProblem, raceStage]
  have h := Evaluate.ok (value := id) (P := raceProblem) (xs := [1, 2, 3]) (us := [(), ()])
    (m := fun _ => 7) 1 3 _ rfl rfl hr rfl rfl (parallelFor_seq _ _ _)
  refine ⟨_, by
    convert h using 2
    simp [computeTrajectoryCost, evaluateTerm, longData,
      raceProblem, raceStage, evaluateStage, run, Callback.at, constraintLoop, StageModel.evaluate, Op.exec,
      seqFor, List.range_succ]⟩

/-- **C32** With data of a shorter problem (a stage was added after the data had been made) the call is
undefined behaviour, not an error: only the lengths of the trajectories are checked. -/
theorem C32_shorter_data_is_undefined (value : D → ℝ) (P : Problem X U D) (s : StageModel X U D) (next : ℕ)
    (xs : List X) (us : List U) (m : ℕ → D) (h1 : xs.length = P.stages.length + 2)
    (h2 : us.length = P.stages.length + 1) :
    Evaluate value { P with stages := P.stages ++ [s] } xs us (P.createData next).1 m .ub := by
  refine .ub (by simpa using h1) (by simpa using h2) fun hr => ?_
  have := hr.1
  have e := (createStageData_spec P.stages (next + 1)).1
  simp [Problem.createData, e] at this

/-- Non-vacuity of `C32_cost_is_the_sum`: the two-stage problem with its own data. -/
example : Computes raceStage.cost.evaluate id (fun x _ => x) ∧
    Computes raceProblem.term_cost.evaluate id (fun _ _ => 0) ∧
    (raceProblem.createData 0).1.stage_data.length = raceProblem.stages.length :=
  ⟨fun _ _ _ => rfl, fun _ _ _ => rfl, rfl⟩

end Aligator.Prob
