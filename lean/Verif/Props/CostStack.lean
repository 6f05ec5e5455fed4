import Verif.Lemmas.CostStack
import Mathlib.Data.Rat.Defs

/-!
# Weighted sums of costs (C41)
-/

namespace Aligator.Costs

open Matrix

variable {K Z D : Type} {n : ℕ}

/-- One call on a component alone. -/
def Cost.call (c : Cost K Z n D) (d : Data K n D) : Call Z → Data K n D
  | .value z => c.evaluate z d
  | .grad z => c.computeGradients z d
  | .hess z => c.computeHessians z d

/-- The data of a component that is used alone, after a sequence of calls. -/
def lone (c : Cost K Z n D) (cs : List (Call Z)) : Data K n D := cs.foldl c.call c.createData

theorem lone_snoc (c : Cost K Z n D) (cs : List (Call Z)) (k : Call Z) : lone c (cs ++ [k]) = c.call (lone c cs) k := by
  simp [lone]

/-- One call on the stack data, when the sub-data are those of the components used alone. -/
theorem callStep_spec [Field K] (comps order : List (Item K Z n D)) (hn : (keys comps).Nodup)
    (hp : order.Perm comps) (d : StackData K n D) (cs : List (Call Z))
    (hd : ∀ i ∈ comps, d.sub i.key = some (lone i.cost cs)) (k : Call Z) :
    ∃ d', callStep order d k = some d' ∧
      (∀ i ∈ comps, d'.sub i.key = some (lone i.cost (cs ++ [k]))) ∧
      match k with
      | .value _ => d'.value = (comps.map fun i => i.weight * (lone i.cost (cs ++ [k])).value).sum ∧
          d'.grad = d.grad ∧ d'.hess = d.hess
      | .grad _ => d'.grad = (comps.map fun i => i.weight • (lone i.cost (cs ++ [k])).grad).sum ∧
          d'.value = d.value ∧ d'.hess = d.hess
      | .hess _ => d'.hess = (comps.map fun i => i.weight • (lone i.cost (cs ++ [k])).hess).sum ∧
          d'.value = d.value ∧ d'.grad = d.grad := by
  have hno : (keys order).Nodup := (hp.map _).nodup_iff.2 hn
  have hdo : ∀ i ∈ order, d.sub i.key = some (lone i.cost cs) := fun i hi => hd i (hp.subset hi)
  cases k with
  | value z =>
    obtain ⟨m', h1, h2, -⟩ := loop_spec (fun c => c.evaluate z) (fun w e => w * e.value) order hno d.sub
      (fun i => lone i.cost cs) hdo 0
    refine ⟨{ d with value := _, sub := m' }, by simp only [callStep, evaluate]; rw [h1]; rfl, ?_, ?_, rfl, rfl⟩
    · intro i hi; rw [lone_snoc]; exact h2 i (hp.symm.subset hi)
    · simp only [lone_snoc, zero_add]; exact (hp.map _).sum_eq
  | grad z =>
    obtain ⟨m', h1, h2, -⟩ := loop_spec (fun c => c.computeGradients z) (fun w e => w • e.grad) order hno d.sub
      (fun i => lone i.cost cs) hdo 0
    refine ⟨{ d with grad := _, sub := m' }, by simp only [callStep, computeGradients]; rw [h1]; rfl, ?_, ?_, rfl, rfl⟩
    · intro i hi; rw [lone_snoc]; exact h2 i (hp.symm.subset hi)
    · simp only [lone_snoc, zero_add]; exact (hp.map _).sum_eq
  | hess z =>
    obtain ⟨m', h1, h2, -⟩ := loop_spec (fun c => c.computeHessians z) (fun w e => w • e.hess) order hno d.sub
      (fun i => lone i.cost cs) hdo 0
    refine ⟨{ d with hess := _, sub := m' }, by simp only [callStep, computeHessians]; rw [h1]; rfl, ?_, ?_, rfl, rfl⟩
    · intro i hi; rw [lone_snoc]; exact h2 i (hp.symm.subset hi)
    · simp only [lone_snoc, zero_add]; exact (hp.map _).sum_eq

theorem calls_append [Field K] (a b : List (List (Item K Z n D) × Call Z)) (d : StackData K n D) :
    calls (a ++ b) d = (calls a d).bind (calls b) := by
  induction a generalizing d with
  | nil => rfl
  | cons x a ih =>
    simp only [List.cons_append, calls]
    cases callStep x.1 d x.2 with
    | none => rfl
    | some d' => simpa using ih d'

theorem calls_sub [Field K] (s : Stack K Z n D) (hn : (keys s.comps).Nodup)
    (cs : List (List (Item K Z n D) × Call Z)) (hp : ∀ c ∈ cs, c.1.Perm s.comps) :
    ∃ d, calls cs s.createData = some d ∧ ∀ i ∈ s.comps, d.sub i.key = some (lone i.cost (cs.map (·.2))) := by
  induction cs using List.reverseRecOn with
  | nil => exact ⟨_, rfl, createData_sub s hn⟩
  | append_singleton cs c ih =>
    obtain ⟨d, h1, h2⟩ := ih fun x hx => hp x (by simp [hx])
    obtain ⟨d', h3, h4, -⟩ := callStep_spec s.comps c.1 hn (hp c (by simp)) d _ h2 c.2
    refine ⟨d', ?_, ?_⟩
    · rw [calls_append, h1]
      simp [calls, h3]
    · simpa using h4

/-- **C41, order independence and no interference.**  For arbitrary components (nothing is assumed about them), after any
operations on the stack and any sequence of calls on data created afterwards, with another iteration order at every
call: no failure; every component's data are what they would be had it been used alone; and the part that the last call
computes is the weighted sum of what the components computed. -/
theorem C41_sum_of_components [Field K] (s₀ : Stack K Z n D) (h₀ : (keys s₀.comps).Nodup) (ops : List (Op K Z n D))
    (cs : List (List (Item K Z n D) × Call Z)) (hp : ∀ c ∈ cs, c.1.Perm (s₀.run ops).comps)
    (order : List (Item K Z n D)) (ho : order.Perm (s₀.run ops).comps) (z : Z) :
    ∃ d, calls cs (s₀.run ops).createData = some d ∧
      (∃ dv, evaluate order z d = some dv ∧ dv.value = ((s₀.run ops).comps.map fun i =>
        i.weight * (lone i.cost (cs.map (·.2) ++ [.value z])).value).sum) ∧
      (∃ dg, computeGradients order z d = some dg ∧ dg.grad = ((s₀.run ops).comps.map fun i =>
        i.weight • (lone i.cost (cs.map (·.2) ++ [.grad z])).grad).sum) ∧
      (∃ dh, computeHessians order z d = some dh ∧ dh.hess = ((s₀.run ops).comps.map fun i =>
        i.weight • (lone i.cost (cs.map (·.2) ++ [.hess z])).hess).sum) := by
  have hn := run_nodup s₀ ops h₀
  obtain ⟨d, h1, h2⟩ := calls_sub _ hn cs hp
  refine ⟨d, h1, ?_, ?_, ?_⟩
  · obtain ⟨d', h3, -, h5, -⟩ := callStep_spec _ order hn ho d _ h2 (.value z)
    exact ⟨d', h3, h5⟩
  · obtain ⟨d', h3, -, h5, -⟩ := callStep_spec _ order hn ho d _ h2 (.grad z)
    exact ⟨d', h3, h5⟩
  · obtain ⟨d', h3, -, h5, -⟩ := callStep_spec _ order hn ho d _ h2 (.hess z)
    exact ⟨d', h3, h5⟩

/-! ### The ledger -/

/-- The mathematical functions of a cost. -/
structure Maths (K Z : Type) (n : ℕ) where
  f : Z → K
  g : Z → Fin n → K
  h : Z → Matrix (Fin n) (Fin n) K

/-- A cost that computes the given functions, whatever its data contain: value by `evaluate`, and gradient and Hessian
after calls at the same point. -/
structure Cost.Is (c : Cost K Z n D) (m : Maths K Z n) : Prop where
  value : ∀ z d, (c.evaluate z d).value = m.f z
  grad : ∀ z d, (c.computeGradients z (c.evaluate z d)).grad = m.g z
  hess : ∀ z d, (c.computeHessians z (c.computeGradients z (c.evaluate z d))).hess = m.h z

/-- The request that an operation expresses; operations that throw for a wrong dimension express nothing. -/
def Op.req (μ : Cost K Z n D → Maths K Z n) (s : Stack K Z n D) : Op K Z n D → Option (Spec.Req K Z n)
  | .add c w => if c.nx = s.nx ∧ c.ndx = s.ndx ∧ c.nu = s.nu then some (.add (μ c).f (μ c).g (μ c).h w) else none
  | .addKey k c w =>
    if c.nx = s.nx ∧ c.ndx = s.ndx ∧ c.nu = s.nu then some (.addKey k (μ c).f (μ c).g (μ c).h w) else none
  | .setWeight k w => some (.setWeight k w)
  | .scale c => some (.scale c)

/-- Every summand is added under a name that no earlier summand has. -/
def Fresh [Mul K] : List (Spec.Entry K Z n) → List (Spec.Req K Z n) → Prop
  | _, [] => True
  | l, r :: rs =>
    (match r with
      | .add .. => Sum.inl l.length ∉ l.map (·.key)
      | .addKey k .. => k ∉ l.map (·.key)
      | _ => True) ∧ Fresh (Spec.step l r) rs

/-- The ledger entry of a component. -/
def Item.entry (μ : Cost K Z n D → Maths K Z n) (i : Item K Z n D) : Spec.Entry K Z n :=
  ⟨i.key, (μ i.cost).f, (μ i.cost).g, (μ i.cost).h, i.weight⟩

theorem keys_entry (μ : Cost K Z n D → Maths K Z n) (l : List (Item K Z n D)) :
    (l.map (Item.entry μ)).map (·.key) = keys l := by
  simp [keys, Item.entry, Function.comp_def]

theorem checkDimension_iff (s : Stack K Z n D) (c : Cost K Z n D) :
    s.checkDimension c = true ↔ c.nx = s.nx ∧ c.ndx = s.ndx ∧ c.nu = s.nu := by
  simp [Stack.checkDimension, and_assoc]

/-- Refinement: the table of the stack is the ledger. -/
theorem run_ledger [Field K] (μ : Cost K Z n D → Maths K Z n) (s s₀ : Stack K Z n D) (os : List (Op K Z n D))
    (hdim : s.nx = s₀.nx ∧ s.ndx = s₀.ndx ∧ s.nu = s₀.nu)
    (hf : Fresh (s.comps.map (Item.entry μ)) (os.filterMap (Op.req μ s₀))) :
    (s.run os).comps.map (Item.entry μ)
      = (os.filterMap (Op.req μ s₀)).foldl Spec.step (s.comps.map (Item.entry μ)) := by
  induction os generalizing s with
  | nil => rfl
  | cons o os ih =>
    rw [Stack.run]
    cases hr : Op.req μ s₀ o with
    | none =>
      have hs : s.step o = none := by
        cases o with
        | add c w =>
          simp only [Op.req, ← hdim.1, ← hdim.2.1, ← hdim.2.2] at hr
          split at hr <;> simp at hr
          rename_i h
          rw [← checkDimension_iff] at h
          simp [Stack.step, Stack.addCost, Stack.addCostKey, h]
        | addKey k c w =>
          simp only [Op.req, ← hdim.1, ← hdim.2.1, ← hdim.2.2] at hr
          split at hr <;> simp at hr
          rename_i h
          rw [← checkDimension_iff] at h
          simp [Stack.step, Stack.addCostKey, h]
        | setWeight k w => simp [Op.req] at hr
        | scale c => simp [Op.req] at hr
      rw [List.filterMap_cons_none hr] at hf ⊢
      rw [hs]
      exact ih s hdim hf
    | some r =>
      rw [List.filterMap_cons_some hr] at hf ⊢
      rw [List.foldl_cons]
      have key : (((s.step o).getD s).comps).map (Item.entry μ) = Spec.step (s.comps.map (Item.entry μ)) r := by
        have hf1 := hf.1
        cases o with
        | add c w =>
          simp only [Op.req, ← hdim.1, ← hdim.2.1, ← hdim.2.2] at hr
          split at hr <;> simp at hr
          rename_i h
          rw [← checkDimension_iff] at h
          subst hr
          simp only [keys_entry, List.length_map] at hf1
          simp only [Stack.step, Stack.addCost, Stack.addCostKey, h, if_true, Option.getD_some]
          rw [emplace_fresh _ _ hf1]
          simp [Spec.step, Item.entry]
        | addKey k c w =>
          simp only [Op.req, ← hdim.1, ← hdim.2.1, ← hdim.2.2] at hr
          split at hr <;> simp at hr
          rename_i h
          rw [← checkDimension_iff] at h
          subst hr
          simp only [keys_entry] at hf1
          simp only [Stack.step, Stack.addCostKey, h, if_true, Option.getD_some]
          rw [emplace_fresh _ _ hf1]
          simp [Spec.step, Item.entry]
        | setWeight k w =>
          simp only [Op.req, Option.some.injEq] at hr
          subst hr
          have hmap : (s.comps.map fun j => if j.key = k then { j with weight := w } else j).map (Item.entry μ)
              = Spec.step (s.comps.map (Item.entry μ)) (.setWeight k w) := by
            simp only [Spec.step, List.map_map]
            refine List.map_congr_left fun j _ => ?_
            have he : (Item.entry μ j).key = j.key := rfl
            simp only [Function.comp]
            by_cases h : j.key = k
            · rw [if_pos h, if_pos (he.trans h)]; rfl
            · rw [if_neg h, if_neg fun h' => h (he.symm.trans h')]
          simp only [Stack.step, Stack.setWeight]
          split
          · exact hmap
          · rename_i hno
            rw [any_key] at hno
            rw [Option.getD_none, ← hmap]
            congr 1
            refine (List.map_id' _).symm.trans (List.map_congr_left fun j hj => ?_)
            rw [if_neg]
            exact fun h => hno (h ▸ List.mem_map_of_mem hj)
        | scale c =>
          simp only [Op.req, Option.some.injEq] at hr
          subst hr
          simp [Stack.step, Stack.scale, Spec.step, Item.entry, Function.comp_def]
      have hdim' : ((s.step o).getD s).nx = s₀.nx ∧ ((s.step o).getD s).ndx = s₀.ndx ∧
          ((s.step o).getD s).nu = s₀.nu := by
        cases hs : s.step o with
        | none => exact hdim
        | some s' =>
          obtain ⟨a, b, c⟩ := step_dims s s' o hs
          exact ⟨a.trans hdim.1, b.trans hdim.2.1, c.trans hdim.2.2⟩
      have hf2 := hf.2
      rw [← key] at hf2 ⊢
      exact ih _ hdim' hf2

/-- The empty stack. -/
def empty (nx ndx nu : ℕ) : Stack K Z n D := ⟨nx, ndx, nu, []⟩

theorem mem_run [Mul K] (P : Cost K Z n D → Prop) (s : Stack K Z n D) (os : List (Op K Z n D))
    (hs : ∀ i ∈ s.comps, P i.cost)
    (ho : ∀ o ∈ os, match o with | .add c _ => P c | .addKey _ c _ => P c | _ => True) :
    ∀ i ∈ (s.run os).comps, P i.cost := by
  induction os generalizing s with
  | nil => exact hs
  | cons o os ih =>
    refine ih _ ?_ fun o' h' => ho o' (by simp [h'])
    have h1 := ho o (by simp)
    have hadd : ∀ (k : Key) (c : Cost K Z n D) (w : K), P c → ∀ i ∈ ((s.addCostKey k c w).getD s).comps, P i.cost := by
      intro k c w hc i hi
      unfold Stack.addCostKey at hi
      split at hi
      · simp only [Option.getD_some, emplace] at hi
        split at hi
        · exact hs i hi
        · rcases List.mem_append.1 hi with h | h
          · exact hs i h
          · simp at h; subst h; exact hc
      · exact hs i hi
    cases o with
    | add c w => exact hadd _ _ _ h1
    | addKey k c w => exact hadd _ _ _ h1
    | setWeight k w =>
      intro i hi
      simp only [Stack.step, Stack.setWeight] at hi
      split at hi
      · simp only [Option.getD_some, List.mem_map] at hi
        obtain ⟨j, hj, rfl⟩ := hi
        split <;> exact hs j hj
      · exact hs i hi
    | scale c =>
      intro i hi
      simp only [Stack.step, Stack.scale, Option.getD_some, List.mem_map] at hi
      obtain ⟨j, hj, rfl⟩ := hi
      exact hs j hj

/-- **C41 for histories without a repeated key.**  Start from the empty stack, perform any operations (failing ones
included) in which no summand is added under a key in use; create the data, call anything in any order, then evaluate
at `z` and compute gradient and Hessian there: the results are those of the ledger, which keeps everything that was
ever added.  Missing: histories with a repeated key, for which the statement is false (`C41_collision_drops`). -/
theorem C41_weighted_sum_partial [Field K] (μ : Cost K Z n D → Maths K Z n) (nx ndx nu : ℕ) (os : List (Op K Z n D))
    (hμ : ∀ o ∈ os, match o with | .add c _ => c.Is (μ c) | .addKey _ c _ => c.Is (μ c) | _ => True)
    (hf : Fresh [] (os.filterMap (Op.req μ (empty nx ndx nu))))
    (s : Stack K Z n D) (hs : s = (empty nx ndx nu).run os)
    (cs : List (List (Item K Z n D) × Call Z)) (hp : ∀ c ∈ cs, c.1.Perm s.comps)
    (o₁ o₂ o₃ : List (Item K Z n D)) (h₁ : o₁.Perm s.comps) (h₂ : o₂.Perm s.comps) (h₃ : o₃.Perm s.comps) (z : Z) :
    ∃ d, calls (cs ++ [(o₁, .value z), (o₂, .grad z), (o₃, .hess z)]) s.createData = some d ∧
      d.value = Spec.value (Spec.ledger (os.filterMap (Op.req μ (empty nx ndx nu)))) z ∧
      d.grad = Spec.grad (Spec.ledger (os.filterMap (Op.req μ (empty nx ndx nu)))) z ∧
      d.hess = Spec.hess (Spec.ledger (os.filterMap (Op.req μ (empty nx ndx nu)))) z := by
  have hn : (keys s.comps).Nodup := hs ▸ run_nodup _ os (by simp [empty, keys])
  have hl : s.comps.map (Item.entry μ) = Spec.ledger (os.filterMap (Op.req μ (empty nx ndx nu))) := by
    rw [hs]
    exact run_ledger μ (empty nx ndx nu) (empty nx ndx nu) os ⟨rfl, rfl, rfl⟩ hf
  have hIs : ∀ i ∈ s.comps, i.cost.Is (μ i.cost) := by
    rw [hs]
    exact mem_run (fun c => c.Is (μ c)) _ os (by simp [empty]) hμ
  obtain ⟨d, e1, e2⟩ := calls_sub s hn cs hp
  obtain ⟨d₁, f1, f2, f3⟩ := callStep_spec _ o₁ hn h₁ d _ e2 (.value z)
  obtain ⟨d₂, g1, g2, g3⟩ := callStep_spec _ o₂ hn h₂ d₁ _ f2 (.grad z)
  obtain ⟨d₃, k1, -, k3⟩ := callStep_spec _ o₃ hn h₃ d₂ _ g2 (.hess z)
  refine ⟨d₃, by rw [calls_append, e1]; simp [calls, f1, g1, k1], ?_, ?_, ?_⟩
  · rw [k3.2.1, g3.2.1, f3.1, ← hl, Spec.value, List.map_map]
    refine congrArg _ (List.map_congr_left fun i hi => ?_)
    rw [lone_snoc]
    simp [Cost.call, Item.entry, (hIs i hi).value]
  · rw [k3.2.2, g3.1, ← hl, Spec.grad, List.map_map]
    refine congrArg _ (List.map_congr_left fun i hi => ?_)
    rw [lone_snoc, lone_snoc]
    simp [Cost.call, Item.entry, (hIs i hi).grad]
  · rw [k3.1, ← hl, Spec.hess, List.map_map]
    refine congrArg _ (List.map_congr_left fun i hi => ?_)
    rw [lone_snoc, lone_snoc, lone_snoc]
    simp [Cost.call, Item.entry, (hIs i hi).hess]

/-- The explicit names of a history. -/
def names : List (Spec.Req K Z n) → List Key
  | [] => []
  | .addKey k .. :: rs => k :: names rs
  | _ :: rs => names rs

theorem fresh_of_strings [Mul K] (l : List (Spec.Entry K Z n)) (rs : List (Spec.Req K Z n))
    (hl : ∀ m, Sum.inl m ∈ l.map (·.key) → m < l.length) (hd : (names rs).Nodup)
    (hs : ∀ k ∈ names rs, ∃ s, k = .inr s) (hx : ∀ k ∈ names rs, k ∉ l.map (·.key)) : Fresh l rs := by
  induction rs generalizing l with
  | nil => trivial
  | cons r rs ih =>
    cases r with
    | add f g h w =>
      refine ⟨fun hm => absurd (hl _ hm) (lt_irrefl _), ih _ ?_ hd hs ?_⟩
      · intro m hm
        simp only [Spec.step, List.map_append, List.map_cons, List.map_nil, List.mem_append, List.mem_singleton,
          List.length_append, List.length_singleton] at hm ⊢
        rcases hm with hm | hm
        · have := hl m hm; omega
        · simp at hm; omega
      · intro k hk hm
        simp only [Spec.step, List.map_append, List.map_cons, List.map_nil, List.mem_append, List.mem_singleton] at hm
        rcases hm with hm | hm
        · exact hx k hk hm
        · obtain ⟨s, rfl⟩ := hs k hk; simp at hm
    | addKey k f g h w =>
      rw [names, List.nodup_cons] at hd
      refine ⟨hx k (by simp [names]), ih _ ?_ hd.2 (fun k' h' => hs k' (by simp [names, h'])) ?_⟩
      · intro m hm
        simp only [Spec.step, List.map_append, List.map_cons, List.map_nil, List.mem_append, List.mem_singleton,
          List.length_append, List.length_singleton] at hm ⊢
        rcases hm with hm | hm
        · have := hl m hm; omega
        · obtain ⟨s, h'⟩ := hs k (by simp [names]); simp [h'] at hm
      · intro k' hk hm
        simp only [Spec.step, List.map_append, List.map_cons, List.map_nil, List.mem_append, List.mem_singleton] at hm
        rcases hm with hm | hm
        · exact hx k' (by simp [names, hk]) hm
        · exact hd.1 (hm ▸ hk)
    | setWeight k w =>
      have hk : (Spec.step l (.setWeight k w)).map (·.key) = l.map (·.key) := by
        simp only [Spec.step, List.map_map]
        exact List.map_congr_left fun e _ => by simp only [Function.comp]; split <;> rfl
      refine ⟨trivial, ih _ ?_ hd hs ?_⟩
      · rw [hk]; simpa [Spec.step] using hl
      · rw [hk]; exact hx
    | scale c =>
      have hk : (Spec.step l (.scale c)).map (·.key) = l.map (·.key) := by
        simp [Spec.step, Function.comp_def]
      refine ⟨trivial, ih _ ?_ hd hs ?_⟩
      · rw [hk]; simpa [Spec.step] using hl
      · rw [hk]; exact hx

/-- **C41, distinct strings are safe.**  Histories whose explicit keys are distinct strings, mixed in any way with
additions without key, never repeat a key: the weighted-sum theorem applies. -/
theorem C41_string_keys_are_fresh [Mul K] (rs : List (Spec.Req K Z n)) (hd : (names rs).Nodup)
    (hs : ∀ k ∈ names rs, ∃ s, k = .inr s) : Fresh [] rs :=
  fresh_of_strings [] rs (by simp) hd hs (by simp)

/-- **C41, a repeated key.**  Adding under a key in use throws nothing and changes nothing: the new component is lost. -/
theorem C41_collision_drops_all (s : Stack K Z n D) (k : Key) (c : Cost K Z n D) (w : K) (hc : s.checkDimension c)
    (hk : k ∈ keys s.comps) : s.addCostKey k c w = some s := by
  unfold Stack.addCostKey emplace
  rw [if_pos hc, if_pos ((any_key _ _).2 hk)]

/-- A cost with the constant value `v` on a one-dimensional space. -/
def const (v : ℚ) : Cost ℚ Unit 1 Unit where
  nx := 1
  ndx := 1
  nu := 0
  evaluate _ d := { d with value := v }
  computeGradients _ d := { d with grad := 0 }
  computeHessians _ d := { d with hess := 0 }
  createData := ⟨0, 0, 0, ()⟩

/-- The functions of a cost: what its methods return on new data. -/
def meaning (c : Cost ℚ Unit 1 Unit) : Maths ℚ Unit 1 :=
  ⟨fun z => (c.evaluate z c.createData).value, fun z => (c.computeGradients z c.createData).grad,
    fun z => (c.computeHessians z c.createData).hess⟩

theorem const_is (v : ℚ) : (const v).Is (meaning (const v)) := ⟨fun _ _ => rfl, fun _ _ => rfl, fun _ _ => rfl⟩

/-- **C41 is violated.**  `addCost(1, c)` followed by `addCost(c')`: the second call picks the key 1, no error is
reported, and the value of the stack is that of `c` alone (3 instead of 3 + 5). -/
theorem C41_collision_drops :
    ∃ s d, (empty 1 1 0).addCostKey (.inl 1) (const 3) 1 = some s ∧ s.addCost (const 5) 1 = some s ∧
      evaluate s.comps () s.createData = some d ∧ d.value = 3 ∧
      Spec.value (Spec.ledger ([Op.addKey (.inl 1) (const 3) 1, .add (const 5) 1].filterMap
        (Op.req meaning (empty 1 1 0)))) () = 8 := by
  refine ⟨⟨1, 1, 0, [⟨.inl 1, const 3, 1⟩]⟩, _, rfl, ?_, rfl, ?_, ?_⟩
  · exact C41_collision_drops_all _ _ _ _ rfl (by simp [keys])
  · simp [const]
  · norm_num [Spec.value, Spec.ledger, List.filterMap, Op.req, meaning, empty, Spec.step, const]

/-- **C41, data must be created after the last addition.**  If a component has no entry in the data (it was added after
the data were created), the call dereferences a null pointer. -/
theorem C41_old_data_is_undefined [Field K] (s : Stack K Z n D) (hn : (keys s.comps).Nodup)
    (c : Cost K Z n D) (hk : s.checkDimension c = true) (k : Key) (hf : k ∉ keys s.comps) (w : K) (z : Z) :
    ∃ s', s.addCostKey k c w = some s' ∧
      ∀ order : List (Item K Z n D), order.Perm s'.comps → evaluate order z s.createData = none := by
  refine ⟨_, by unfold Stack.addCostKey; rw [if_pos hk], fun order ho => ?_⟩
  simp only at ho
  rw [emplace_fresh _ _ hf] at ho
  unfold evaluate
  rw [loop_none _ _ order ?_ _ _ ?_]
  · rfl
  · refine (ho.map (·.key)).nodup_iff.2 ?_
    rw [List.map_append]
    refine List.Nodup.append hn (by simp) ?_
    rw [List.map_singleton, List.disjoint_singleton]
    exact hf
  · exact ⟨⟨k, c, w⟩, ho.symm.subset (by simp), (foldl_update s.comps hn _).2 k hf⟩

/-- **C41, scaling.**  The weights, hence every weighted sum, are multiplied. -/
theorem C41_scale [Field K] {V : Type} [AddCommGroup V] [Module K V] (s : Stack K Z n D) (c : K)
    (φ : Cost K Z n D → V) :
    ((s.scale c).comps.map fun i => i.weight • φ i.cost).sum = c • (s.comps.map fun i => i.weight • φ i.cost).sum := by
  rw [Stack.scale]
  simp only
  induction s.comps with
  | nil => simp
  | cons i l ih =>
    rw [List.map_cons, List.map_cons, List.map_cons, List.sum_cons, List.sum_cons, smul_add, ih, mul_comm, mul_smul]

theorem ctorLoop_eq (l : List (Cost K Z n D × K)) (i : ℕ) (m : List (Item K Z n D)) (hi : i = m.length)
    (hm : ∀ k, Sum.inl k ∈ keys m → k < i) :
    ctorLoop i m l = m ++ l.zipIdx.map fun p => ⟨.inl (i + p.2), p.1.1, p.1.2⟩ := by
  induction l generalizing i m with
  | nil => simp [ctorLoop]
  | cons c l ih =>
    rw [ctorLoop, emplace_fresh _ _ (fun h => absurd (hm _ h) (lt_irrefl _)), ih]
    · rw [List.zipIdx_cons, List.map_cons, List.zipIdx_succ]
      simp [Function.comp_def, Nat.add_assoc, Nat.add_comm 1]
    · simp [hi]
    · intro k hk
      simp only [keys, List.map_append, List.map_cons, List.map_nil, List.mem_append, List.mem_singleton] at hk
      rcases hk with hk | hk
      · have := hm k hk; omega
      · simp at hk; omega

/-- **C41, the constructor from vectors** keeps every component, in order, with its weight, under the keys 0, 1, ...; it
throws exactly when the numbers differ or a dimension is wrong. -/
theorem C41_constructor (nx ndx nu : ℕ) (cs : List (Cost K Z n D)) (ws : List K) :
    (Stack.ofVectors nx ndx nu cs ws = some ⟨nx, ndx, nu, (cs.zip ws).zipIdx.map fun p => ⟨.inl p.2, p.1.1, p.1.2⟩⟩ ∧
      cs.length = ws.length ∧ ∀ c ∈ cs, c.nx = nx ∧ c.ndx = ndx ∧ c.nu = nu) ∨
    (Stack.ofVectors nx ndx nu cs ws = none ∧
      (cs.length ≠ ws.length ∨ ∃ c ∈ cs, ¬(c.nx = nx ∧ c.ndx = ndx ∧ c.nu = nu))) := by
  unfold Stack.ofVectors
  by_cases h1 : cs.length = ws.length
  · rw [if_neg (not_not.2 h1)]
    by_cases h2 : cs.all (fun c => Stack.checkDimension ⟨nx, ndx, nu, ([] : List (Item K Z n D))⟩ c) = true
    · left
      rw [if_pos h2, ctorLoop_eq _ 0 [] rfl (by simp [keys])]
      refine ⟨by simp, h1, fun c hc => ?_⟩
      exact (checkDimension_iff _ c).1 (List.all_eq_true.1 h2 c hc)
    · right
      rw [if_neg h2]
      refine ⟨rfl, .inr ?_⟩
      rw [List.all_eq_true] at h2
      push Not at h2
      obtain ⟨c, hc, h⟩ := h2
      exact ⟨c, hc, fun h' => h ((checkDimension_iff _ c).2 h')⟩
  · rw [if_pos h1]
    exact .inr ⟨rfl, .inl h1⟩

/-- **C41, the constructor from one cost** behaves as the cost itself, with the dimensions of the cost. -/
theorem C41_single_cost [Field K] (c : Cost K Z n D) (z : Z) :
    let s := Stack.ofCost c
    (s.nx = c.nx ∧ s.ndx = c.ndx ∧ s.nu = c.nu) ∧
    (∃ d, evaluate s.comps z s.createData = some d ∧ d.value = (c.evaluate z c.createData).value) ∧
    (∃ d, computeGradients s.comps z s.createData = some d ∧ d.grad = (c.computeGradients z c.createData).grad) ∧
    (∃ d, computeHessians s.comps z s.createData = some d ∧ d.hess = (c.computeHessians z c.createData).hess) := by
  refine ⟨⟨rfl, rfl, rfl⟩, ?_, ?_, ?_⟩
  · simp [evaluate, Stack.ofCost, Stack.createData, loop]
  · simp [computeGradients, Stack.ofCost, Stack.createData, loop]
  · simp [computeHessians, Stack.ofCost, Stack.createData, loop]

/-- **C41, weights.**  `getWeight` reads a dictionary: the weight of the component under the key, an exception exactly when
there is none; `setWeight` changes the entry of its key and no other and throws exactly when there is none; `addCost` adds an
entry and changes none; scaling multiplies all. -/
theorem C41_weights [Mul K] (s : Stack K Z n D) (hn : (keys s.comps).Nodup) (key : Key) :
    (∀ w, s.getWeight key = some w ↔ ∃ i ∈ s.comps, i.key = key ∧ i.weight = w) ∧
    (∀ w, s.setWeight key w = none ↔ s.getWeight key = none) ∧
    (∀ w s', s.setWeight key w = some s' → ∀ k, s'.getWeight k = if k = key then some w else s.getWeight k) ∧
    (∀ c w s', s.addCostKey key c w = some s' → ∀ k, s'.getWeight k = (s.getWeight k).or (if k = key then some w else none)) ∧
    ∀ c, (s.scale c).getWeight key = (s.getWeight key).map (· * c) := by
  have hfind : ∀ (l : List (Item K Z n D)), (l.any (fun j => decide (j.key = key)) = true) ↔
      (l.find? fun j => decide (j.key = key)) ≠ none := by
    intro l
    rw [List.any_eq_true, Ne, List.find?_eq_none]
    push Not
    rfl
  refine ⟨fun w => ?_, fun w => ?_, fun w s' h k => ?_, fun c w s' h k => ?_, fun c => ?_⟩
  · unfold Stack.getWeight
    constructor
    · intro h
      obtain ⟨i, hi, rfl⟩ := Option.map_eq_some_iff.1 h
      exact ⟨i, List.mem_of_find?_eq_some hi, by simpa using List.find?_some hi, rfl⟩
    · rintro ⟨i, hi, rfl, rfl⟩
      have hh : (s.comps.find? fun j => decide (j.key = i.key)) = some i := by
        revert hn hi
        induction s.comps with
        | nil => intro _ h; cases h
        | cons j l ih =>
          intro hn hi
          rw [keys, List.map_cons, List.nodup_cons] at hn
          rw [List.find?_cons]
          rcases List.mem_cons.1 hi with rfl | hi
          · simp
          · have : j.key ≠ i.key := fun h => hn.1 (h ▸ List.mem_map.2 ⟨i, hi, rfl⟩)
            simp only [this, decide_false]
            exact ih hn.2 hi
      rw [hh]
      rfl
  · unfold Stack.setWeight Stack.getWeight
    rw [Option.map_eq_none_iff]
    by_cases h : (s.comps.any fun j => decide (j.key = key)) = true
    · rw [if_pos h]
      exact iff_of_false (by simp) ((hfind _).1 h)
    · rw [if_neg h]
      exact iff_of_true rfl (not_not.1 fun h' => h ((hfind _).2 h'))
  · unfold Stack.setWeight at h
    split at h
    · rename_i hany
      injection h with h
      subst h
      unfold Stack.getWeight
      dsimp only
      rw [hfind] at hany
      have hcomm : ∀ l : List (Item K Z n D), ((l.map fun j => if j.key = key then { j with weight := w } else j).find?
          fun j => decide (j.key = k)) = (l.find? fun j => decide (j.key = k)).map fun j =>
            if j.key = key then { j with weight := w } else j := by
        intro l
        rw [List.find?_map]
        congr 2
        funext j
        show decide ((if j.key = key then { j with weight := w } else j).key = k) = _
        by_cases hj : j.key = key <;> simp [hj]
      rw [hcomm]
      by_cases hk : k = key
      · subst hk
        rw [if_pos rfl]
        obtain ⟨j, hj⟩ := Option.ne_none_iff_exists'.1 hany
        rw [hj]
        have : j.key = k := by simpa using List.find?_some hj
        simp [this]
      · rw [if_neg hk]
        cases hj : s.comps.find? fun j => decide (j.key = k) with
        | none => rfl
        | some j =>
          have : j.key = k := by simpa using List.find?_some hj
          simp [this, hk]
    · cases h
  · unfold Stack.addCostKey at h
    split at h
    · injection h with h
      subst h
      unfold Stack.getWeight emplace
      dsimp only
      split
      · rename_i hany
        rw [hfind] at hany
        by_cases hk : k = key
        · subst hk
          obtain ⟨j, hj⟩ := Option.ne_none_iff_exists'.1 hany
          simp [hj]
        · simp [hk]
      · rw [List.find?_append]
        cases s.comps.find? fun j => decide (j.key = k) with
        | some j => simp
        | none =>
          by_cases hk : k = key
          · simp [hk]
          · simp [hk, Ne.symm hk]
    · cases h
  · unfold Stack.getWeight Stack.scale
    dsimp only
    rw [List.find?_map, Option.map_map, Option.map_map]
    rfl

/-- Hypotheses of `C41_weighted_sum_partial` on a history with names, without names, a failing `setWeight`, a changed
weight and a scaling: the value is 7 * (2 * 3 + 4 * 5). -/
example : ∃ d, calls [(((empty 1 1 0).run [Op.addKey (.inr "a") (const 3) 1, .add (const 5) 4, .setWeight (.inr "b") 9,
      .setWeight (.inr "a") 2, .scale 7]).comps.reverse, Call.value ()),
      (((empty 1 1 0).run [Op.addKey (.inr "a") (const 3) 1, .add (const 5) 4, .setWeight (.inr "b") 9,
      .setWeight (.inr "a") 2, .scale 7]).comps, .grad ()),
      (((empty 1 1 0).run [Op.addKey (.inr "a") (const 3) 1, .add (const 5) 4, .setWeight (.inr "b") 9,
      .setWeight (.inr "a") 2, .scale 7]).comps, .hess ())]
      ((empty 1 1 0).run [Op.addKey (.inr "a") (const 3) 1, .add (const 5) 4, .setWeight (.inr "b") 9,
      .setWeight (.inr "a") 2, .scale 7]).createData = some d ∧ d.value = 182 := by
  obtain ⟨d, h1, h2, -⟩ := C41_weighted_sum_partial meaning 1 1 0
    [Op.addKey (.inr "a") (const 3) 1, .add (const 5) 4, .setWeight (.inr "b") 9, .setWeight (.inr "a") 2, .scale 7]
    (by
      intro o ho
      simp only [List.mem_cons, List.not_mem_nil, or_false] at ho
      rcases ho with rfl | rfl | rfl | rfl | rfl
      · exact const_is 3
      · exact const_is 5
      all_goals trivial)
    (C41_string_keys_are_fresh _ (by simp [Op.req, empty, const, names]) (by simp [Op.req, empty, const, names]))
    _ rfl [] (by simp) _ _ _ (List.reverse_perm _) (List.Perm.refl _) (List.Perm.refl _) ()
  refine ⟨d, h1, h2.trans ?_⟩
  have hab : ¬"a" = "b" := by decide
  have h1a : ¬((Sum.inl 1 : Key) = Sum.inr "a") := by simp
  have h1b : ¬((Sum.inl 1 : Key) = Sum.inr "b") := by simp
  norm_num [Spec.value, Spec.ledger, List.filterMap, Op.req, meaning, empty, Spec.step, const, hab, h1a, h1b]

end Aligator.Costs
