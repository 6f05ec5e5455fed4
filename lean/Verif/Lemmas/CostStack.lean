import Verif.Spec.CostStack
import Mathlib.Algebra.BigOperators.Group.List.Basic
import Mathlib.Data.List.Nodup
import Mathlib.Data.Matrix.Basic
import Mathlib.LinearAlgebra.Matrix.Notation
import Mathlib.Algebra.Module.Defs
import Mathlib.Tactic.Ring

/-!
# Lemmas: weighted sums of costs
-/

namespace Aligator.Costs

open Matrix

variable {K Z D : Type} {n : ℕ}

/-- The keys of a list of components. -/
def keys (l : List (Item K Z n D)) : List Key := l.map (·.key)

/-- The loop when every key is present: a sum over the components, each on its own data. -/
theorem loop_spec {A : Type} [AddCommMonoid A] (call : Cost K Z n D → Data K n D → Data K n D)
    (part : K → Data K n D → A) (order : List (Item K Z n D)) (hn : (keys order).Nodup) (m : Sub K n D)
    (own : Item K Z n D → Data K n D) (hm : ∀ i ∈ order, m i.key = some (own i)) (a : A) :
    ∃ m', loop call (fun a w e => a + part w e) order (a, m)
        = some (a + (order.map fun i => part i.weight (call i.cost (own i))).sum, m') ∧
      (∀ i ∈ order, m' i.key = some (call i.cost (own i))) ∧ ∀ k, k ∉ keys order → m' k = m k := by
  induction order generalizing m a with
  | nil => exact ⟨m, by simp [loop], by simp, fun _ _ => rfl⟩
  | cons i is ih =>
    have hi := hm i (by simp)
    have hni : i.key ∉ keys is := by
      have := hn; rw [keys, List.map_cons, List.nodup_cons] at this; exact this.1
    have hn' : (keys is).Nodup := by
      have := hn; rw [keys, List.map_cons, List.nodup_cons] at this; exact this.2
    have hne : ∀ j ∈ is, j.key ≠ i.key := fun j hj h => hni (h ▸ List.mem_map_of_mem hj)
    obtain ⟨m', h1, h2, h3⟩ := ih hn' (Function.update m i.key (some (call i.cost (own i))))
      (fun j hj => by rw [Function.update_of_ne (hne j hj)]; exact hm j (by simp [hj]))
      (a + part i.weight (call i.cost (own i)))
    refine ⟨m', ?_, ?_, ?_⟩
    · simp only [loop, hi]
      rw [h1, List.map_cons, List.sum_cons, add_assoc]
    · intro j hj
      rcases List.mem_cons.1 hj with rfl | hj
      · rw [h3 _ hni, Function.update_self]
      · exact h2 j hj
    · intro k hk
      have hk' : k ≠ i.key ∧ k ∉ keys is := by simpa [keys, not_or] using hk
      rw [h3 k hk'.2, Function.update_of_ne hk'.1]

/-- A key without data makes the loop dereference a null pointer. -/
theorem loop_none {A : Type} (call : Cost K Z n D → Data K n D → Data K n D) (acc : A → K → Data K n D → A)
    (order : List (Item K Z n D)) (hn : (keys order).Nodup) (m : Sub K n D) (a : A)
    (h : ∃ i ∈ order, m i.key = none) : loop call acc order (a, m) = none := by
  induction order generalizing m a with
  | nil => obtain ⟨i, hi, -⟩ := h; simp at hi
  | cons i is ih =>
    rw [keys, List.map_cons, List.nodup_cons] at hn
    simp only [loop]
    split
    · rfl
    · rename_i d hd
      obtain ⟨j, hj, hjn⟩ := h
      rcases List.mem_cons.1 hj with rfl | hj
      · rw [hd] at hjn; simp at hjn
      · refine ih hn.2 _ _ ⟨j, hj, ?_⟩
        rw [Function.update_of_ne, hjn]
        exact fun h => hn.1 (h ▸ List.mem_map_of_mem hj)

theorem foldl_update (l : List (Item K Z n D)) (hn : (keys l).Nodup) (m : Sub K n D) :
    (∀ i ∈ l, (l.foldl (fun (m : Sub K n D) i => Function.update m i.key (some i.cost.createData)) m) i.key
        = some i.cost.createData) ∧
      ∀ k, k ∉ keys l → (l.foldl (fun (m : Sub K n D) i => Function.update m i.key (some i.cost.createData)) m) k = m k := by
  induction l generalizing m with
  | nil => exact ⟨by simp, fun _ _ => rfl⟩
  | cons i is ih =>
    rw [keys, List.map_cons, List.nodup_cons] at hn
    obtain ⟨h1, h2⟩ := ih hn.2 (Function.update m i.key (some i.cost.createData))
    constructor
    · intro j hj
      rcases List.mem_cons.1 hj with rfl | hj
      · rw [List.foldl_cons, h2 _ hn.1, Function.update_self]
      · exact h1 j hj
    · intro k hk
      have hk' : k ≠ i.key ∧ k ∉ keys is := by simpa [keys, not_or] using hk
      rw [List.foldl_cons, h2 k hk'.2, Function.update_of_ne hk'.1]

theorem createData_sub [Zero K] (s : Stack K Z n D) (hn : (keys s.comps).Nodup) :
    ∀ i ∈ s.comps, s.createData.sub i.key = some i.cost.createData :=
  (foldl_update s.comps hn _).1

theorem any_key (l : List (Item K Z n D)) (k : Key) : l.any (fun j => decide (j.key = k)) = true ↔ k ∈ keys l := by
  simp [keys]

theorem emplace_nodup (l : List (Item K Z n D)) (i : Item K Z n D) (h : (keys l).Nodup) :
    (keys (emplace l i)).Nodup := by
  unfold emplace
  split
  · exact h
  · rename_i hk
    rw [any_key] at hk
    rw [keys, List.map_append]
    refine List.Nodup.append h (by simp) ?_
    rw [List.map_singleton, List.disjoint_singleton]
    exact hk

theorem emplace_fresh (l : List (Item K Z n D)) (i : Item K Z n D) (h : i.key ∉ keys l) : emplace l i = l ++ [i] := by
  unfold emplace
  rw [if_neg]
  rw [any_key]
  exact h

theorem step_nodup [Mul K] (s s' : Stack K Z n D) (o : Op K Z n D) (h : (keys s.comps).Nodup) (hs : s.step o = some s') :
    (keys s'.comps).Nodup := by
  cases o with
  | add c w =>
    simp only [Stack.step, Stack.addCost, Stack.addCostKey] at hs
    split at hs <;> simp at hs
    subst hs; exact emplace_nodup _ _ h
  | addKey k c w =>
    simp only [Stack.step, Stack.addCostKey] at hs
    split at hs <;> simp at hs
    subst hs; exact emplace_nodup _ _ h
  | setWeight k w =>
    simp only [Stack.step, Stack.setWeight] at hs
    split at hs <;> simp at hs
    subst hs
    have : keys (s.comps.map fun j => if j.key = k then { j with weight := w } else j) = keys s.comps := by
      unfold keys
      rw [List.map_map]
      refine List.map_congr_left fun j _ => ?_
      simp only [Function.comp]
      split <;> rfl
    simpa [this] using h
  | scale c =>
    simp only [Stack.step, Stack.scale, Option.some.injEq] at hs
    subst hs
    simpa [keys, Function.comp_def] using h

theorem run_nodup [Mul K] (s : Stack K Z n D) (os : List (Op K Z n D)) (h : (keys s.comps).Nodup) :
    (keys (s.run os).comps).Nodup := by
  induction os generalizing s with
  | nil => exact h
  | cons o os ih =>
    refine ih _ ?_
    cases hs : s.step o with
    | none => exact h
    | some s' => exact step_nodup s s' o h hs

theorem step_dims [Mul K] (s s' : Stack K Z n D) (o : Op K Z n D) (hs : s.step o = some s') :
    s'.nx = s.nx ∧ s'.ndx = s.ndx ∧ s'.nu = s.nu := by
  cases o <;> simp only [Stack.step, Stack.addCost, Stack.addCostKey, Stack.setWeight, Stack.scale] at hs
  all_goals first
    | (split at hs <;> simp at hs; subst hs; exact ⟨rfl, rfl, rfl⟩)
    | (simp at hs; subst hs; exact ⟨rfl, rfl, rfl⟩)

end Aligator.Costs
