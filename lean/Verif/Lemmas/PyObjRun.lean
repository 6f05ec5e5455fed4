import Verif.Lemmas.PyObjStep

/-! Lemmas: whole programs. -/

namespace Aligator.PyObj

open Spec

variable {V B G : Type}

/-! ### Runs of the model are runs of the specification -/

theorem run_rel (K : Class V B G) : ∀ (ops : List (Op V B G)) (σ : Store V B) (s s' : State V B) (obs : List (Seen V B)),
    Rel σ s → run K s ops = some (s', obs) → ∃ σ', Runs (.ofClass K) K.init σ ops σ' obs ∧ Rel σ' s'
  | [], σ, s, s', obs, h, e => by
    cases e
    exact ⟨σ, .nil σ, h⟩
  | op :: ops, σ, s, s', obs, h, e => by
    have hs := step_rel K h op
    unfold run at e
    cases he : step K s op with
    | ok o s₁ =>
      rw [he] at hs e
      obtain ⟨k, c, σ₁, hk, hc, h1, h2⟩ := hs
      obtain ⟨⟨t, obs'⟩, e₁, e₂⟩ := Option.map_eq_some_iff.1 e
      cases e₂
      obtain ⟨σ', r, h3⟩ := run_rel K ops σ₁ s₁ t obs' h2 e₁
      exact ⟨σ', .ok k c hk hc h1 r, h3⟩
    | raise s₁ =>
      rw [he] at hs e
      obtain ⟨⟨t, obs'⟩, e₁, e₂⟩ := Option.map_eq_some_iff.1 e
      cases e₂
      obtain ⟨σ', r, h3⟩ := run_rel K ops σ s₁ t obs' hs.2 e₁
      exact ⟨σ', .raised hs.1 r, h3⟩
    | ub => rw [he] at e; cases e
    | fuel => rw [he] at e; cases e

theorem run_append (K : Class V B G) : ∀ (ops ops' : List (Op V B G)) (s : State V B),
    run K s (ops ++ ops') = (run K s ops).bind fun r => (run K r.1 ops').map fun q => (q.1, r.2 ++ q.2)
  | [], ops', s => by simp [run]
  | op :: ops, ops', s => by
    simp only [List.cons_append, run]
    cases step K s op with
    | ok o s₁ =>
      dsimp only
      rw [run_append K ops ops' s₁]
      cases run K s₁ ops with
      | none => rfl
      | some r => simp [Option.map_map, Function.comp_def]
    | raise s₁ =>
      dsimp only
      rw [run_append K ops ops' s₁]
      cases run K s₁ ops with
      | none => rfl
      | some r => simp [Option.map_map, Function.comp_def]
    | ub => rfl
    | fuel => rfl

theorem run_one (K : Class V B G) {σ : Store V B} {s : State V B} (h : Rel σ s) (op : Op V B G) :
    run K s [op] = none ↔ UsesStale (.ofClass K) K.init σ op := by
  have hs := step_rel K h op
  unfold run UsesStale
  cases he : step K s op with
  | ok o s₁ =>
    rw [he] at hs
    obtain ⟨k, c, σ₁, hk, hc, h1, h2⟩ := hs
    simp only [run, Option.map_some, reduceCtorEq, false_iff]
    intro hx
    rw [hx k c] at h1
    cases h1
  | raise s₁ =>
    rw [he] at hs
    simp only [run, Option.map_some, reduceCtorEq, false_iff]
    intro hx
    have := hs.1 0 0
    rw [hx 0 0] at this
    cases this
  | ub => rw [he] at hs; simpa using hs
  | fuel => rw [he] at hs; exact hs.elim

/-! ### Objects stay usable unless their problem gets another one -/

/-- Objects go stale only through `assign`. -/
theorem apply_fresh {C : Copying V B} {init : G → Option (Attrs V × B)} {σ σ' : Store V B} {k c : ℕ} {op : Op V B G}
    {o : Option (Attrs V × B)} (h : apply C init σ k c op = .ok o σ') (ha : ∀ x y m, op ≠ .assign x y m)
    (hσ : ∀ p u, σ.obj p = some u → u.stale = false) : ∀ p u, σ'.obj p = some u → u.stale = false := by
  have key : ∀ (k : ℕ) (v : SObj V B), v.stale = false → ∀ p u, Function.update σ.obj k (some v) p = some u → u.stale = false := by
    intro k v hv p u hu
    rw [Function.update_apply] at hu
    split at hu
    · cases hu; exact hv
    · exact hσ p u hu
  have hT : ∀ x p u, σ.theObj x = some (p, u) → u.stale = false := by
    intro x p u hu
    unfold Store.theObj at hu
    split at hu
    · obtain ⟨o', e₁, e₂⟩ := Option.map_eq_some_iff.1 hu
      cases e₂
      exact hσ _ _ e₁
    · cases hu
  cases op with
  | assign x y m => exact absurd rfl (ha x y m)
  | new x g =>
    simp only [apply] at h
    split at h
    · split at h
      · cases h
      · cases h; exact key _ _ rfl
    · cases h
  | bind x y =>
    simp only [apply] at h
    split at h
    · split at h
      · cases h
      · cases h; exact hσ
    · cases h
  | del x =>
    simp only [apply] at h
    split at h
    · cases h
    · cases h; exact hσ
  | setAttr x i v =>
    simp only [apply] at h
    split at h
    · cases h
    · rename_i p u hu
      have hf := hT x _ _ hu
      cases h; exact key _ _ hf
  | delAttr x i =>
    simp only [apply] at h
    split at h
    · cases h
    · rename_i p u hu
      split at h
      · cases h
      · have hf := hT x _ _ hu
        cases h; exact key _ _ hf
  | setBase x b =>
    simp only [apply] at h
    split at h
    · cases h
    · rename_i p u hu
      split at h
      · cases h
      · have hf := hT x _ _ hu
        cases h; exact key _ _ hf
  | deepcopy x y =>
    simp only [apply] at h
    split at h
    · split at h
      · cases h
      · split at h
        · cases h
        · split at h
          · cases h
          · cases h; exact key _ _ rfl
    · cases h
  | make x y m =>
    simp only [apply] at h
    split at h
    · split at h
      · cases h
      · split at h
        · cases h
        · split at h
          · cases h
          · cases h; exact key _ _ rfl
    · cases h
  | copy x y m =>
    simp only [apply] at h
    split at h
    · split at h
      · cases h
      · split at h
        · cases h
        · cases h; exact key _ _ rfl
    · cases h
  | read x y =>
    simp only [apply] at h
    split at h
    · split at h
      · cases h
      · cases h; exact hσ
    · cases h
  | look x =>
    simp only [apply] at h
    split at h
    · cases h
    · split at h
      · cases h
      · cases h; exact hσ
  | solve x =>
    simp only [apply] at h
    split at h
    · cases h
    · cases h; exact hσ

theorem uses_fresh {C : Copying V B} {init : G → Option (Attrs V × B)} {σ : Store V B} {op : Op V B G}
    (hσ : ∀ p u, σ.obj p = some u → u.stale = false) : ¬ UsesStale C init σ op := by
  have hT : ∀ x p u, σ.theObj x = some (p, u) → u.stale = false := by
    intro x p u hu
    unfold Store.theObj at hu
    split at hu
    · obtain ⟨o', e₁, e₂⟩ := Option.map_eq_some_iff.1 hu
      cases e₂
      exact hσ _ _ e₁
    · cases hu
  intro h
  have h := h 0 0
  cases op <;> simp only [apply] at h <;> repeat' split at h
  all_goals first | (cases h; done) | skip
  all_goals
    rename_i hs
    rename_i e
    rw [hT _ _ _ e] at hs
    cases hs

theorem run_safe (K : Class V B G) : ∀ (ops : List (Op V B G)) (σ : Store V B) (s : State V B), Rel σ s →
    (∀ p u, σ.obj p = some u → u.stale = false) → (∀ op ∈ ops, ∀ x y m, op ≠ .assign x y m) → run K s ops ≠ none
  | [], σ, s, _, _, _ => by simp [run]
  | op :: ops, σ, s, h, hσ, ho => by
    have hs := step_rel K h op
    unfold run
    cases he : step K s op with
    | ok o s₁ =>
      rw [he] at hs
      obtain ⟨k, c, σ₁, hk, hc, h1, h2⟩ := hs
      have := run_safe K ops σ₁ s₁ h2 (apply_fresh h1 (ho op (by simp)) hσ) fun op' h' => ho op' (by simp [h'])
      simpa using this
    | raise s₁ =>
      rw [he] at hs
      have := run_safe K ops σ s₁ hs.2 hσ fun op' h' => ho op' (by simp [h'])
      simpa using this
    | ub => rw [he] at hs; exact absurd hs (uses_fresh hσ)
    | fuel => rw [he] at hs; exact hs.elim

/-! ### Value semantics -/

theorem storedBy_faithful {K : Class V B G} {A : ℕ → Prop} (hK : Faithful K A) (b : B) : ∀ (n : ℕ) (a : Attrs V),
    (∀ i, A i → (a i).isSome) → storedBy K n a b = some a := by
  have one : ∀ a : Attrs V, (∀ i, A i → (a i).isSome) → ∃ b', K.deepcopy a b = some (a, b') := by
    intro a ha
    obtain ⟨g, ⟨a₀, b₀⟩, e₁, e₂⟩ := hK.args a b ha
    refine ⟨b₀, ?_⟩
    simp only [Class.deepcopy, e₁, e₂, hK.state, Option.bind_eq_bind, Option.bind_some, Option.pure_def, Option.some.injEq,
      Prod.mk.injEq, and_true]
    funext i
    cases hi : a i with
    | some v => rfl
    | none =>
      have h1 : ¬ A i := fun h => by have := ha i h; rw [hi] at this; simp at this
      have h2 := (hK.keys g a₀ b₀ e₂ i).not.2 h1
      cases h3 : a₀ i with
      | none => rfl
      | some v => rw [h3] at h2; simp at h2
  intro n
  induction n with
  | zero =>
    intro a ha
    obtain ⟨b', e⟩ := one a ha
    simp [storedBy, e]
  | succ n ih =>
    intro a ha
    obtain ⟨b', e⟩ := one a ha
    simp [storedBy, e, ih a ha]

theorem deepcopy_faithful {K : Class V B G} {A : ℕ → Prop} (hK : Faithful K A) (hR : Rebuilds K) (b : B) (a : Attrs V)
    (ha : ∀ i, A i → (a i).isSome) : K.deepcopy a b = some (a, b) := by
  have := storedBy_faithful hK b 0 a ha
  simp only [storedBy, Option.map_eq_some_iff] at this
  obtain ⟨⟨a', b'⟩, e, e'⟩ := this
  dsimp only at e'
  subst e'
  rw [e]
  obtain ⟨g, r, e₁, e₂⟩ := hK.args a' b ha
  have := hR a' b g r e₁ e₂
  simp only [Class.deepcopy, e₁, e₂, hK.state, Option.bind_eq_bind, Option.bind_some, Option.pure_def,
    Option.some.injEq, Prod.mk.injEq] at e
  rw [← e.2, this]

/-- Every object has the attributes `A`. -/
def Has (A : ℕ → Prop) (σ : Store V B) : Prop := ∀ p o, σ.obj p = some o → ∀ i, A i → (o.attrs i).isSome

theorem Has.update {A : ℕ → Prop} {σ : Store V B} (h : Has A σ) (k : ℕ) (v : SObj V B)
    (hv : ∀ i, A i → (v.attrs i).isSome) :
    ∀ p o, Function.update σ.obj k (some v) p = some o → ∀ i, A i → (o.attrs i).isSome := by
  intro p u hu
  rw [Function.update_apply] at hu
  split at hu
  · cases hu; exact hv
  · exact h p u hu

theorem Has.theObj {A : ℕ → Prop} {σ : Store V B} (h : Has A σ) {x p : ℕ} {u : SObj V B}
    (hu : σ.theObj x = some (p, u)) : ∀ i, A i → (u.attrs i).isSome := by
  unfold Store.theObj at hu
  split at hu
  · obtain ⟨o', e₁, e₂⟩ := Option.map_eq_some_iff.1 hu
    cases e₂
    exact h _ _ e₁
  · cases hu

theorem Has.theProb {A : ℕ → Prop} {σ : Store V B} (h : Has A σ) {x c : ℕ} {q : SProb} {u : SObj V B}
    (hu : σ.theProb x = some (c, q, u)) : ∀ i, A i → (u.attrs i).isSome := by
  unfold Store.theProb at hu
  split at hu
  · obtain ⟨o', e₁, e₂⟩ := Option.bind_eq_some_iff.1 hu
    obtain ⟨o'', e₃, e₄⟩ := Option.map_eq_some_iff.1 e₂
    cases e₄
    exact h _ _ e₃
  · cases hu

theorem apply_ideal {K : Class V B G} {A : ℕ → Prop} (hK : Faithful K A) {σ : Store V B} (hσ : Has A σ) {op : Op V B G}
    (ho : Plain K op) (k c : ℕ) :
    apply (.ofClass K) K.init σ k c op = apply .ideal K.init σ k c op ∧
    ∀ o σ', apply .ideal K.init σ k c op = .ok o σ' → Has A σ' := by
  cases op with
  | delAttr x i => exact absurd rfl (ho.1 x i)
  | new x g =>
    refine ⟨rfl, fun o σ' h => ?_⟩
    simp only [apply] at h
    split at h
    · split at h
      · cases h
      · rename_i a b hg; cases h; exact hσ.update _ _ fun i => (hK.keys g a b hg i).2
    · cases h
  | bind x y =>
    refine ⟨rfl, fun o σ' h => ?_⟩
    simp only [apply] at h
    split at h
    · split at h
      · cases h
      · cases h; exact hσ
    · cases h
  | del x =>
    refine ⟨rfl, fun o σ' h => ?_⟩
    simp only [apply] at h
    split at h
    · cases h
    · cases h; exact hσ
  | setAttr x j v =>
    refine ⟨rfl, fun o σ' h => ?_⟩
    simp only [apply] at h
    split at h
    · cases h
    · rename_i p u hu
      cases h
      refine hσ.update _ _ fun i hi => ?_
      dsimp only
      rw [Function.update_apply]
      split
      · rfl
      · exact hσ.theObj hu i hi
  | setBase x b =>
    refine ⟨rfl, fun o σ' h => ?_⟩
    simp only [apply] at h
    split at h
    · cases h
    · rename_i p u hu
      split at h
      · cases h
      · have hf := hσ.theObj hu
        cases h; exact hσ.update _ _ hf
  | deepcopy x y =>
    have hR := ho.2 ⟨x, y, rfl⟩
    constructor
    · simp only [apply]
      cases hu : σ.theObj y with
      | none => rfl
      | some r =>
        obtain ⟨p, u⟩ := r
        simp only [Copying.ofClass, Copying.ideal, deepcopy_faithful hK hR u.base u.attrs (hσ.theObj hu)]
    · intro o σ' h
      simp only [apply, Copying.ideal] at h
      split at h
      · split at h
        · cases h
        · rename_i p u hu
          split at h
          · cases h
          · have hf := hσ.theObj hu
            cases h; exact hσ.update _ _ hf
      · cases h
  | make x y m =>
    constructor
    · simp only [apply]
      cases hu : σ.theObj y with
      | none => rfl
      | some r =>
        obtain ⟨p, u⟩ := r
        simp only [Copying.ofClass, Copying.ideal, storedBy_faithful hK u.base m u.attrs (hσ.theObj hu)]
    · intro o σ' h
      simp only [apply, Copying.ideal] at h
      split at h
      · split at h
        · cases h
        · rename_i p u hu
          split at h
          · cases h
          · have hf := hσ.theObj hu
            cases h; exact hσ.update _ _ hf
      · cases h
  | assign x y m =>
    constructor
    · simp only [apply]
      cases hp : σ.theProb x with
      | none => rfl
      | some q =>
        cases hu : σ.theObj y with
        | none => rfl
        | some r =>
          obtain ⟨p, u⟩ := r
          simp only [Copying.ofClass, Copying.ideal, storedBy_faithful hK u.base m u.attrs (hσ.theObj hu)]
    · intro o σ' h
      simp only [apply, Copying.ideal] at h
      split at h
      · cases h
      · rename_i d q old hp
        split at h
        · cases h
        · rename_i p u hu
          split at h
          · cases h
          · have hf := hσ.theProb hp
            have hf' := hσ.theObj hu
            cases h
            have h1 : Has A (⟨Function.update σ.obj q.obj (some { old with stale := true }), σ.prob, σ.vars⟩ : Store V B) :=
              hσ.update _ _ hf
            exact h1.update _ _ hf'
  | copy x y m =>
    constructor
    · simp only [apply]
      cases hu : σ.theProb y with
      | none => rfl
      | some r =>
        obtain ⟨d, q, u⟩ := r
        simp only [Copying.ofClass, Copying.ideal, storedBy_faithful hK u.base m u.attrs (hσ.theProb hu)]
    · intro o σ' h
      simp only [apply, Copying.ideal] at h
      split at h
      · split at h
        · cases h
        · rename_i d q u hu
          have hf := hσ.theProb hu
          cases h; exact hσ.update _ _ hf
      · cases h
  | read x y =>
    refine ⟨rfl, fun o σ' h => ?_⟩
    simp only [apply] at h
    split at h
    · split at h
      · cases h
      · cases h; exact hσ
    · cases h
  | look x =>
    refine ⟨rfl, fun o σ' h => ?_⟩
    simp only [apply] at h
    split at h
    · cases h
    · split at h
      · cases h
      · cases h; exact hσ
  | solve x =>
    refine ⟨rfl, fun o σ' h => ?_⟩
    simp only [apply] at h
    split at h
    · cases h
    · cases h; exact hσ

theorem runs_ideal {K : Class V B G} {A : ℕ → Prop} (hK : Faithful K A) {σ σ' : Store V B} {ops : List (Op V B G)}
    {obs : List (Seen V B)} (h : Runs (.ofClass K) K.init σ ops σ' obs) (ho : ∀ op ∈ ops, Plain K op) (hσ : Has A σ) :
    Runs .ideal K.init σ ops σ' obs := by
  induction h with
  | nil σ => exact .nil σ
  | ok k c hk hc h1 _ ih =>
    obtain ⟨e₁, e₂⟩ := apply_ideal hK hσ (ho _ List.mem_cons_self) k c
    rw [e₁] at h1
    exact .ok k c hk hc h1 (ih (fun op h => ho op (List.mem_cons_of_mem _ h)) (e₂ _ _ h1))
  | raised h1 _ ih =>
    refine .raised (fun k c => ?_) (ih (fun op h => ho op (List.mem_cons_of_mem _ h)) hσ)
    rw [← (apply_ideal hK hσ (ho _ List.mem_cons_self) k c).1]
    exact h1 k c

/-! ### Exceptions -/

theorem release_ne_raise : ∀ (n : ℕ) (L : List Dead) (s s' : State V B), release n s L ≠ .raise s'
  | _, [], s, s' => by unfold release; simp
  | 0, _ :: _, s, s' => by unfold release; simp
  | n + 1, .wrap w :: r, s, s' => by
    unfold release
    split
    · simp
    · rename_i W hW
      cases hx : release n { s with wrap := Function.update s.wrap w none }
        (W.owner.toList.map fun p => .ref (.obj p)) with
      | ok a t => simpa [Out.bind] using release_ne_raise (n + 1) r t s'
      | raise t => exact absurd hx (release_ne_raise n _ _ t)
      | ub => simp [Out.bind]
      | fuel => simp [Out.bind]
  | n + 1, .ref (.obj p) :: r, s, s' => by
    unfold release
    split
    · simp
    · rename_i I hI
      split
      · simp
      · split
        · generalize hL : ((match I.held with | .own w => [.wrap w] | .ptr _ => []) ++
            ((s.life.filter fun e => e.1 = p).map fun e => .ref (.prob e.2)) : List Dead) = L
          cases hx : release n { s with inst := Function.update s.inst p none, life := s.life.filter fun e => e.1 ≠ p }
            L with
          | ok a t => simpa [Out.bind] using release_ne_raise (n + 1) r t s'
          | raise t => exact absurd hx (release_ne_raise n _ _ t)
          | ub => simp [Out.bind]
          | fuel => simp [Out.bind]
        · exact release_ne_raise (n + 1) r _ s'
  | n + 1, .ref (.prob c) :: r, s, s' => by
    unfold release
    split
    · simp
    · rename_i X hX
      split
      · simp
      · split
        · cases hx : release n { s with box := Function.update s.box c none } [.wrap X.slot] with
          | ok a t => simpa [Out.bind] using release_ne_raise (n + 1) r t s'
          | raise t => exact absurd hx (release_ne_raise n _ _ t)
          | ub => simp [Out.bind]
          | fuel => simp [Out.bind]
        · exact release_ne_raise (n + 1) r _ s'
  termination_by n L => (n, L.length)

theorem bind_ne_raise {α : Type} (n : ℕ) (L : List Dead) (s s' : State V B) (a : α) :
    (release n s L).bind (fun _ s'' => (.ok a s'' : Out V B α)) ≠ .raise s' := by
  cases hx : release n s L with
  | ok a t => simp [Out.bind]
  | raise t => exact absurd hx (release_ne_raise n _ _ t)
  | ub => simp [Out.bind]
  | fuel => simp [Out.bind]

/-! ### What is left over -/

/-- The object of a problem stays read, unless something is assigned. -/
theorem apply_seen {C : Copying V B} {init : G → Option (Attrs V × B)} {σ σ' : Store V B} {k c : ℕ} {op : Op V B G}
    {o : Option (Attrs V × B)} (h : apply C init σ k c op = .ok o σ') (hc : σ.prob c = none)
    (ha : ∀ x y m, op ≠ .assign x y m) {d p : ℕ} (hd : σ.prob d = some ⟨p, true⟩) : σ'.prob d = some ⟨p, true⟩ := by
  have hdc : d ≠ c := by rintro rfl; rw [hc] at hd; cases hd
  cases op with
  | assign x y m => exact absurd rfl (ha x y m)
  | read x y =>
    simp only [apply] at h
    split at h
    · split at h
      · cases h
      · rename_i d' q u hu
        have hq : σ.prob d' = some q := by
          unfold Store.theProb at hu
          split at hu
          · obtain ⟨o', e₁, e₂⟩ := Option.bind_eq_some_iff.1 hu
            obtain ⟨o'', e₃, e₄⟩ := Option.map_eq_some_iff.1 e₂
            cases e₄
            exact e₁
          · cases hu
        cases h
        dsimp only
        rw [Function.update_apply]
        split
        · rename_i e; subst e; rw [hd] at hq; cases hq; rfl
        · exact hd
    · cases h
  | _ =>
    simp only [apply] at h
    repeat' split at h
    all_goals first | (cases h; done) | (cases h; exact hd) | (cases h; dsimp only; rw [Function.update_of_ne hdc]; exact hd)

theorem run_seen (K : Class V B G) : ∀ (ops : List (Op V B G)) (σ : Store V B) (s s' : State V B) (obs : List (Seen V B)),
    Rel σ s → run K s ops = some (s', obs) → (∀ op ∈ ops, ∀ x y m, op ≠ .assign x y m) →
    ∀ d p, σ.prob d = some ⟨p, true⟩ → s'.box d ≠ none
  | [], σ, s, s', obs, h, e, _, d, p, hd => by
    cases e
    obtain ⟨X, W, e₁, -⟩ := h.inv.seen d p hd
    rw [e₁]; simp
  | op :: ops, σ, s, s', obs, h, e, ho, d, p, hd => by
    have hs := step_rel K h op
    unfold run at e
    cases he : step K s op with
    | ok o s₁ =>
      rw [he] at hs e
      obtain ⟨k, c, σ₁, hk, hc, h1, h2⟩ := hs
      obtain ⟨⟨t, obs'⟩, e₁, e₂⟩ := Option.map_eq_some_iff.1 e
      cases e₂
      exact run_seen K ops σ₁ s₁ t obs' h2 e₁ (fun op h => ho op (List.mem_cons_of_mem _ h)) d p
        (apply_seen h1 hc (ho op List.mem_cons_self) hd)
    | raise s₁ =>
      rw [he] at hs e
      obtain ⟨⟨t, obs'⟩, e₁, e₂⟩ := Option.map_eq_some_iff.1 e
      cases e₂
      exact run_seen K ops σ s₁ t obs' hs.2 e₁ (fun op h => ho op (List.mem_cons_of_mem _ h)) d p hd
    | ub => rw [he] at e; cases e
    | fuel => rw [he] at e; cases e

/-- With no name bound, exactly the problems whose object was read are alive, and their objects. -/
theorem left_over {σ : Store V B} {s : State V B} (h : Rel σ s) (hv : ∀ r ∈ s.vars, r = none) :
    (∀ c, s.box c ≠ none ↔ ∃ p, σ.prob c = some ⟨p, true⟩) ∧
    (∀ p, s.inst p ≠ none ↔ ∃ c, σ.prob c = some ⟨p, true⟩) ∧
    (∀ w, s.wrap w ≠ none ↔ ∃ p I, s.inst p = some I ∧ I.held.target = w) := by
  have nv : ∀ r, some r ∉ s.vars := fun r hr => by have := hv _ hr; cases this
  have cv : ∀ r, s.vars.count (some r) = 0 := fun r => List.count_eq_zero.2 (nv r)
  have hI : ∀ p I, s.inst p = some I → ∃ w W, I.held = .ptr w ∧ s.wrap w = some W ∧ W.self = p ∧ W.owner = some p := by
    intro p I hI
    have := h.inv.instRc p I hI
    rw [cv] at this
    cases hh : I.held with
    | own w => simp [State.owned, hh] at this; omega
    | ptr w =>
      cases hw : s.wrap w with
      | none => simp [State.owned, hh, hw] at this; omega
      | some W => exact ⟨w, W, rfl, hw, h.inv.ptr p I w W hI hh hw⟩
  have hB : ∀ c X, s.box c = some X → ∃ W, s.wrap X.slot = some W ∧ σ.prob c = some ⟨W.self, true⟩ := by
    intro c X hX
    have := h.inv.boxRc c X hX
    rw [cv] at this
    have hpos : 0 < s.life.countP (fun e => e.2 = c) := by
      simp only [List.count_nil] at this
      omega
    obtain ⟨⟨p, c'⟩, he, hc⟩ := List.countP_pos_iff.1 hpos
    simp at hc
    subst hc
    obtain ⟨I, w, e₁, e₂, e₃⟩ := h.inv.lifeInst p c' he
    obtain ⟨w', W, a₁, a₂, a₃, a₄⟩ := hI p I e₁
    rw [e₂] at a₁; cases a₁
    have hs : X.slot = w := by
      rcases e₃ X hX with e | e | e
      · rw [a₂] at e; cases e
      · simp at e
      · exact e
    subst hs
    obtain ⟨b, hb⟩ := h.pre.prob c' X W hX a₂
    refine ⟨W, a₂, ?_⟩
    cases b with
    | true => exact hb
    | false => exact absurd (a₃ ▸ he) (h.pre.life c' _ hb)
  refine ⟨fun c => ⟨fun hc => ?_, fun ⟨p, hp⟩ => ?_⟩, fun p => ⟨fun hp => ?_, fun ⟨c, hc⟩ => ?_⟩, fun w => ⟨fun hw => ?_, ?_⟩⟩
  · obtain ⟨X, hX⟩ := Option.ne_none_iff_exists'.1 hc
    obtain ⟨W, -, e⟩ := hB c X hX
    exact ⟨_, e⟩
  · obtain ⟨X, W, e₁, -⟩ := h.inv.seen c p hp
    rw [e₁]; simp
  · obtain ⟨I, hI'⟩ := Option.ne_none_iff_exists'.1 hp
    obtain ⟨w, W, e₁, e₂, e₃, e₄⟩ := hI p I hI'
    obtain ⟨-, -, e⟩ := h.inv.wrapOwn w W p e₂ e₄
    obtain ⟨c, X, e₅, e₆⟩ := e.resolve_left (by simp)
    obtain ⟨U, e₇, e₈⟩ := hB c X e₅
    rw [e₆, e₂] at e₇; cases e₇
    exact ⟨c, e₃ ▸ e₈⟩
  · obtain ⟨X, W, e₁, e₂, e₃, -⟩ := h.inv.seen c p hc
    obtain ⟨-, ⟨I, e₄, -⟩, -⟩ := h.inv.wrapOwn _ W p e₂ e₃
    rw [e₄]; simp
  · obtain ⟨W, hW⟩ := Option.ne_none_iff_exists'.1 hw
    cases hO : W.owner with
    | none =>
      obtain ⟨I, e₁, e₂⟩ := (h.inv.wrapSelf w W hW hO).resolve_left (by simp)
      exact ⟨_, I, e₁, by rw [e₂]; rfl⟩
    | some p =>
      obtain ⟨-, ⟨I, e₁, e₂⟩, -⟩ := h.inv.wrapOwn w W p hW hO
      exact ⟨p, I, e₁, by rw [e₂]; rfl⟩
  · rintro ⟨p, I, e₁, rfl⟩
    obtain ⟨w, W, a₁, a₂, -⟩ := hI p I e₁
    rw [a₁]
    simp [Held.target, a₂]

/-- Without reading back, nothing is marked as read. -/
theorem apply_unseen {C : Copying V B} {init : G → Option (Attrs V × B)} {σ σ' : Store V B} {k c : ℕ} {op : Op V B G}
    {o : Option (Attrs V × B)} (h : apply C init σ k c op = .ok o σ') (hr : ∀ x y, op ≠ .read x y)
    (hσ : ∀ d p, σ.prob d ≠ some ⟨p, true⟩) : ∀ d p, σ'.prob d ≠ some ⟨p, true⟩ := by
  have key : ∀ c k d p, Function.update σ.prob c (some ⟨k, false⟩) d ≠ some ⟨p, true⟩ := by
    intro c k d p e
    rw [Function.update_apply] at e
    split at e
    · cases e
    · exact hσ d p e
  cases op with
  | read x y => exact absurd rfl (hr x y)
  | _ =>
    simp only [apply] at h
    repeat' split at h
    all_goals first | (cases h; done) | (cases h; exact hσ) | (cases h; exact key _ _)

theorem runs_unseen {C : Copying V B} {init : G → Option (Attrs V × B)} {σ σ' : Store V B} {ops : List (Op V B G)}
    {obs : List (Seen V B)} (h : Runs C init σ ops σ' obs) (ho : ∀ op ∈ ops, ∀ x y, op ≠ .read x y)
    (hσ : ∀ d p, σ.prob d ≠ some ⟨p, true⟩) : ∀ d p, σ'.prob d ≠ some ⟨p, true⟩ := by
  induction h with
  | nil σ => exact hσ
  | ok k c hk hc h1 _ ih =>
    exact ih (fun op h => ho op (List.mem_cons_of_mem _ h)) (apply_unseen h1 (ho _ List.mem_cons_self) hσ)
  | raised h1 _ ih => exact ih (fun op h => ho op (List.mem_cons_of_mem _ h)) hσ

/-! ### Stepping through a program on the side of the specification -/

theorem run_none (K : Class V B G) {σ : Store V B} {s : State V B} (h : Rel σ s) {op : Op V B G} {ops : List (Op V B G)}
    (hop : ∀ k c, σ.obj k = none → σ.prob c = none →
      apply (.ofClass K) K.init σ k c op = .stale ∨
      ∃ o σ', apply (.ofClass K) K.init σ k c op = .ok o σ' ∧ ∀ s', Rel σ' s' → run K s' ops = none) :
    run K s (op :: ops) = none := by
  have hs := step_rel K h op
  unfold run
  cases he : step K s op with
  | ok o s₁ =>
    rw [he] at hs
    obtain ⟨k, c, σ₁, hk, hc, h1, h2⟩ := hs
    rcases hop k c hk hc with e | ⟨o', σ', e, hr⟩
    · rw [e] at h1; cases h1
    · rw [e] at h1; cases h1
      simp [hr s₁ h2]
  | raise s₁ =>
    rw [he] at hs
    have hk := h.pre.objLt s.next le_rfl
    have hc := h.pre.probLt s.next le_rfl
    have h1 := hs.1 s.next s.next
    rcases hop s.next s.next hk hc with e | ⟨o', σ', e, hr⟩
    · rw [e] at h1; cases h1
    · rw [e] at h1; cases h1
  | ub => rfl
  | fuel => rfl

theorem storedBy_none {K : Class V B G} (hK : ∀ a b, K.deepcopy a b = none) (n : ℕ) (a : Attrs V) (b : B) :
    storedBy K n a b = none := by
  cases n <;> simp [storedBy, hK]

theorem apply_noprob {K : Class V B G} (hK : ∀ a b, K.deepcopy a b = none) {σ σ' : Store V B} {k c : ℕ} {op : Op V B G}
    {o : Option (Attrs V × B)} (h : apply (.ofClass K) K.init σ k c op = .ok o σ') (hσ : ∀ d, σ.prob d = none) :
    ∀ d, σ'.prob d = none := by
  have hP : ∀ x, σ.theProb x = none := by
    intro x
    unfold Store.theProb
    split
    · simp [hσ]
    · rfl
  cases op <;> simp only [apply, hP, Copying.ofClass, storedBy_none hK, hK] at h <;> repeat' split at h
  all_goals first | (cases h; done) | (cases h; exact hσ)

theorem runs_noprob {K : Class V B G} (hK : ∀ a b, K.deepcopy a b = none) {σ σ' : Store V B} {ops : List (Op V B G)}
    {obs : List (Seen V B)} (h : Runs (.ofClass K) K.init σ ops σ' obs) (hσ : ∀ d, σ.prob d = none) :
    ∀ d, σ'.prob d = none := by
  induction h with
  | nil σ => exact hσ
  | ok k c hk hc h1 _ ih => exact ih (apply_noprob hK h1 hσ)
  | raised h1 _ ih => exact ih hσ

end Aligator.PyObj
