import Verif.Spec.Polymorphic
import Mathlib.Data.List.Nodup
import Mathlib.Data.List.Perm.Basic
import Mathlib.Data.List.Perm.Subperm
import Mathlib.Tactic.Push
import Mathlib.Tactic.Tauto
import Mathlib.Data.List.Basic

/-! # Lemmas: memory that represents values -/

namespace Aligator.Poly

open Spec

variable {V : Type}

/-- The pointers `ps` own exactly the blocks `F`, which hold the trees `ts`. -/
inductive Rep (c : ℕ → Cell V) : List Ptr → List (Option (Tree V)) → List ℕ → Prop
  | nil : Rep c [] [] []
  | null {ps ts F} : Rep c ps ts F → Rep c (none :: ps) (none :: ts) F
  | obj {a v qs ks F₁ ps ts F₂} : c a = .live ⟨v, qs⟩ → Rep c qs ks F₁ → Rep c ps ts F₂ →
      Rep c (some a :: ps) (some (.node v ks) :: ts) (a :: (F₁ ++ F₂))

theorem Rep.frame {c c' : ℕ → Cell V} {ps ts F} (h : Rep c ps ts F) (hc : ∀ a ∈ F, c' a = c a) :
    Rep c' ps ts F := by
  induction h with
  | nil => exact .nil
  | null _ ih => exact .null (ih hc)
  | obj ha _ _ ih₁ ih₂ =>
    refine .obj ((hc _ (by simp)).trans ha) (ih₁ fun b hb => hc b (by simp [hb])) (ih₂ fun b hb => hc b (by simp [hb]))

theorem Rep.live {c : ℕ → Cell V} {ps ts F} (h : Rep c ps ts F) {a} (ha : a ∈ F) : ∃ o, c a = .live o := by
  induction h with
  | nil => simp at ha
  | null _ ih => exact ih ha
  | obj hb _ _ ih₁ ih₂ =>
    simp only [List.mem_cons, List.mem_append] at ha
    rcases ha with rfl | ha | ha
    · exact ⟨_, hb⟩
    · exact ih₁ ha
    · exact ih₂ ha

theorem Rep.det {c : ℕ → Cell V} {ps ts F ts' F'} (h : Rep c ps ts F) (h' : Rep c ps ts' F') :
    ts' = ts ∧ F' = F := by
  induction h generalizing ts' F' with
  | nil => cases h'; simp
  | null _ ih => cases h' with | null h' => obtain ⟨rfl, rfl⟩ := ih h'; simp
  | obj hb _ _ ih₁ ih₂ =>
    cases h' with
    | obj hb' h₁ h₂ =>
      rw [hb] at hb'
      injection hb' with e; injection e with e₁ e₂
      subst e₁ e₂
      obtain ⟨rfl, rfl⟩ := ih₁ h₁
      obtain ⟨rfl, rfl⟩ := ih₂ h₂
      simp

theorem Rep.length {c : ℕ → Cell V} {ps ts F} (h : Rep c ps ts F) : ts.length = ps.length := by
  induction h with
  | nil => rfl
  | null _ ih => simp [ih]
  | obj _ _ _ _ ih => simp [ih]

theorem Rep.append {c : ℕ → Cell V} {ps ts F ps' ts' F'} (h : Rep c ps ts F) (h' : Rep c ps' ts' F') :
    ∃ G, G.Perm (F ++ F') ∧ Rep c (ps ++ ps') (ts ++ ts') G := by
  induction h with
  | nil => exact ⟨F', by simp, h'⟩
  | null _ ih =>
    obtain ⟨G, hG, hr⟩ := ih
    exact ⟨G, hG, .null hr⟩
  | @obj a v qs ks F₁ ps ts F₂ hb h₁ _ _ ih =>
    obtain ⟨G, hG, hr⟩ := ih
    refine ⟨a :: (F₁ ++ G), ?_, .obj hb h₁ hr⟩
    simpa using hG.append_left F₁

/-- Splitting off one element of a represented list, and putting another one in its place. -/
theorem Rep.split {c : ℕ → Cell V} {ps ts F} (h : Rep c ps ts F) {i : ℕ} {p : Ptr} (hi : ps[i]? = some p) :
    ∃ t Fi Fr, ts[i]? = some t ∧ Rep c [p] [t] Fi ∧ F.Perm (Fi ++ Fr) ∧
      ∀ (c' : ℕ → Cell V) p' t' Fi', (∀ a ∈ Fr, c' a = c a) → Rep c' [p'] [t'] Fi' →
        ∃ G, G.Perm (Fi' ++ Fr) ∧ Rep c' (ps.set i p') (ts.set i t') G := by
  induction h generalizing i with
  | nil => simp at hi
  | @null ps ts F h ih =>
    cases i with
    | zero =>
      simp only [List.getElem?_cons_zero, Option.some.injEq] at hi
      subst hi
      refine ⟨none, [], F, by simp, .null .nil, by simp, fun c' p' t' Fi' hc hr => ?_⟩
      simp only [List.set_cons_zero]
      cases hr with
      | null hr => cases hr; exact ⟨F, by simp, .null (h.frame hc)⟩
      | obj hb h₁ hr => cases hr; exact ⟨_, by simp, .obj hb h₁ (h.frame hc)⟩
    | succ i =>
      simp only [List.getElem?_cons_succ] at hi
      obtain ⟨t, Fi, Fr, e, hr, hp, H⟩ := ih hi
      refine ⟨t, Fi, Fr, by simpa using e, hr, hp, fun c' p' t' Fi' hc hr' => ?_⟩
      obtain ⟨G, hG, hR⟩ := H c' p' t' Fi' hc hr'
      exact ⟨G, hG, .null hR⟩
  | @obj a v qs ks F₁ ps ts F₂ hb h₁ h₂ _ ih =>
    cases i with
    | zero =>
      simp only [List.getElem?_cons_zero, Option.some.injEq] at hi
      subst hi
      refine ⟨some (.node v ks), a :: (F₁ ++ []), F₂, by simp, .obj hb h₁ .nil, by simp, fun c' p' t' Fi' hc hr => ?_⟩
      simp only [List.set_cons_zero]
      cases hr with
      | null hr => cases hr; exact ⟨F₂, by simp, .null (h₂.frame hc)⟩
      | obj hb h₁ hr => cases hr; exact ⟨_, by simp, .obj hb h₁ (h₂.frame hc)⟩
    | succ i =>
      simp only [List.getElem?_cons_succ] at hi
      obtain ⟨t, Fi, Fr, e, hr, hp, H⟩ := ih hi
      refine ⟨t, Fi, a :: (F₁ ++ Fr), by simpa using e, hr, ?_, fun c' p' t' Fi' hc hr' => ?_⟩
      · calc a :: (F₁ ++ F₂) |>.Perm (a :: (F₁ ++ (Fi ++ Fr))) := by simpa using hp.append_left F₁
          _ |>.Perm (Fi ++ a :: (F₁ ++ Fr)) := by
            refine List.Perm.trans ?_ List.perm_middle.symm
            exact List.Perm.cons _ (List.perm_append_comm_assoc _ _ _)
      · obtain ⟨G, hG, hR⟩ := H c' p' t' Fi' (fun b hb => hc b (by simp [hb])) hr'
        refine ⟨a :: (F₁ ++ G), ?_, .obj ((hc a (by simp)).trans hb) (h₁.frame fun b hb => hc b (by simp [hb])) hR⟩
        calc a :: (F₁ ++ G) |>.Perm (a :: (F₁ ++ (Fi' ++ Fr))) := by simpa using hG.append_left F₁
          _ |>.Perm (Fi' ++ a :: (F₁ ++ Fr)) := by
            refine List.Perm.trans ?_ List.perm_middle.symm
            exact List.Perm.cons _ (List.perm_append_comm_assoc _ _ _)

/-- The object at a path, and replacing it. -/
theorem Rep.nav {c : ℕ → Cell V} {path : List ℕ} {p : Ptr} {t : Option (Tree V)} {F : List ℕ}
    (h : Rep c [p] [t] F) :
    (nav c p path = none ∧ sub t path = none) ∨
    ∃ a v qs ks Fk Fo, nav c p path = some (a, ⟨v, qs⟩) ∧ sub t path = some (.node v ks) ∧ c a = .live ⟨v, qs⟩ ∧
      Rep c qs ks Fk ∧ F.Perm (a :: (Fk ++ Fo)) ∧ (∃ r, p = some r ∧ (r = a ∨ r ∈ Fo)) ∧
      ∀ (c' : ℕ → Cell V) v' qs' ks' Fk', (∀ b ∈ Fo, c' b = c b) → c' a = .live ⟨v', qs'⟩ → Rep c' qs' ks' Fk' →
        ∃ G, G.Perm (a :: (Fk' ++ Fo)) ∧ Rep c' [p] [replace t path (.node v' ks')] G := by
  induction path generalizing p t F with
  | nil =>
    cases h with
    | null h => left; simp [Poly.nav, sub]
    | @obj a v qs ks F₁ _ _ _ hb h₁ h₂ =>
      cases h₂
      right
      refine ⟨a, v, qs, ks, F₁, [], by simp [Poly.nav, hb], by simp [sub], hb, h₁, by simp, ⟨a, rfl, .inl rfl⟩, ?_⟩
      intro c' v' qs' ks' Fk' _ hb' hr
      exact ⟨_, .refl _, by simpa [replace] using Rep.obj hb' hr .nil⟩
  | cons i r ih =>
    cases h with
    | null h => left; simp [Poly.nav, sub]
    | @obj a v qs ks F₁ _ _ _ hb h₁ h₂ =>
      cases h₂
      cases hi : qs[i]? with
      | none =>
        left
        have : ks[i]? = none := by
          rw [List.getElem?_eq_none_iff, h₁.length, ← List.getElem?_eq_none_iff, hi]
        simp [Poly.nav, hb, hi, sub, Tree.kids, this]
      | some p' =>
        obtain ⟨t', Fi, Fr, et, hr, hp, H⟩ := h₁.split hi
        rcases ih hr with ⟨e₁, e₂⟩ | ⟨b, v', qs', ks', Fk, Fo, e₁, e₂, e₃, e₄, e₅, e₆, e₇⟩
        · left
          simp [Poly.nav, hb, hi, sub, Tree.kids, et, e₁, e₂]
        · right
          refine ⟨b, v', qs', ks', Fk, a :: (Fo ++ Fr), by simp [Poly.nav, hb, hi, e₁],
            by simp [sub, Tree.kids, et, e₂], e₃, e₄, ?_, ⟨a, rfl, .inr (by simp)⟩, ?_⟩
          · simp only [List.append_nil]
            calc a :: F₁ |>.Perm (a :: (Fi ++ Fr)) := by simpa using hp
              _ |>.Perm (a :: (b :: (Fk ++ Fo) ++ Fr)) := by
                simpa using e₅.append_right Fr
              _ |>.Perm (b :: (Fk ++ a :: (Fo ++ Fr))) := by
                simp only [List.cons_append, List.append_assoc]
                exact (List.Perm.swap _ _ _).trans (List.Perm.cons _ List.perm_middle.symm)
          · intro c' w qs'' ks'' Fk' hc hb' hr'
            obtain ⟨G, hG, hR⟩ := e₇ c' w qs'' ks'' Fk' (fun x hx => hc x (by simp [hx])) hb' hr'
            obtain ⟨G', hG', hR'⟩ := H c' p' _ G (fun x hx => hc x (by simp [hx])) hR
            refine ⟨a :: (G' ++ []), ?_, ?_⟩
            · simp only [List.append_nil]
              calc a :: G' |>.Perm (a :: (G ++ Fr)) := by simpa using hG'
                _ |>.Perm (a :: (b :: (Fk' ++ Fo) ++ Fr)) := by simpa using hG.append_right Fr
                _ |>.Perm (b :: (Fk' ++ a :: (Fo ++ Fr))) := by
                  simp only [List.cons_append, List.append_assoc]
                  exact (List.Perm.swap _ _ _).trans (List.Perm.cons _ List.perm_middle.symm)
            · have hset : qs.set i p' = qs := by
                apply List.ext_getElem? 
                intro j
                rw [List.getElem?_set]
                split
                · subst_vars; split <;> simp_all
                · rfl
              rw [hset] at hR'
              have := Rep.obj (v := v) ((hc a (by simp)).trans hb) hR' .nil
              simpa [replace, Tree.val, Tree.kids, et] using this

/-- Destruction frees exactly the blocks owned. -/
theorem destroyList_spec {c : ℕ → Cell V} {ps ts F} (hr : Rep c ps ts F) (hd : F.Nodup) {n : ℕ} (hn : F.length ≤ n)
    {h : Heap V} (hc : ∀ a ∈ F, h.cell a = c a) :
    ∃ h', destroyList n h ps = .ok () h' none ∧ h'.next = h.next ∧ (∀ a ∈ F, h'.cell a = .free) ∧
      ∀ a ∉ F, h'.cell a = h.cell a := by
  induction hr generalizing n h with
  | nil => exact ⟨h, by simp [destroyList], rfl, by simp, by simp⟩
  | null _ ih =>
    obtain ⟨h', e, r⟩ := ih hd hn hc
    exact ⟨h', by simp [destroyList, e], r⟩
  | @obj a v qs ks F₁ ps ts F₂ hb h₁ h₂ ih₁ ih₂ =>
    simp only [List.nodup_cons, List.mem_append, List.nodup_append, not_or] at hd
    obtain ⟨⟨ha₁, ha₂⟩, hd₁, hd₂, hd₃⟩ := hd
    cases n with
    | zero => simp at hn
    | succ n =>
      simp only [List.length_cons, List.length_append] at hn
      obtain ⟨h', e₁, n₁, f₁, g₁⟩ := ih₁ hd₁ (n := n) (by omega) (h := h.put a .raw) (by
        intro b hb'
        have : b ≠ a := fun e => ha₁ (e ▸ hb')
        simpa [Heap.put, Function.update_of_ne this] using hc b (by simp [hb']))
      obtain ⟨h'', e₂, n₂, f₂, g₂⟩ := ih₂ hd₂ (n := n + 1) (by omega) (h := h'.put a .free) (by
        intro b hb'
        have hba : b ≠ a := fun e => ha₂ (e ▸ hb')
        have hb1 : b ∉ F₁ := fun hx => hd₃ b hx b hb' rfl
        rw [← hc b (by simp [hb'])]
        simp [Heap.put, Function.update_of_ne hba, g₁ b hb1])
      refine ⟨h'', ?_, by simpa [Heap.put, n₁] using n₂, ?_, ?_⟩
      · rw [destroyList]
        rw [hc a (by simp), hb]
        dsimp only
        rw [e₁]
        exact e₂
      · intro b hb'
        simp only [List.mem_cons, List.mem_append] at hb'
        by_cases hb2 : b ∈ F₂
        · exact f₂ b hb2
        · rw [g₂ b hb2]
          rcases hb' with rfl | hb' | hb'
          · simp [Heap.put]
          · have hba : b ≠ a := fun e => ha₁ (e ▸ hb')
            simp [Heap.put, Function.update_of_ne hba, f₁ b hb']
          · exact absurd hb' hb2
      · intro b hb'
        simp only [List.mem_cons, List.mem_append, not_or] at hb'
        rw [g₂ b hb'.2.2]
        simp only [Heap.put, Function.update_of_ne hb'.1]
        rw [g₁ b hb'.2.1]
        simp [Heap.put, Function.update_of_ne hb'.1]

/-- Only what is well owned can be destroyed. -/
theorem destroyList_rep {n : ℕ} {h h' : Heap V} {ps : List Ptr} {q} (e : destroyList n h ps = .ok () h' q) :
    ∃ ts F, Rep h.cell ps ts F ∧ F.Nodup ∧ (∀ a ∈ F, h'.cell a = .free) ∧ ∀ a ∉ F, h'.cell a = h.cell a := by
  fun_induction destroyList n h ps generalizing h' q with
  | case1 n h => cases e; exact ⟨[], [], .nil, by simp, by simp, by simp⟩
  | case2 n h ps ih =>
    obtain ⟨ts, F, hr, r⟩ := ih e
    exact ⟨_, _, .null hr, r⟩
  | case3 => cases e
  | case4 n h a ps o ho u h₁ q' e₁ ih₁ ih₂ =>
    obtain ⟨ks, F₁, r₁, d₁, f₁, g₁⟩ := ih₁ e₁
    obtain ⟨ts, F₂, r₂, d₂, f₂, g₂⟩ := ih₂ e
    have ha₁ : a ∉ F₁ := fun hm => by
      obtain ⟨o', ho'⟩ := r₁.live hm
      simp [Heap.put] at ho'
    have ha₂ : a ∉ F₂ := fun hm => by
      obtain ⟨o', ho'⟩ := r₂.live hm
      simp [Heap.put] at ho'
    have hdis : ∀ b ∈ F₁, b ∉ F₂ := fun b hb hm => by
      obtain ⟨o', ho'⟩ := r₂.live hm
      have hba : b ≠ a := fun e => ha₁ (e ▸ hb)
      simp [Heap.put, Function.update_of_ne hba, f₁ b hb] at ho'
    refine ⟨_, _, .obj (v := o.val) (qs := o.kids) ho (r₁.frame ?_) (r₂.frame ?_), ?_, ?_, ?_⟩
    · intro b hb
      have hba : b ≠ a := fun e => ha₁ (e ▸ hb)
      simp [Heap.put, Function.update_of_ne hba]
    · intro b hb
      have hba : b ≠ a := fun e => ha₂ (e ▸ hb)
      have hb1 : b ∉ F₁ := fun hx => hdis b hx hb
      simp [Heap.put, Function.update_of_ne hba, g₁ b hb1]
    · simp only [List.nodup_cons, List.mem_append, List.nodup_append, not_or]
      exact ⟨⟨ha₁, ha₂⟩, d₁, d₂, fun x hx y hy e => hdis x hx (e ▸ hy)⟩
    · intro b hb'
      simp only [List.mem_cons, List.mem_append] at hb'
      by_cases hb2 : b ∈ F₂
      · exact f₂ b hb2
      · rw [g₂ b hb2]
        rcases hb' with rfl | hb' | hb'
        · simp [Heap.put]
        · have hba : b ≠ a := fun e => ha₁ (e ▸ hb')
          simp [Heap.put, Function.update_of_ne hba, f₁ b hb']
        · exact absurd hb' hb2
    · intro b hb'
      simp only [List.mem_cons, List.mem_append, not_or] at hb'
      rw [g₂ b hb'.2.2]
      simp only [Heap.put, Function.update_of_ne hb'.1]
      rw [g₁ b hb'.2.1]
      simp [Heap.put, Function.update_of_ne hb'.1]
  | case5 => cases e
  | case6 => cases e
  | case7 => cases e
  | case8 => cases e

/-- Copying: either the same values in new blocks, or an exception and the memory as before. -/
theorem cloneList_spec {c : ℕ → Cell V} {ps ts F} (hr : Rep c ps ts F) {n : ℕ} (hn : F.length ≤ n)
    {q : Quota} {h : Heap V} (hc : ∀ a ∈ F, h.cell a = c a) (hfree : ∀ a, h.next ≤ a → h.cell a = .free) :
    (∃ h', cloneList n q h ps = .throw h' ∧ h'.cell = h.cell ∧ h.next ≤ h'.next ∧ q ≠ none) ∨
    ∃ ps' h' q' F', cloneList n q h ps = .ok ps' h' q' ∧ Rep h'.cell ps' ts F' ∧ F'.Nodup ∧ F'.length = F.length ∧
      (q = none → q' = none) ∧
      (∀ a ∈ F', h.next ≤ a ∧ a < h'.next) ∧ (∀ a ∉ F', h'.cell a = h.cell a) ∧ h.next ≤ h'.next := by
  induction hr generalizing n h q with
  | nil => exact .inr ⟨[], h, q, [], by simp [cloneList], .nil, by simp, rfl, id, by simp, by simp, Nat.le_refl _⟩
  | null _ ih =>
    rcases ih hn hc hfree (q := q) with ⟨h', e, r⟩ | ⟨ps', h', q', F', e, r, s⟩
    · exact .inl ⟨h', by simp [cloneList, e], r⟩
    · exact .inr ⟨none :: ps', h', q', F', by simp [cloneList, e], .null r, s⟩
  | @obj a v qs ks F₁ ps ts F₂ hb h₁ h₂ ih₁ ih₂ =>
    cases n with
    | zero => simp at hn
    | succ n =>
      simp only [List.length_cons, List.length_append] at hn
      have hlt : ∀ b ∈ a :: (F₁ ++ F₂), b < h.next := by
        intro b hb'
        by_contra hx
        obtain ⟨o, ho⟩ := (Rep.obj hb h₁ h₂).live hb'
        rw [← hc b hb', hfree b (by omega)] at ho
        cases ho
      have hcell : h.cell a = .live ⟨v, qs⟩ := (hc a (by simp)).trans hb
      have hput : (h.alloc.put h.next .free).cell = h.cell := by
        funext b
        by_cases e : b = h.next
        · subst e; simp [Heap.put, hfree]
        · simp [Heap.put, Heap.alloc, Function.update_of_ne e]
      rw [cloneList, hcell]
      dsimp only
      cases hq : q.tick with
      | none =>
        left
        refine ⟨_, rfl, hput, by simp [Heap.put, Heap.alloc], ?_⟩
        rintro rfl; simp [Quota.tick] at hq
      | some q₁ =>
        dsimp only
        have hq₁ : q = none → q₁ = none := by rintro rfl; simpa [Quota.tick] using hq.symm
        rcases ih₁ (n := n) (by omega) (q := q₁) (h := h.alloc) (by
            intro b hb'
            have : b ≠ h.next := by have := hlt b (by simp [hb']); omega
            rw [← hc b (by simp [hb'])]
            simp [Heap.alloc, Function.update_of_ne this]) (by
            intro b hb'
            simp only [Heap.alloc] at hb' ⊢
            rw [Function.update_of_ne (by omega), hfree b (by omega)]) with
          ⟨h', e, e₁, e₂, e₃⟩ | ⟨ps', h', q', F', e, r, d, l, hqq, b₁, b₂, b₃⟩
        · left
          rw [e]
          dsimp only
          refine ⟨_, rfl, ?_, ?_, fun hx => e₃ (hq₁ hx)⟩
          · simp only [Heap.put, e₁]
            exact hput
          · simp only [Heap.put, Heap.alloc] at e₂ ⊢; omega
        · rw [e]
          dsimp only
          have hm : h.next ∉ F' := fun hx => by have := (b₁ _ hx).1; simp only [Heap.alloc] at this; omega
          have hback : ∀ b ∉ F', b ≠ h.next → h'.cell b = h.cell b := by
            intro b hb' hne
            rw [b₂ b hb']
            simp [Heap.alloc, Function.update_of_ne hne]
          have hnx : h.next + 1 ≤ h'.next := by simpa [Heap.alloc] using b₃
          cases hq' : q'.tick with
          | none =>
            left
            dsimp only
            obtain ⟨h'', u, un, u₁, u₂⟩ := destroyList_spec r d (n := n) (by omega) (h := h') (fun _ _ => rfl)
            rw [unwind, u]
            dsimp only
            refine ⟨_, rfl, ?_, by simp only [Heap.put, un]; omega, ?_⟩
            · funext b
              by_cases eb : b = h.next
              · subst eb; simp [Heap.put, hfree]
              · simp only [Heap.put, Function.update_of_ne eb]
                by_cases hbF : b ∈ F'
                · rw [u₁ b hbF, hfree b]
                  have := (b₁ b hbF).1; simp only [Heap.alloc] at this; omega
                · rw [u₂ b hbF, hback b hbF eb]
            · intro hx
              rw [hqq (hq₁ hx)] at hq'
              simp [Quota.tick] at hq'
          | some q₃ =>
            dsimp only
            have hq₃ : q = none → q₃ = none := by
              intro hx; rw [hqq (hq₁ hx)] at hq'; simpa [Quota.tick] using hq'.symm
            have hkids : Rep (h'.put h.next (.live ⟨v, ps'⟩)).cell ps' ks F' := r.frame fun b hb' => by
              have : b ≠ h.next := fun e => hm (e ▸ hb')
              simp [Heap.put, Function.update_of_ne this]
            rcases ih₂ (n := n + 1) (by omega) (q := q₃) (h := h'.put h.next (.live ⟨v, ps'⟩)) (by
                intro b hb'
                have hlb := hlt b (by simp [hb'])
                have : b ≠ h.next := by omega
                rw [← hc b (by simp [hb'])]
                simp only [Heap.put, Function.update_of_ne this]
                refine hback b (fun hx => ?_) this
                have := (b₁ b hx).1; simp only [Heap.alloc] at this; omega) (by
                intro b hb'
                simp only [Heap.put] at hb' ⊢
                rw [Function.update_of_ne (by omega), hback b (fun hx => ?_) (by omega), hfree b (by omega)]
                have := (b₁ b hx).2; omega) with
              ⟨h'', e', e₁, e₂, e₃⟩ | ⟨ps'', h'', q'', F'', e', r', d', l', hqq', b₁', b₂', b₃'⟩
            · left
              rw [e']
              dsimp only
              have hroot : Rep h''.cell [some h.next] [some (.node v ks)] (h.next :: (F' ++ [])) := by
                rw [e₁]
                exact .obj (by simp [Heap.put]) hkids .nil
              obtain ⟨h₃, u, un, u₁, u₂⟩ := destroyList_spec hroot (by simpa using ⟨hm, d⟩) (n := n + 1)
                (by simp; omega) (h := h'') (fun _ _ => rfl)
              rw [unwind, u]
              dsimp only
              refine ⟨_, rfl, ?_, by simp only [Heap.put] at e₂; omega, fun hx => e₃ (hq₃ hx)⟩
              funext b
              by_cases hbF : b ∈ h.next :: (F' ++ [])
              · rw [u₁ b hbF, hfree b]
                simp only [List.append_nil, List.mem_cons] at hbF
                rcases hbF with rfl | hbF
                · exact Nat.le_refl _
                · have := (b₁ b hbF).1; simp only [Heap.alloc] at this; omega
              · rw [u₂ b hbF, e₁]
                simp only [List.append_nil, List.mem_cons, not_or] at hbF
                simp only [Heap.put, Function.update_of_ne hbF.1]
                exact hback b hbF.2 hbF.1
            · right
              rw [e']
              dsimp only
              have hdis : ∀ b ∈ F'', b ≠ h.next ∧ b ∉ F' := fun b hb' => by
                have h1 := (b₁' b hb').1
                simp only [Heap.put] at h1
                exact ⟨by omega, fun hx => by have := (b₁ b hx).2; omega⟩
              have hm' : h.next ∉ F'' := fun hx => (hdis _ hx).1 rfl
              refine ⟨_, _, _, h.next :: (F' ++ F''), rfl, .obj ?_ (hkids.frame ?_) r', ?_, by simp [l, l'], ?_, ?_, ?_, ?_⟩
              · rw [b₂' _ hm']; simp [Heap.put]
              · intro b hb'
                exact b₂' b fun hx => (hdis b hx).2 hb'
              · simp only [List.nodup_cons, List.mem_append, List.nodup_append, not_or]
                exact ⟨⟨hm, hm'⟩, d, d', fun x hx y hy e => (hdis y hy).2 (e ▸ hx)⟩
              · exact fun hx => hqq' (hq₃ hx)
              · simp only [Heap.put] at b₃' b₁'
                simp only [Heap.alloc] at b₁
                intro b hb'
                simp only [List.mem_cons, List.mem_append] at hb'
                rcases hb' with rfl | hb' | hb'
                · omega
                · have := b₁ b hb'; omega
                · have := b₁' b hb'; omega
              · intro b hb'
                simp only [List.mem_cons, List.mem_append, not_or] at hb'
                rw [b₂' b hb'.2.2]
                simp only [Heap.put, Function.update_of_ne hb'.1]
                exact hback b hb'.2.1 hb'.1
              · simp only [Heap.put] at b₃'; omega

/-! ## The invariant -/

/-- A variable represents a value. -/
inductive VRep (c : ℕ → Cell V) : Option Ptr → Option (Option (Tree V)) → List ℕ → Prop
  | dead : VRep c none none []
  | alive {p t F} : Rep c [p] [t] F → VRep c (some p) (some t) F

/-- `fp x` are the blocks that variable `x` owns. -/
structure Inv (s : State V) (σ : Store V) (fp : ℕ → List ℕ) : Prop where
  rep : ∀ x, VRep s.heap.cell (s.var x) (σ x) (fp x)
  nodup : ∀ x, (fp x).Nodup
  disj : ∀ x y, x ≠ y → ∀ a ∈ fp x, a ∉ fp y
  noleak : ∀ a, s.heap.cell a ≠ .free → ∃ x, a ∈ fp x
  fresh : ∀ a, s.heap.next ≤ a → s.heap.cell a = .free

/-- Memory represents the store: the values are right, nothing is shared, nothing is lost. -/
def R (s : State V) (σ : Store V) : Prop := ∃ fp, Inv s σ fp

theorem VRep.frame {c c' : ℕ → Cell V} {p t F} (h : VRep c p t F) (hc : ∀ a ∈ F, c' a = c a) : VRep c' p t F := by
  cases h with
  | dead => exact .dead
  | alive h => exact .alive (h.frame hc)

theorem VRep.live {c : ℕ → Cell V} {p t F} (h : VRep c p t F) {a} (ha : a ∈ F) : ∃ o, c a = .live o := by
  cases h with
  | dead => simp at ha
  | alive h => exact h.live ha

theorem length_le_of_lt {F : List ℕ} (hd : F.Nodup) {n : ℕ} (h : ∀ a ∈ F, a < n) : F.length ≤ n := by
  have := (List.subperm_of_subset hd (l₂ := List.range n) fun a ha => by simpa using h a ha).length_le
  simpa using this

theorem Inv.lt {s : State V} {σ fp} (i : Inv s σ fp) {x a} (ha : a ∈ fp x) : a < s.heap.next := by
  by_contra hx
  obtain ⟨o, ho⟩ := (i.rep x).live ha
  rw [i.fresh a (by omega)] at ho
  cases ho

theorem Inv.len {s : State V} {σ fp} (i : Inv s σ fp) (x : ℕ) : (fp x).length ≤ s.heap.next :=
  length_le_of_lt (i.nodup x) fun _ ha => i.lt ha

theorem Inv.dead {s : State V} {σ fp} (i : Inv s σ fp) {x} (h : s.var x = none) : σ x = none ∧ fp x = [] := by
  have := i.rep x
  rw [h] at this
  generalize σ x = t, fp x = F at this
  cases this
  simp

theorem Inv.alive {s : State V} {σ fp} (i : Inv s σ fp) {x p} (h : s.var x = some p) :
    ∃ t, σ x = some t ∧ Rep s.heap.cell [p] [t] (fp x) := by
  have := i.rep x
  rw [h] at this
  generalize σ x = t, fp x = F at this ⊢
  cases this with
  | alive h => exact ⟨_, rfl, h⟩

/-- Change of one variable. -/
theorem Inv.update {s : State V} {σ fp} (i : Inv s σ fp) {h : Heap V} (x : ℕ) {p t G} (hr : VRep h.cell p t G)
    (hd : G.Nodup) (hfr : ∀ y, y ≠ x → ∀ a ∈ fp y, h.cell a = s.heap.cell a) (hdis : ∀ y, y ≠ x → ∀ a ∈ fp y, a ∉ G)
    (hnl : ∀ a, h.cell a ≠ .free → a ∈ G ∨ ∃ y, y ≠ x ∧ a ∈ fp y) (hfresh : ∀ a, h.next ≤ a → h.cell a = .free) :
    R (s.setVar h x p) (σ.set x t) := by
  refine ⟨Function.update fp x G, ?_, ?_, ?_, ?_, ?_⟩
  · intro y
    by_cases e : y = x
    · subst e; simpa [State.setVar, Store.set] using hr
    · simpa [State.setVar, Store.set, e] using (i.rep y).frame (hfr y e)
  · intro y
    by_cases e : y = x
    · subst e; simpa using hd
    · simpa [e] using i.nodup y
  · intro y z hyz a ha
    by_cases e : y = x
    · subst e
      have hz : z ≠ y := fun h => hyz h.symm
      simp only [Function.update_self, Function.update_of_ne hz] at ha ⊢
      exact fun hx => hdis z hz a hx ha
    · by_cases e' : z = x
      · subst e'
        simp only [Function.update_self, Function.update_of_ne e] at ha ⊢
        exact hdis y e a ha
      · simp only [Function.update_of_ne e, Function.update_of_ne e'] at ha ⊢
        exact i.disj y z hyz a ha
  · intro a ha
    rcases hnl a ha with hG | ⟨y, hy, hm⟩
    · exact ⟨x, by simpa using hG⟩
    · exact ⟨y, by simpa [hy] using hm⟩
  · exact hfresh

theorem Inv.heap {s : State V} {σ fp} (i : Inv s σ fp) {h : Heap V} (e : h.cell = s.heap.cell)
    (hn : s.heap.next ≤ h.next) : Inv ⟨h, s.var⟩ σ fp :=
  ⟨fun x => by simpa [e] using i.rep x, i.nodup, i.disj, fun a ha => i.noleak a (by simpa [e] using ha),
    fun a ha => by simpa [e] using i.fresh a (Nat.le_trans hn ha)⟩

/-- Destroying what a variable owns. -/
theorem Inv.reset {s : State V} {σ fp} (i : Inv s σ fp) {x p} (h : s.var x = some p) :
    ∃ h', destroyList s.heap.next s.heap [p] = .ok () h' none ∧ h'.next = s.heap.next ∧
      (∀ a ∈ fp x, h'.cell a = .free) ∧ (∀ a ∉ fp x, h'.cell a = s.heap.cell a) ∧
      R (s.setVar h' x none) (σ.set x none) ∧ R (s.setVar h' x (some none)) (σ.set x (some none)) := by
  obtain ⟨t, _, hr⟩ := i.alive h
  obtain ⟨h', e, n, f, g⟩ := destroyList_spec hr (i.nodup x) (i.len x) (h := s.heap) (fun _ _ => rfl)
  have hfr : ∀ y, y ≠ x → ∀ a ∈ fp y, h'.cell a = s.heap.cell a := fun y hy a ha => g a (i.disj y x hy a ha)
  have hnl : ∀ a, h'.cell a ≠ .free → a ∈ ([] : List ℕ) ∨ ∃ y, y ≠ x ∧ a ∈ fp y := by
    intro a ha
    by_cases hx : a ∈ fp x
    · exact absurd (f a hx) ha
    · rw [g a hx] at ha
      obtain ⟨y, hy⟩ := i.noleak a ha
      exact .inr ⟨y, fun e => hx (e ▸ hy), hy⟩
  have hfresh : ∀ a, h'.next ≤ a → h'.cell a = .free := by
    intro a ha
    rw [n] at ha
    by_cases hx : a ∈ fp x
    · exact f a hx
    · rw [g a hx, i.fresh a ha]
  exact ⟨h', e, n, f, g, i.update x .dead (by simp) hfr (by simp) hnl hfresh,
    i.update x (.alive (.null .nil)) (by simp) hfr (by simp) hnl hfresh⟩

/-- Exchanging two variables. -/
theorem R.swap {s : State V} {σ} (i : R s σ) (x y : ℕ) :
    R ((s.setVar s.heap x (s.var y)).setVar s.heap y (s.var x)) ((σ.set x (σ y)).set y (σ x)) := by
  obtain ⟨fp, i⟩ := i
  let f : ℕ → ℕ := fun z => if z = y then x else if z = x then y else z
  have hf : ∀ z, f (f z) = z := by intro z; simp only [f]; grind
  refine ⟨fun z => fp (f z), ?_, fun z => i.nodup _, ?_, ?_, i.fresh⟩
  · intro z
    have := i.rep (f z)
    by_cases e : z = y
    · subst e; simpa [f, State.setVar, Store.set] using this
    · by_cases e' : z = x
      · subst e'; simpa [f, State.setVar, Store.set, e] using this
      · simpa [f, State.setVar, Store.set, e, e'] using this
  · intro z w hzw a ha
    exact i.disj (f z) (f w) (fun e => hzw (by rw [← hf z, ← hf w, e])) a ha
  · intro a ha
    obtain ⟨z, hz⟩ := i.noleak a ha
    exact ⟨f z, by simpa [hf] using hz⟩

theorem Inv.vars {s : State V} {σ fp} (i : Inv s σ fp) (ys : List ℕ) :
    (s.vars ys = none ∧ σ.all ys = none) ∨
    ∃ ps ts F, s.vars ys = some ps ∧ σ.all ys = some ts ∧ Rep s.heap.cell ps ts F ∧
      F.length ≤ s.heap.next * ps.length := by
  induction ys with
  | nil => exact .inr ⟨[], [], [], rfl, rfl, .nil, by simp⟩
  | cons y ys ih =>
    simp only [State.vars, Store.all, List.mapM_cons] at ih ⊢
    cases hy : s.var y with
    | none => left; simp [i.dead hy]
    | some p =>
      obtain ⟨t, et, hr⟩ := i.alive hy
      rcases ih with ⟨e₁, e₂⟩ | ⟨ps, ts, F, e₁, e₂, r, l⟩
      · left; simp [e₁, e₂, et]
      · right
        obtain ⟨G, hG, hR⟩ := hr.append r
        refine ⟨p :: ps, t :: ts, G, by simp [e₁], by simp [e₂, et], hR, ?_⟩
        have := i.len y
        have h2 := hG.length_eq
        simp only [List.length_append, List.length_cons, Nat.mul_add, Nat.mul_one] at h2 ⊢
        omega

theorem Rep.single {c c' : ℕ → Cell V} {p ps' t F F'} (h : Rep c [p] [t] F) (h' : Rep c' ps' [t] F') :
    ∃ p', ps' = [p'] ∧ (p = none ↔ p' = none) := by
  cases h with
  | null h0 => cases h0; cases h' with | null r => cases r; exact ⟨none, rfl, by simp⟩
  | obj _ _ h0 => cases h0; cases h' with | obj _ _ r => cases r; exact ⟨_, rfl, by simp⟩

/-- Copying one variable. -/
theorem Inv.clone {s : State V} {σ fp} (i : Inv s σ fp) {y p} (h : s.var y = some p) (q : Quota) :
    (∃ h', cloneList s.heap.next q s.heap [p] = .throw h' ∧ R ⟨h', s.var⟩ σ ∧ q ≠ none) ∨
    ∃ t p' h' q' F', σ y = some t ∧ cloneList s.heap.next q s.heap [p] = .ok [p'] h' q' ∧ Rep h'.cell [p'] [t] F' ∧
      (p = none ↔ p' = none) ∧ F'.Nodup ∧ (∀ a ∈ F', s.heap.next ≤ a ∧ a < h'.next) ∧
      (∀ a ∉ F', h'.cell a = s.heap.cell a) ∧
      s.heap.next ≤ h'.next ∧ (∀ a, h'.next ≤ a → h'.cell a = .free) ∧ (∀ x a, a ∈ fp x → a ∉ F') ∧
      (∀ x a, a ∈ fp x → h'.cell a = s.heap.cell a) := by
  obtain ⟨t, et, hr⟩ := i.alive h
  rcases cloneList_spec hr (i.len y) (q := q) (h := s.heap) (fun _ _ => rfl) i.fresh with
    ⟨h', e, e₁, e₂, e₃⟩ | ⟨ps', h', q', F', e, r, d, l, hq, b₁, b₂, b₃⟩
  · exact .inl ⟨h', e, ⟨fp, i.heap e₁ e₂⟩, e₃⟩
  · right
    have hdis : ∀ x a, a ∈ fp x → a ∉ F' := fun x a ha hx => by
      have h1 := i.lt ha; have h2 := (b₁ a hx).1; omega
    have hfr : ∀ a, h'.next ≤ a → h'.cell a = .free := fun a ha => by
      rw [b₂ a fun hx => by have := (b₁ a hx).2; omega, i.fresh a (by omega)]
    obtain ⟨p', rfl, hnone⟩ := hr.single r
    exact ⟨t, p', h', q', F', et, e, r, hnone, d, b₁, b₂, b₃, hfr, hdis, fun x a ha => b₂ a (hdis x a ha)⟩

theorem nav_put {c c' : ℕ → Cell V} {path : List ℕ} {p : Ptr} {t F} (h : Rep c [p] [t] F) (hd : F.Nodup) {a o o'}
    (hn : nav c p path = some (a, o)) (hc : ∀ b, b ≠ a → c' b = c b) (ha : c' a = .live o') :
    nav c' p path = some (a, o') := by
  induction path generalizing p t F with
  | nil =>
    cases h with
    | null h => simp [nav] at hn
    | obj hb h₁ h₂ =>
      simp only [nav, hb, Option.some.injEq, Prod.mk.injEq] at hn
      obtain ⟨rfl, rfl⟩ := hn
      simp [nav, ha]
  | cons i r ih =>
    cases h with
    | null h => simp [nav] at hn
    | @obj b v qs ks F₁ _ _ _ hb h₁ h₂ =>
      cases h₂
      simp only [List.append_nil, List.nodup_cons] at hd
      simp only [nav, hb] at hn
      cases hi : qs[i]? with
      | none => simp [hi] at hn
      | some p' =>
        simp only [hi] at hn
        obtain ⟨t', Fi, Fr, et, hr, hp, _⟩ := h₁.split hi
        have hdi : Fi.Nodup := by
          have := hp.nodup_iff.1 hd.2
          exact (List.nodup_append.1 this).1
        have haF : a ∈ Fi := by
          rcases hr.nav (path := r) with ⟨e, _⟩ | ⟨a', _, _, _, Fk, Fo, e, _, _, _, hp', _⟩
          · rw [e] at hn; cases hn
          · rw [e] at hn
            simp only [Option.some.injEq, Prod.mk.injEq] at hn
            rw [← hn.1]
            exact hp'.symm.subset (by simp)
        have hne : b ≠ a := fun e => hd.1 (e ▸ hp.symm.subset (by simp [haF]))
        have := ih hr hdi hn
        simp [nav, hc b hne, hb, hi, this]

theorem nav_frame {c c' : ℕ → Cell V} {path : List ℕ} {p : Ptr} {t F} (h : Rep c [p] [t] F)
    (hc : ∀ b ∈ F, c' b = c b) : nav c' p path = nav c p path := by
  induction path generalizing p t F with
  | nil =>
    cases h with
    | null h => simp [nav]
    | @obj b _ _ _ _ _ _ _ hb h₁ h₂ => simp [nav, hc b (by simp)]
  | cons i r ih =>
    cases h with
    | null h => simp [nav]
    | @obj b v qs ks F₁ _ _ _ hb h₁ h₂ =>
      cases h₂
      simp only [nav, hc b (by simp), hb]
      cases hi : qs[i]? with
      | none => rfl
      | some p' =>
        obtain ⟨t', Fi, Fr, et, hr, hp, _⟩ := h₁.split hi
        exact ih hr fun x hx => hc x (by simp [hp.symm.subset (show x ∈ Fi ++ Fr by simp [hx])])

/-- Every owned block is reached through some member. -/
theorem Rep.reach {c : ℕ → Cell V} {ps ts F} (h : Rep c ps ts F) {a} (ha : a ∈ F) :
    ∃ (i : ℕ) (p : Ptr) (path : List ℕ) (o : Obj V), ps[i]? = some p ∧ Poly.nav c p path = some (a, o) := by
  induction h with
  | nil => simp at ha
  | null _ ih =>
    obtain ⟨i, p, path, o, e, e'⟩ := ih ha
    exact ⟨i + 1, p, path, o, by simpa using e, e'⟩
  | @obj b v qs ks F₁ ps ts F₂ hb _ _ ih₁ ih₂ =>
    simp only [List.mem_cons, List.mem_append] at ha
    rcases ha with rfl | ha | ha
    · exact ⟨0, some a, [], ⟨v, qs⟩, by simp, by simp [Poly.nav, hb]⟩
    · obtain ⟨i, p, path, o, e, e'⟩ := ih₁ ha
      exact ⟨0, some b, i :: path, o, by simp, by simp [Poly.nav, hb, e, e']⟩
    · obtain ⟨i, p, path, o, e, e'⟩ := ih₂ ha
      exact ⟨i + 1, p, path, o, by simpa using e, e'⟩

theorem Rep.nav_mem {c : ℕ → Cell V} {path : List ℕ} {p : Ptr} {t F} (h : Rep c [p] [t] F) {a o}
    (hn : Poly.nav c p path = some (a, o)) : a ∈ F := by
  rcases h.nav (path := path) with ⟨e, _⟩ | ⟨a', _, _, _, Fk, Fo, e, _, _, _, hp', _⟩
  · rw [e] at hn; cases hn
  · rw [e] at hn
    simp only [Option.some.injEq, Prod.mk.injEq] at hn
    rw [← hn.1]
    exact hp'.symm.subset (by simp)

/-- No block is reached through two members. -/
theorem Rep.nav_inj {c : ℕ → Cell V} {path path' : List ℕ} {p : Ptr} {t F} (h : Rep c [p] [t] F) (hd : F.Nodup) {a o o'}
    (hn : Poly.nav c p path = some (a, o)) (hn' : Poly.nav c p path' = some (a, o')) : path = path' := by
  induction path generalizing path' p t F with
  | nil =>
    cases path' with
    | nil => rfl
    | cons i r =>
      exfalso
      cases h with
      | null h => simp [Poly.nav] at hn
      | @obj b v qs ks F₁ _ _ _ hb h₁ h₂ =>
        cases h₂
        simp only [List.append_nil, List.nodup_cons] at hd
        simp only [Poly.nav, hb, Option.some.injEq, Prod.mk.injEq] at hn hn'
        cases hi : qs[i]? with
        | none => simp [hi] at hn'
        | some p' =>
          simp only [hi] at hn'
          obtain ⟨t', Fi, Fr, et, hr, hp, _⟩ := h₁.split hi
          have := hr.nav_mem hn'
          exact hd.1 (hn.1 ▸ hp.symm.subset (by simp [this]))
  | cons i r ih =>
    cases h with
    | null h => simp [Poly.nav] at hn
    | @obj b v qs ks F₁ _ _ _ hb h₁ h₂ =>
      cases h₂
      simp only [List.append_nil, List.nodup_cons] at hd
      simp only [Poly.nav, hb] at hn
      cases hi : qs[i]? with
      | none => simp [hi] at hn
      | some p₁ =>
        simp only [hi] at hn
        obtain ⟨t₁, Fi, Fr, et₁, hr₁, hp₁, H⟩ := h₁.split hi
        have hai := hr₁.nav_mem hn
        cases path' with
        | nil =>
          exfalso
          simp only [Poly.nav, hb, Option.some.injEq, Prod.mk.injEq] at hn'
          exact hd.1 (hn'.1 ▸ hp₁.symm.subset (by simp [hai]))
        | cons j r' =>
          simp only [Poly.nav, hb] at hn'
          cases hj : qs[j]? with
          | none => simp [hj] at hn'
          | some p₂ =>
            simp only [hj] at hn'
            have hdp := hp₁.nodup_iff.1 hd.2
            rw [List.nodup_append] at hdp
            by_cases hij : i = j
            · subst hij
              rw [hi] at hj
              cases hj
              rw [ih hr₁ hdp.1 hn hn']
            · exfalso
              obtain ⟨G, hG, hR⟩ := H c none none [] (fun _ _ => rfl) (.null .nil)
              obtain ⟨t₂, Fj, Fr', _, hr₂, hp₂, _⟩ := hR.split (i := j) (p := p₂) (by
                rw [List.getElem?_set_ne hij, hj])
              have haj := hr₂.nav_mem hn'
              have : a ∈ Fr := by
                have := hG.subset (hp₂.symm.subset (show a ∈ Fj ++ Fr' by simp [haj]))
                simpa using this
              exact hdp.2.2 a hai a this rfl

end Aligator.Poly
