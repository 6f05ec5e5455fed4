import Verif.Spec.EvalData
import Verif.Lemmas.QViews

/-!
# Lemmas: evaluation data
-/

namespace Aligator.EvalData

open QView (Mem Dense View Holds index_inj index_lt holds_replicate)
open Spec

variable {K : Type}

/-- The matrices of the code have the sizes of the specification. -/
theorem layout_bufs (k : Kind) : k.layout.bufs = sizes k := by
  cases k <;> rfl

/-- The views of the code are the named blocks of the specification. -/
theorem layout_subs (k : Kind) : k.layout.subs = (names k).map fun t => ⟨t.1, t.2.1.first k, t.2.2.first k, t.2.1.size k, t.2.2.size k⟩ := by
  cases k <;> simp [Kind.layout, costLayout, fnLayout, dynLayout, corner, names, Ax.first, Ax.size, start, dim, vals]

/-- The named blocks lie in their matrices. -/
theorem names_inside (k : Kind) : ∀ t ∈ names k, ∃ R C, (sizes k)[t.1]? = some (R, C) ∧ t.2.1.first k + t.2.1.size k ≤ R ∧
    t.2.2.first k + t.2.2.size k ≤ C := by
  cases k <;> simp [names, sizes, Ax.first, Ax.size, start, dim, vals, total] <;> omega

theorem allocAll_spec (j : ℕ → ℕ → K) : ∀ (bs : List (ℕ × ℕ)) (h : Mem K),
    (allocAll j h bs).1.length = bs.length ∧ (allocAll j h bs).2.next = h.next + bs.length ∧
    (∀ (i : ℕ) (p : ℕ × ℕ), bs[i]? = some p → (allocAll j h bs).1[i]? = some ⟨h.next + i, p.1, p.2⟩ ∧
      ∃ l, (allocAll j h bs).2.cell (h.next + i) = some l ∧ l.length = p.1 * p.2) ∧
    ∀ a, a < h.next → (allocAll j h bs).2.cell a = h.cell a := by
  intro bs
  induction bs with
  | nil => intro h; simp [allocAll]
  | cons t bs ih =>
    obtain ⟨R, C⟩ := t
    intro h
    obtain ⟨h1, h2, h3, h4⟩ := ih (h.alloc j (R * C)).2
    have hn : (h.alloc j (R * C)).2.next = h.next + 1 := rfl
    rw [hn] at h2 h3 h4
    refine ⟨by simp [allocAll, h1], by simp [allocAll, h2]; omega, ?_, ?_⟩
    · intro i p hp
      rcases i with _ | i
      · simp only [List.getElem?_cons_zero, Option.some.injEq] at hp
        subst hp
        refine ⟨rfl, ?_⟩
        show ∃ l, (allocAll j (h.alloc j (R * C)).2 bs).2.cell (h.next + 0) = some l ∧ _
        rw [h4 _ (by omega)]
        exact ⟨_, Function.update_self .., by simp⟩
      · rw [List.getElem?_cons_succ] at hp
        obtain ⟨a, b⟩ := h3 i p hp
        have e : h.next + 1 + i = h.next + (i + 1) := by omega
        rw [e] at a b
        exact ⟨by simpa [allocAll] using a, b⟩
    · intro a ha
      show (allocAll j (h.alloc j (R * C)).2 bs).2.cell a = _
      rw [h4 a (by omega)]
      exact Function.update_of_ne (by omega) _ _

theorem bindAll_spec (ds : List Dense) : ∀ ss : List Sub,
    (∀ s ∈ ss, ∃ d, ds[s.buf]? = some d ∧ s.r0 + s.nr ≤ d.rows ∧ s.c0 + s.nc ≤ d.cols) →
    ∃ vs, bindAll ds ss = some vs ∧ vs.length = ss.length ∧
      ∀ (n : ℕ) (s : Sub), ss[n]? = some s → ∃ d, ds[s.buf]? = some d ∧
        vs[n]? = some ⟨d.addr, s.r0 + s.c0 * d.rows, s.nr, s.nc, d.rows⟩ := by
  intro ss
  induction ss with
  | nil => intro _; exact ⟨[], rfl, rfl, by simp⟩
  | cons s ss ih =>
    intro H
    obtain ⟨vs, e, hl, hv⟩ := ih fun t ht => H t (List.mem_cons_of_mem _ ht)
    obtain ⟨d, hd, h1, h2⟩ := H s List.mem_cons_self
    refine ⟨⟨d.addr, s.r0 + s.c0 * d.rows, s.nr, s.nc, d.rows⟩ :: vs, ?_, by simp [hl], ?_⟩
    · simp only [bindAll, hd, Option.bind_eq_bind, Option.bind_some, Dense.block, if_pos (And.intro h1 h2), e]
    · intro n t ht
      rcases n with _ | n
      · simp only [List.getElem?_cons_zero, Option.some.injEq] at ht
        subst ht
        exact ⟨d, hd, rfl⟩
      · rw [List.getElem?_cons_succ] at ht
        simpa using hv n t ht

theorem zeroAll_spec [Zero K] : ∀ (ds : List Dense) (h : Mem K),
    (∀ d ∈ ds, ∃ l, h.cell d.addr = some l ∧ l.length = d.rows * d.cols) →
    ∃ h', zeroAll h ds = some h' ∧ h'.next = h.next ∧
      (∀ d ∈ ds, h'.cell d.addr = some (List.replicate (d.rows * d.cols) 0)) ∧
      ∀ a, (∀ d ∈ ds, d.addr ≠ a) → h'.cell a = h.cell a := by
  intro ds
  induction ds with
  | nil => intro h _; exact ⟨h, rfl, rfl, by simp, by simp⟩
  | cons d ds ih =>
    intro h H
    obtain ⟨l, hl, hn⟩ := H d List.mem_cons_self
    let h1 : Mem K := ⟨h.next, Function.update h.cell d.addr (some (List.replicate (d.rows * d.cols) 0))⟩
    have e1 : h.fill d.addr (List.replicate (d.rows * d.cols) 0) = some h1 := by
      unfold Mem.fill
      rw [hl]
      simp [hn, h1]
    have H1 : ∀ d' ∈ ds, ∃ l, h1.cell d'.addr = some l ∧ l.length = d'.rows * d'.cols := by
      intro d' hd'
      obtain ⟨l', hl', hn'⟩ := H d' (List.mem_cons_of_mem _ hd')
      by_cases e : d'.addr = d.addr
      · refine ⟨List.replicate (d.rows * d.cols) 0, by rw [e]; exact Function.update_self .., ?_⟩
        rw [e, hl] at hl'
        cases hl'
        rw [List.length_replicate, ← hn, hn']
      · exact ⟨l', by rw [← hl']; exact Function.update_of_ne e _ _, hn'⟩
    obtain ⟨h', e2, hx, hz, ho⟩ := ih h1 H1
    refine ⟨h', ?_, hx, ?_, ?_⟩
    · simp only [zeroAll, e1, Option.bind_eq_bind, Option.bind_some, e2]
    · intro d' hd'
      rcases List.mem_cons.1 hd' with rfl | hd'
      · by_cases e : ∃ t ∈ ds, t.addr = d'.addr
        · obtain ⟨t, ht, e⟩ := e
          obtain ⟨l2, hl2, hn2⟩ := H t (List.mem_cons_of_mem _ ht)
          rw [e, hl] at hl2
          cases hl2
          rw [← e, hz t ht, ← hn2, hn]
        · rw [ho _ fun t ht he => e ⟨t, ht, he⟩]
          exact Function.update_self ..
      · exact hz d' hd'
    · intro a ha
      rw [ho a fun t ht => ha t (List.mem_cons_of_mem _ ht)]
      exact Function.update_of_ne (fun e => ha d List.mem_cons_self e.symm) _ _

theorem freeAll_spec : ∀ (ds : List Dense) (h : Mem K), (freeAll h ds).next = h.next ∧
    ∀ a, (∀ d ∈ ds, d.addr ≠ a) → (freeAll h ds).cell a = h.cell a := by
  intro ds
  induction ds with
  | nil => intro h; simp [freeAll]
  | cons d ds ih =>
    intro h
    obtain ⟨h1, h2⟩ := ih (h.free d.addr)
    refine ⟨h1, fun a ha => ?_⟩
    show (freeAll (h.free d.addr) ds).cell a = _
    rw [h2 a fun t ht => ha t (List.mem_cons_of_mem _ ht)]
    exact Function.update_of_ne (fun e => ha d List.mem_cons_self e.symm) _ _

theorem freeAll_freed : ∀ (ds : List Dense) (h : Mem K) (a : ℕ), (∃ d ∈ ds, d.addr = a) → (freeAll h ds).cell a = none := by
  intro ds
  induction ds with
  | nil => intro h a ⟨d, hd, _⟩; cases hd
  | cons d ds ih =>
    intro h a ⟨t, ht, e⟩
    by_cases hin : ∃ t ∈ ds, t.addr = a
    · exact ih _ a hin
    · show (freeAll (h.free d.addr) ds).cell a = none
      rw [(freeAll_spec ds _).2 a fun v hv ev => hin ⟨v, hv, ev⟩]
      rcases List.mem_cons.1 ht with rfl | ht
      · rw [← e]
        exact Function.update_self ..
      · exact absurd ⟨t, ht, e⟩ hin

/-- An object in memory has a value; `own` says to whom the cells belong. -/
structure Rep (h : Mem K) (own : ℕ → Option (ℕ × ℕ)) (a : ℕ) (o : Obj) (v : Val K) : Prop where
  nb : o.bufs.length = (sizes v.kind).length
  nv : o.views.length = (names v.kind).length
  bufs : ∀ (b : ℕ) (d : Dense), o.bufs[b]? = some d → own d.addr = some (a, b) ∧ d.addr < h.next ∧
    ∃ R C, (sizes v.kind)[b]? = some (R, C) ∧ Holds h d R C (v.f b)
  views : ∀ (n : ℕ) t, (names v.kind)[n]? = some t → ∃ d, o.bufs[t.1]? = some d ∧
    o.views[n]? = some ⟨d.addr, t.2.1.first v.kind + t.2.2.first v.kind * d.rows, t.2.1.size v.kind, t.2.2.size v.kind, d.rows⟩

theorem Rep.frame {h h' : Mem K} {own own' : ℕ → Option (ℕ × ℕ)} {a : ℕ} {o : Obj} {v : Val K} (R : Rep h own a o v)
    (hn : h.next ≤ h'.next) (hc : ∀ e b, e < h.next → own e = some (a, b) → h'.cell e = h.cell e ∧ own' e = own e) :
    Rep h' own' a o v := by
  refine ⟨R.nb, R.nv, ?_, R.views⟩
  intro b d hd
  obtain ⟨h1, h2, RR, CC, h3, h4⟩ := R.bufs b d hd
  obtain ⟨e1, e2⟩ := hc _ b h2 h1
  exact ⟨e2.trans h1, h2.trans_le hn, RR, CC, h3, h4.frame e1⟩

theorem Rep.view_index {h : Mem K} {own : ℕ → Option (ℕ × ℕ)} {a : ℕ} {o : Obj} {v : Val K} (R : Rep h own a o v) {n : ℕ}
    {t : ℕ × Ax × Ax} (ht : (names v.kind)[n]? = some t) : ∃ d RR CC, o.bufs[t.1]? = some d ∧ (sizes v.kind)[t.1]? = some (RR, CC) ∧
      d.rows = RR ∧ d.cols = CC ∧ t.2.1.first v.kind + t.2.1.size v.kind ≤ RR ∧ t.2.2.first v.kind + t.2.2.size v.kind ≤ CC ∧
      Holds h d RR CC (v.f t.1) ∧
      o.views[n]? = some ⟨d.addr, t.2.1.first v.kind + t.2.2.first v.kind * RR, t.2.1.size v.kind, t.2.2.size v.kind, RR⟩ := by
  obtain ⟨d, hd, hv⟩ := R.views n t ht
  obtain ⟨RR, CC, hs, i1, i2⟩ := names_inside v.kind t (List.mem_of_getElem? ht)
  obtain ⟨-, -, R', C', hs', H⟩ := R.bufs _ d hd
  rw [hs] at hs'
  cases hs'
  refine ⟨d, RR, CC, hd, hs, H.1, H.2.1, i1, i2, H, ?_⟩
  rw [hv, H.1]

theorem Rep.shows {h : Mem K} {own : ℕ → Option (ℕ × ℕ)} {a : ℕ} {o : Obj} {v : Val K} (R : Rep h own a o v) : Shows h o v := by
  refine ⟨R.nb, R.nv, ?_, ?_⟩
  · intro b d RR CC hd hs
    obtain ⟨-, -, R', C', hs', H⟩ := R.bufs b d hd
    rw [hs] at hs'
    cases hs'
    refine ⟨H.1, H.2.1, fun r hr c hc => ?_⟩
    unfold Dense.load
    rw [H.1, H.2.1, if_pos ⟨hr, hc⟩]
    exact H.load hr hc
  · intro n w b p q hw hn
    obtain ⟨d, RR, CC, -, -, e1, e2, i1, i2, H, hv⟩ := R.view_index hn
    rw [hv] at hw
    cases hw
    refine ⟨rfl, rfl, fun r hr c hc => ?_⟩
    unfold View.load
    rw [if_pos ⟨hr, hc⟩]
    have := H.load (r := p.first v.kind + r) (c := q.first v.kind + c) (by simp only at i1; omega) (by simp only at i2; omega)
    rw [← this]
    congr 1
    simp only
    ring

/-- A write of one coefficient. -/
theorem Rep.put {h h' : Mem K} {own : ℕ → Option (ℕ × ℕ)} {a : ℕ} {o : Obj} {v : Val K} (R : Rep h own a o v) {b : ℕ} {d : Dense}
    (hd : o.bufs[b]? = some d) {RR CC r c : ℕ} (hs : (sizes v.kind)[b]? = some (RR, CC)) {x : K} (hn : h'.next = h.next)
    (hh : Holds h' d RR CC (fun k l => if k = r ∧ l = c then x else v.f b k l)) (ho : ∀ e, e ≠ d.addr → h'.cell e = h.cell e) :
    Rep h' own a o (v.put b r c x) := by
  refine ⟨R.nb, R.nv, ?_, R.views⟩
  intro b' d' hd'
  obtain ⟨h1, h2, R', C', h3, h4⟩ := R.bufs b' d' hd'
  refine ⟨h1, by rw [hn]; exact h2, R', C', h3, ?_⟩
  by_cases e : b' = b
  · subst e
    rw [hd] at hd'
    cases hd'
    rw [hs] at h3
    cases h3
    have : (v.put b' r c x).f b' = fun k l => if k = r ∧ l = c then x else v.f b' k l := by
      funext k l
      simp [Val.put]
    rw [this]
    exact hh
  · have : (v.put b r c x).f b' = v.f b' := by
      funext k l
      simp [Val.put, e]
    rw [this]
    refine h4.frame (ho _ fun ea => ?_)
    have h5 := (R.bufs b d hd).1
    rw [← ea, h1] at h5
    cases h5
    exact e rfl

end Aligator.EvalData
