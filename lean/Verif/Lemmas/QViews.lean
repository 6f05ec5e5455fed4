import Verif.Spec.QViews
import Mathlib.Tactic.Ring
import Mathlib.Tactic.Linarith

/-!
# Lemmas: Q-functions as values
-/

namespace Aligator.QView

open Spec

variable {K : Type}

/-- A matrix holds the coefficients `f`. -/
def Holds (h : Mem K) (m : Dense) (R C : ℕ) (f : ℕ → ℕ → K) : Prop :=
  m.rows = R ∧ m.cols = C ∧
    ∃ l, h.cell m.addr = some l ∧ l.length = R * C ∧ ∀ r < R, ∀ c < C, l[r + c * R]? = some (f r c)

theorem Holds.load {h : Mem K} {m : Dense} {R C : ℕ} {f : ℕ → ℕ → K} (H : Holds h m R C f) {r c : ℕ} (hr : r < R)
    (hc : c < C) : h.load m.addr (r + c * R) = some (f r c) := by
  obtain ⟨_, _, l, hl, _, hf⟩ := H
  unfold Mem.load
  rw [hl]
  exact hf r hr c hc

theorem Holds.frame {h h' : Mem K} {m : Dense} {R C : ℕ} {f : ℕ → ℕ → K} (H : Holds h m R C f)
    (he : h'.cell m.addr = h.cell m.addr) : Holds h' m R C f := by
  obtain ⟨h1, h2, l, hl, h3, hf⟩ := H
  exact ⟨h1, h2, l, he.trans hl, h3, hf⟩

theorem index_inj {R r c r' c' : ℕ} (hr : r < R) (hr' : r' < R) (he : r + c * R = r' + c' * R) : r = r' ∧ c = c' := by
  have h1 : r = r' := by
    have := congrArg (· % R) he
    simpa [Nat.add_mul_mod_self_right, Nat.mod_eq_of_lt hr, Nat.mod_eq_of_lt hr'] using this
  subst h1
  have h2 : c * R = c' * R := by omega
  exact ⟨rfl, Nat.eq_of_mul_eq_mul_right (by omega) h2⟩

theorem index_lt {R C r c : ℕ} (hr : r < R) (hc : c < C) : r + c * R < R * C := by
  have h1 : (c + 1) * R ≤ C * R := Nat.mul_le_mul_right R hc
  have h2 : (c + 1) * R = c * R + R := by ring
  have h3 : C * R = R * C := Nat.mul_comm C R
  omega

/-- Writing one coefficient. -/
theorem Holds.store {h : Mem K} {m : Dense} {R C : ℕ} {f : ℕ → ℕ → K} (H : Holds h m R C f) {r c : ℕ} (hr : r < R)
    (hc : c < C) (x : K) : ∃ h', h.store m.addr (r + c * R) x = some h' ∧ h'.next = h.next ∧
      Holds h' m R C (fun k l => if k = r ∧ l = c then x else f k l) ∧ ∀ a, a ≠ m.addr → h'.cell a = h.cell a := by
  obtain ⟨h1, h2, l, hl, h3, hf⟩ := H
  have hlt := index_lt hr hc
  refine ⟨⟨h.next, Function.update h.cell m.addr (some (l.set (r + c * R) x))⟩, by
    unfold Mem.store; rw [hl]; dsimp only; rw [if_pos (by rw [h3]; exact hlt)], rfl, ?_, ?_⟩
  · refine ⟨h1, h2, _, Function.update_self .., by simpa using h3, ?_⟩
    intro k hk i hi
    rw [List.getElem?_set]
    by_cases hq : k = r ∧ i = c
    · obtain ⟨rfl, rfl⟩ := hq
      simp [h3, hlt]
    · have : r + c * R ≠ k + i * R := fun e => hq (by
        obtain ⟨e1, e2⟩ := index_inj hr hk e
        exact ⟨e1.symm, e2.symm⟩)
      rw [if_neg this]
      dsimp only
      rw [if_neg hq]
      exact hf k hk i hi
  · intro a ha
    exact Function.update_of_ne ha _ _

theorem holds_replicate {h : Mem K} {m : Dense} {R C : ℕ} {x : K} (h1 : m.rows = R) (h2 : m.cols = C)
    (hc : h.cell m.addr = some (List.replicate (R * C) x)) : Holds h m R C (fun _ _ => x) := by
  refine ⟨h1, h2, _, hc, by simp, ?_⟩
  intro r hr c hc'
  have := index_lt hr hc'
  simp [this]

/-- Assignment of a matrix copies the coefficients into the old buffer or into a new one. -/
theorem Dense.assign_spec (j : ℕ → ℕ → K) {h : Mem K} {m o : Dense} {R C R' C' : ℕ} {f f' : ℕ → ℕ → K}
    (Hm : Holds h m R' C' f') (Ho : Holds h o R C f) (hm : m.addr < h.next) (ho : o.addr < h.next)
    (hs : m.addr = o.addr → R' * C' = R * C) :
    ∃ m' h', m.assign j h o = some (m', h') ∧ Holds h' m' R C f ∧ h.next ≤ h'.next ∧
      (m'.addr = m.addr ∨ h.next ≤ m'.addr) ∧ m'.addr < h'.next ∧
      ∀ a, a ≠ m.addr → a < h.next → h'.cell a = h.cell a := by
  obtain ⟨m1, m2, lm, hlm, m3, -⟩ := Hm
  obtain ⟨o1, o2, lo, hlo, o3, hf⟩ := Ho
  unfold Dense.assign
  rw [m1, m2, o1, o2]
  by_cases he : R' * C' = R * C
  · rw [if_pos he, hlo]
    dsimp only
    refine ⟨⟨m.addr, R, C⟩, ⟨h.next, Function.update h.cell m.addr (some lo)⟩, ?_, ⟨rfl, rfl, lo, Function.update_self .., o3, hf⟩,
      le_refl _, Or.inl rfl, hm, fun a ha _ => Function.update_of_ne ha _ _⟩
    unfold Mem.fill
    rw [hlm]
    dsimp only
    rw [if_pos (by rw [m3, o3, he])]
    rfl
  · rw [if_neg he]
    have hne : m.addr ≠ o.addr := fun e => he (hs e)
    have hn : h.next ≠ o.addr := by omega
    dsimp only [Mem.alloc, Mem.free]
    rw [Function.update_of_ne hn.symm, Function.update_of_ne hne.symm, hlo]
    dsimp only [Mem.fill]
    rw [Function.update_self]
    dsimp only
    rw [if_pos (by simp [o3])]
    refine ⟨_, _, rfl, ⟨rfl, rfl, lo, Function.update_self .., o3, hf⟩, Nat.le_succ _, Or.inr (le_refl _), Nat.lt_succ_self _, ?_⟩
    intro a ha hlt
    dsimp only
    rw [Function.update_of_ne (by omega : a ≠ h.next), Function.update_of_ne (by omega : a ≠ h.next), Function.update_of_ne ha]

/-- The shapes that the dimensions ask for. -/
def Shaped (o : QFun K) : Prop :=
  o.grad.rows = o.ndx + o.nu ∧ o.grad.cols = 1 ∧ o.hess.rows = o.ndx + o.nu + o.ndy ∧ o.hess.cols = o.ndx + o.nu + o.ndy

/-- The views are blocks of the object's own matrices. -/
def Views (o : QFun K) : Prop :=
  o.Qx = ⟨o.grad.addr, 0, o.ndx, 1, o.grad.rows⟩ ∧
  o.Qu = ⟨o.grad.addr, o.ndx, o.nu, 1, o.grad.rows⟩ ∧
  o.Qxx = ⟨o.hess.addr, 0, o.ndx, o.ndx, o.hess.rows⟩ ∧
  o.Qxu = ⟨o.hess.addr, o.ndx * o.hess.rows, o.ndx, o.nu, o.hess.rows⟩ ∧
  o.Qxy = ⟨o.hess.addr, (o.ndx + o.nu) * o.hess.rows, o.ndx, o.ndy, o.hess.rows⟩ ∧
  o.Quu = ⟨o.hess.addr, o.ndx + o.ndx * o.hess.rows, o.nu, o.nu, o.hess.rows⟩ ∧
  o.Quy = ⟨o.hess.addr, o.ndx + (o.ndx + o.nu) * o.hess.rows, o.nu, o.ndy, o.hess.rows⟩ ∧
  o.Qyy = ⟨o.hess.addr, o.ndx + o.nu + (o.ndx + o.nu) * o.hess.rows, o.ndy, o.ndy, o.hess.rows⟩

/-- Same members other than the views. -/
def SameCore (o p : QFun K) : Prop :=
  o.ndx = p.ndx ∧ o.nu = p.nu ∧ o.ndy = p.ndy ∧ o.q = p.q ∧ o.grad = p.grad ∧ o.hess = p.hess

theorem redef_spec {o : QFun K} (hs : Shaped o) :
    ∃ o', o.redefRefs = some o' ∧ SameCore o' o ∧ Views o' := by
  obtain ⟨h1, h2, h3, h4⟩ := hs
  have hsub : o.ndx + o.nu + o.ndy - o.ndy = o.ndx + o.nu := by omega
  unfold QFun.redefRefs Dense.block
  rw [h1, h2, h3, h4, hsub]
  rw [if_pos ⟨by omega, by omega⟩, if_pos ⟨by omega, by omega⟩, if_pos ⟨by omega, by omega⟩, if_pos ⟨by omega, by omega⟩,
    if_pos ⟨by omega, by omega⟩, if_pos ⟨by omega, by omega⟩, if_pos ⟨by omega, by omega⟩, if_pos ⟨by omega, by omega⟩]
  refine ⟨_, rfl, ⟨rfl, rfl, rfl, rfl, rfl, rfl⟩, ?_⟩
  unfold Views
  simp [h1, h3]

/-- Object `o` represents the value `v`. -/
structure Rep (h : Mem K) (o : QFun K) (v : QVal K) : Prop where
  dims : o.ndx = v.ndx ∧ o.nu = v.nu ∧ o.ndy = v.ndy ∧ o.q = v.q
  grad : Holds h o.grad (v.ndx + v.nu) 1 (fun r _ => v.g r)
  hess : Holds h o.hess (v.ndx + v.nu + v.ndy) (v.ndx + v.nu + v.ndy) v.H
  views : Views o
  gnext : o.grad.addr < h.next
  hnext : o.hess.addr < h.next
  sep : o.grad.addr ≠ o.hess.addr

theorem Rep.shaped {h : Mem K} {o : QFun K} {v : QVal K} (R : Rep h o v) : Shaped o := by
  obtain ⟨d1, d2, d3, -⟩ := R.dims
  exact ⟨by rw [R.grad.1, d1, d2], R.grad.2.1, by rw [R.hess.1, d1, d2, d3], by rw [R.hess.2.1, d1, d2, d3]⟩

theorem Rep.frame {h h' : Mem K} {o : QFun K} {v : QVal K} (R : Rep h o v) (hn : h.next ≤ h'.next)
    (hg : h'.cell o.grad.addr = h.cell o.grad.addr) (hh : h'.cell o.hess.addr = h.cell o.hess.addr) : Rep h' o v :=
  ⟨R.dims, R.grad.frame hg, R.hess.frame hh, R.views, lt_of_lt_of_le R.gnext hn, lt_of_lt_of_le R.hnext hn, R.sep⟩

theorem Rep.shows {h : Mem K} {o : QFun K} {v : QVal K} (R : Rep h o v) : Shows h o v := by
  have hs := R.shaped
  obtain ⟨d1, d2, d3, dq⟩ := R.dims
  obtain ⟨v1, v2, v3, v4, v5, v6, v7, v8⟩ := R.views
  have hgr : o.grad.rows = v.ndx + v.nu := R.grad.1
  have hhr : o.hess.rows = v.ndx + v.nu + v.ndy := R.hess.1
  refine ⟨⟨d1, d2, d3, dq⟩, ⟨hgr, R.grad.2.1, hhr, R.hess.2.1⟩, ?_, ?_, ?_, ?_, ?_, ?_⟩
  · intro i hi
    unfold Dense.load
    rw [if_pos ⟨by rw [hgr]; exact hi, by rw [R.grad.2.1]; exact Nat.one_pos⟩, hgr]
    exact R.grad.load hi Nat.one_pos
  · intro r hr c hc
    unfold Dense.load
    rw [if_pos ⟨by rw [hhr]; exact hr, by rw [R.hess.2.1]; exact hc⟩, hhr]
    exact R.hess.load hr hc
  · have hG : ∀ k < v.ndx + v.nu, ∀ n, n = k → h.load o.grad.addr n = some (v.g k) := by
      intro k hk n hn
      have := R.grad.load hk Nat.one_pos
      rw [hn]
      simpa using this
    have hH : ∀ r < v.ndx + v.nu + v.ndy, ∀ c < v.ndx + v.nu + v.ndy, ∀ n, n = r + c * (v.ndx + v.nu + v.ndy) →
        h.load o.hess.addr n = some (v.H r c) := by
      intro r hr c hc n hn
      rw [hn]
      exact R.hess.load hr hc
    intro b
    cases b <;> dsimp only [QFun.view, rowVar, colVar, QVal.dim, QVal.width, QVal.coef, QVal.start]
    · rw [v1]
      refine ⟨d1, rfl, fun r hr c hc => ?_⟩
      unfold View.load
      rw [if_pos ⟨by dsimp only; omega, hc⟩]
      exact hG (0 + r) (by omega) _ (by dsimp only; obtain rfl : c = 0 := by omega
                                        omega)
    · rw [v2]
      refine ⟨d2, rfl, fun r hr c hc => ?_⟩
      unfold View.load
      rw [if_pos ⟨by dsimp only; omega, hc⟩]
      exact hG (v.ndx + r) (by omega) _ (by dsimp only; obtain rfl : c = 0 := by omega
                                            omega)
    · rw [v3]
      refine ⟨d1, d1, fun r hr c hc => ?_⟩
      unfold View.load
      rw [if_pos ⟨by dsimp only; omega, by dsimp only; omega⟩]
      exact hH (0 + r) (by omega) (0 + c) (by omega) _ (by dsimp only; rw [hhr]; ring)
    · rw [v4]
      refine ⟨d1, d2, fun r hr c hc => ?_⟩
      unfold View.load
      rw [if_pos ⟨by dsimp only; omega, by dsimp only; omega⟩]
      exact hH (0 + r) (by omega) (v.ndx + c) (by omega) _ (by dsimp only; rw [hhr, d1]; ring)
    · rw [v5]
      refine ⟨d1, d3, fun r hr c hc => ?_⟩
      unfold View.load
      rw [if_pos ⟨by dsimp only; omega, by dsimp only; omega⟩]
      exact hH (0 + r) (by omega) (v.ndx + v.nu + c) (by omega) _ (by dsimp only; rw [hhr, d1, d2]; ring)
    · rw [v6]
      refine ⟨d2, d2, fun r hr c hc => ?_⟩
      unfold View.load
      rw [if_pos ⟨by dsimp only; omega, by dsimp only; omega⟩]
      exact hH (v.ndx + r) (by omega) (v.ndx + c) (by omega) _ (by dsimp only; rw [hhr, d1]; ring)
    · rw [v7]
      refine ⟨d2, d3, fun r hr c hc => ?_⟩
      unfold View.load
      rw [if_pos ⟨by dsimp only; omega, by dsimp only; omega⟩]
      exact hH (v.ndx + r) (by omega) (v.ndx + v.nu + c) (by omega) _ (by dsimp only; rw [hhr, d1, d2]; ring)
    · rw [v8]
      refine ⟨d3, d3, fun r hr c hc => ?_⟩
      unfold View.load
      rw [if_pos ⟨by dsimp only; omega, by dsimp only; omega⟩]
      exact hH (v.ndx + v.nu + r) (by omega) (v.ndx + v.nu + c) (by omega) _ (by dsimp only; rw [hhr, d1, d2]; ring)
  · intro i c hn
    unfold Dense.load
    refine if_neg fun hc => hn ?_
    rw [hgr, R.grad.2.1] at hc
    omega
  · intro r c hn
    unfold Dense.load
    refine if_neg fun hc => hn ?_
    rw [hhr, R.hess.2.1] at hc
    exact hc
  · intro b r c hn
    unfold View.load
    refine if_neg fun hc => hn ?_
    revert hc
    cases b <;> dsimp only [QFun.view, rowVar, colVar, QVal.dim, QVal.width] <;>
      simp only [v1, v2, v3, v4, v5, v6, v7, v8] <;> omega

/-- Construction. -/
theorem new_spec [Zero K] (j : ℕ → ℕ → K) (h : Mem K) (ndx nu ndy : ℕ) :
    ∃ o h', QFun.new j h ndx nu ndy = some (o, h') ∧ Rep h' o (zeroVal ndx nu ndy) ∧ h.next ≤ h'.next ∧
      o.grad.addr = h.next ∧ o.hess.addr = h.next + 1 ∧ ∀ a < h.next, h'.cell a = h.cell a := by
  have hsub : ndx + nu + ndy - ndy = ndx + nu := by omega
  unfold QFun.new Dense.block Mem.alloc
  dsimp only
  rw [hsub]
  rw [if_pos ⟨by omega, by omega⟩, if_pos ⟨by omega, by omega⟩, if_pos ⟨by omega, by omega⟩, if_pos ⟨by omega, by omega⟩,
    if_pos ⟨by omega, by omega⟩, if_pos ⟨by omega, by omega⟩, if_pos ⟨by omega, by omega⟩, if_pos ⟨by omega, by omega⟩]
  have h1 : h.next ≠ h.next + 1 := by omega
  have e1 : (⟨h.next + 1 + 1, Function.update (Function.update h.cell h.next (some (List.map (j h.next) (List.range (ndx + nu)))))
      (h.next + 1) (some (List.map (j (h.next + 1)) (List.range ((ndx + nu + ndy) * (ndx + nu + ndy)))))⟩ : Mem K).fill h.next
        (List.replicate (ndx + nu) 0) = some ⟨h.next + 1 + 1, Function.update (Function.update (Function.update h.cell h.next
          (some (List.map (j h.next) (List.range (ndx + nu))))) (h.next + 1)
            (some (List.map (j (h.next + 1)) (List.range ((ndx + nu + ndy) * (ndx + nu + ndy)))))) h.next
              (some (List.replicate (ndx + nu) 0))⟩ := by
    unfold Mem.fill
    dsimp only
    rw [Function.update_of_ne h1, Function.update_self]
    dsimp only
    rw [if_pos (by simp)]
  have e2 : (⟨h.next + 1 + 1, Function.update (Function.update (Function.update h.cell h.next
          (some (List.map (j h.next) (List.range (ndx + nu))))) (h.next + 1)
            (some (List.map (j (h.next + 1)) (List.range ((ndx + nu + ndy) * (ndx + nu + ndy)))))) h.next
              (some (List.replicate (ndx + nu) 0))⟩ : Mem K).fill (h.next + 1)
        (List.replicate ((ndx + nu + ndy) * (ndx + nu + ndy)) 0) = some ⟨h.next + 1 + 1, Function.update (Function.update (Function.update (Function.update h.cell h.next
          (some (List.map (j h.next) (List.range (ndx + nu))))) (h.next + 1)
            (some (List.map (j (h.next + 1)) (List.range ((ndx + nu + ndy) * (ndx + nu + ndy)))))) h.next
              (some (List.replicate (ndx + nu) 0))) (h.next + 1) (some (List.replicate ((ndx + nu + ndy) * (ndx + nu + ndy)) 0))⟩ := by
    unfold Mem.fill
    dsimp only
    rw [Function.update_of_ne h1.symm, Function.update_self]
    dsimp only
    rw [if_pos (by simp)]
  simp only [Option.bind_eq_bind, Option.bind_some]
  rw [e1]
  dsimp only [Option.bind_some]
  rw [e2]
  dsimp only [Option.bind_some]
  refine ⟨_, _, rfl, ⟨⟨rfl, rfl, rfl, rfl⟩, holds_replicate (x := (0 : K)) rfl rfl ?_, holds_replicate (x := (0 : K)) rfl rfl ?_, ?_, ?_, ?_, h1⟩, ?_, rfl, rfl, ?_⟩
  · dsimp only [zeroVal]
    rw [Function.update_of_ne h1, Function.update_self, Nat.mul_one]
  · dsimp only [zeroVal]
    rw [Function.update_self]
  · unfold Views
    simp
  · dsimp only; omega
  · dsimp only; omega
  · dsimp only; omega
  · intro a ha
    dsimp only
    rw [Function.update_of_ne (by omega), Function.update_of_ne (by omega), Function.update_of_ne (by omega),
      Function.update_of_ne (by omega)]

/-- Assignment between distinct objects, or with itself. -/
theorem assign_spec (j : ℕ → ℕ → K) {h : Mem K} {o p : QFun K} {v w : QVal K} (Ro : Rep h o v) (Rp : Rep h p w)
    (hop : o = p ∧ v = w ∨ (o.grad.addr ≠ p.grad.addr ∧ o.grad.addr ≠ p.hess.addr ∧ o.hess.addr ≠ p.grad.addr ∧ o.hess.addr ≠ p.hess.addr)) :
    ∃ o' h', QFun.assign j h o p = some (o', h') ∧ Rep h' o' w ∧ h.next ≤ h'.next ∧
      (o'.grad.addr = o.grad.addr ∨ h.next ≤ o'.grad.addr) ∧ (o'.hess.addr = o.hess.addr ∨ h.next ≤ o'.hess.addr) ∧
      ∀ a < h.next, a ≠ o.grad.addr → a ≠ o.hess.addr → h'.cell a = h.cell a := by
  obtain ⟨g, h1, e1, Hg, n1, a1, b1, f1⟩ := Dense.assign_spec j Ro.grad Rp.grad Ro.gnext Rp.gnext (by
    intro e
    rcases hop with ⟨-, rfl⟩ | hne
    · rfl
    · exact absurd e hne.1)
  have hpH : p.hess.addr ≠ o.grad.addr := by
    rcases hop with ⟨rfl, -⟩ | hne
    · exact Rp.sep.symm
    · exact hne.2.1.symm
  obtain ⟨H, h2, e2, HH, n2, a2, b2, f2⟩ := Dense.assign_spec j (h := h1) (m := o.hess) (o := p.hess)
    (Ro.hess.frame (f1 _ Ro.sep.symm Ro.hnext)) (Rp.hess.frame (f1 _ hpH Rp.hnext)) (lt_of_lt_of_le Ro.hnext n1)
    (lt_of_lt_of_le Rp.hnext n1) (by
      intro e
      rcases hop with ⟨-, rfl⟩ | hne
      · rfl
      · exact absurd e hne.2.2.2)
  have hgH : g.addr ≠ o.hess.addr := by
    rcases a1 with e | e
    · rw [e]; exact Ro.sep
    · have := Ro.hnext
      omega
  have hsh : Shaped ({ o with ndx := p.ndx, nu := p.nu, ndy := p.ndy, q := p.q, grad := g, hess := H } : QFun K) := by
    obtain ⟨d1, d2, d3, -⟩ := Rp.dims
    exact ⟨by dsimp only; rw [Hg.1, d1, d2], Hg.2.1, by dsimp only; rw [HH.1, d1, d2, d3], by dsimp only; rw [HH.2.1, d1, d2, d3]⟩
  obtain ⟨o', e3, c, hv⟩ := redef_spec hsh
  obtain ⟨c1, c2, c3, c4, c5, c6⟩ := c
  dsimp only at c1 c2 c3 c4 c5 c6
  refine ⟨o', h2, ?_, ⟨?_, ?_, ?_, hv, ?_, ?_, ?_⟩, le_trans n1 n2, ?_, ?_, ?_⟩
  · unfold QFun.assign
    rw [e1]
    dsimp only [Option.bind_eq_bind, Option.bind_some]
    rw [e2]
    dsimp only [Option.bind_some]
    rw [e3]
    rfl
  · rw [c1, c2, c3, c4]; exact Rp.dims
  · rw [c5]; exact Hg.frame (f2 _ hgH b1)
  · rw [c6]; exact HH
  · rw [c5]; exact lt_of_lt_of_le b1 n2
  · rw [c6]; exact b2
  · rw [c5, c6]
    rcases a2 with e | e
    · rw [e]; exact hgH
    · omega
  · rw [c5]; exact a1
  · rw [c6]
    rcases a2 with e | e
    · exact Or.inl e
    · exact Or.inr (le_trans n1 e)
  · intro a ha hg hh
    rw [f2 a hh (lt_of_lt_of_le ha n1), f1 a hg ha]

/-- Exchange of two objects. -/
theorem swap_spec {h : Mem K} {o p : QFun K} {v w : QVal K} (Ro : Rep h o v) (Rp : Rep h p w) :
    ∃ o' p', QFun.swap o p = some (o', p') ∧ Rep h o' w ∧ Rep h p' v ∧ o'.grad = p.grad ∧ o'.hess = p.hess ∧
      p'.grad = o.grad ∧ p'.hess = o.hess := by
  have s1 : Shaped ({ o with ndx := p.ndx, nu := p.nu, ndy := p.ndy, q := p.q, grad := p.grad, hess := p.hess } : QFun K) := Rp.shaped
  have s2 : Shaped ({ p with ndx := o.ndx, nu := o.nu, ndy := o.ndy, q := o.q, grad := o.grad, hess := o.hess } : QFun K) := Ro.shaped
  obtain ⟨o', e1, ⟨c1, c2, c3, c4, c5, c6⟩, v1⟩ := redef_spec s1
  obtain ⟨p', e2, ⟨d1, d2, d3, d4, d5, d6⟩, v2⟩ := redef_spec s2
  dsimp only at c1 c2 c3 c4 c5 c6 d1 d2 d3 d4 d5 d6
  refine ⟨o', p', ?_, ⟨?_, ?_, ?_, v1, ?_, ?_, ?_⟩, ⟨?_, ?_, ?_, v2, ?_, ?_, ?_⟩, c5, c6, d5, d6⟩
  · unfold QFun.swap
    rw [e1]
    dsimp only [Option.bind_eq_bind, Option.bind_some]
    rw [e2]
    rfl
  · rw [c1, c2, c3, c4]; exact Rp.dims
  · rw [c5]; exact Rp.grad
  · rw [c6]; exact Rp.hess
  · rw [c5]; exact Rp.gnext
  · rw [c6]; exact Rp.hnext
  · rw [c5, c6]; exact Rp.sep
  · rw [d1, d2, d3, d4]; exact Ro.dims
  · rw [d5]; exact Ro.grad
  · rw [d6]; exact Ro.hess
  · rw [d5]; exact Ro.gnext
  · rw [d6]; exact Ro.hnext
  · rw [d5, d6]; exact Ro.sep

theorem redef_rep {h : Mem K} {o : QFun K} {v : QVal K} (R : Rep h o v) :
    ∃ o', o.redefRefs = some o' ∧ Rep h o' v ∧ o'.grad = o.grad ∧ o'.hess = o.hess := by
  obtain ⟨o', e1, ⟨c1, c2, c3, c4, c5, c6⟩, v1⟩ := redef_spec R.shaped
  refine ⟨o', e1, ⟨?_, ?_, ?_, v1, ?_, ?_, ?_⟩, c5, c6⟩
  · rw [c1, c2, c3, c4]; exact R.dims
  · rw [c5]; exact R.grad
  · rw [c6]; exact R.hess
  · rw [c5]; exact R.gnext
  · rw [c6]; exact R.hnext
  · rw [c5, c6]; exact R.sep

end Aligator.QView
