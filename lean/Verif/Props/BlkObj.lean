import Verif.Props.Blocks
import Verif.Spec.BlkObj

/-!
# C82: block matrices are values with a partition
-/

namespace Aligator.BlkObj

open Blocks (Plain View initLoop initLoop_get initLoop_fst_length C34_starts_tile C34_write_block Layout sum_take_le_sum)
open Spec (Val Slot entries inside)

variable {K : Type}

/-- An object with a value. -/
structure Rep (o : Obj K) (v : Val K) : Prop where
  rd : o.rowDims = v.rd
  cd : o.colDims = v.cd
  ri : o.rowIdx = (initLoop v.rd 0).1
  ci : o.colIdx = (initLoop v.cd 0).1
  tr : o.totalRows = v.rd.sum
  tc : o.totalCols = v.cd.sum
  rows : o.data.rows = v.rd.sum
  cols : o.data.cols = v.cd.sum
  len : o.data.buf.length = v.rd.sum * v.cd.sum
  ent : ∀ r < v.rd.sum, ∀ c < v.cd.sum, o.data.buf[r + c * v.rd.sum]? = some (v.at' r c)

/-- Objects and their states. -/
def RepSlot (o : Obj K) : Slot K → Prop
  | .val v => Rep o v
  | .moved => True

/-- All objects. -/
def RepW (w : World K) (s : ℕ → Option (Slot K)) : Prop :=
  ∀ n, (w n = none ∧ s n = none) ∨ ∃ o sl, w n = some o ∧ s n = some sl ∧ RepSlot o sl

theorem RepW.of_none {w : World K} {s : ℕ → Option (Slot K)} (h : RepW w s) {n : ℕ} (hn : s n = none) : w n = none := by
  rcases h n with h | ⟨o, sl, -, h2, -⟩
  · exact h.1
  · rw [hn] at h2; cases h2

theorem RepW.of_some {w : World K} {s : ℕ → Option (Slot K)} (h : RepW w s) {n : ℕ} {sl : Slot K} (hn : s n = some sl) :
    ∃ o, w n = some o ∧ RepSlot o sl := by
  rcases h n with h | ⟨o, sl', h1, h2, h3⟩
  · rw [hn] at h; cases h.2
  · rw [hn] at h2; cases h2; exact ⟨o, h1, h3⟩

theorem RepW.put {w : World K} {s : ℕ → Option (Slot K)} (h : RepW w s) (n : ℕ) {o : Obj K} {sl : Slot K} (ho : RepSlot o sl) :
    RepW (Function.update w n (some o)) (Function.update s n (some sl)) := by
  intro k
  by_cases hk : k = n
  · subst hk; right; exact ⟨o, sl, by simp, by simp, ho⟩
  · rw [Function.update_of_ne hk, Function.update_of_ne hk]; exact h k

theorem RepW.del {w : World K} {s : ℕ → Option (Slot K)} (h : RepW w s) (n : ℕ) :
    RepW (Function.update w n none) (Function.update s n none) := by
  intro k
  by_cases hk : k = n
  · subst hk; left; simp
  · rw [Function.update_of_ne hk, Function.update_of_ne hk]; exact h k

theorem initLoop_sum (l : List ℕ) : (initLoop l 0).2 = l.sum := (C34_starts_tile l).2

theorem rep_default (T : Tpl) : Rep (Obj.default T : Obj K) ⟨dims0 T.N, dims0 T.M, fun _ _ => none⟩ := by
  have h : ∀ d : Option ℕ, (dims0 d).sum = 0 ∧ (initLoop (dims0 d) 0).1 = dims0 d := by
    intro d
    cases d with
    | none => exact ⟨rfl, rfl⟩
    | some n =>
      refine ⟨by simp [dims0], ?_⟩
      show (initLoop (List.replicate n 0) 0).1 = List.replicate n 0
      induction n with
      | zero => rfl
      | succ n ih => rw [List.replicate_succ]; show 0 :: (initLoop (List.replicate n 0) (0 + 0)).1 = _; rw [ih]
  refine ⟨rfl, rfl, (h _).2.symm, (h _).2.symm, (h _).1.symm, (h _).1.symm, (h _).1.symm, (h _).1.symm, ?_, ?_⟩
  · show 0 = (dims0 T.N).sum * _
    rw [(h _).1, Nat.zero_mul]
  · intro r hr
    exact absurd hr (by show ¬ r < (dims0 T.N).sum; rw [(h _).1]; omega)

theorem rep_ofData {M : Plain (Option K)} {rd cd : List ℕ} (hr : rd.sum = M.rows) (hc : cd.sum = M.cols)
    (hl : M.buf.length = M.rows * M.cols) : Rep (Obj.ofData M rd cd) ⟨rd, cd, entries M⟩ := by
  have e : (Obj.ofData M rd cd).data = M := by
    show M.resize (initLoop rd 0).2 (initLoop cd 0).2 (fun n => List.replicate n none) = M
    rw [initLoop_sum, initLoop_sum, hr, hc, Plain.resize, if_pos rfl]
  refine ⟨rfl, rfl, rfl, rfl, initLoop_sum rd, initLoop_sum cd, by rw [e, hr], by rw [e, hc], by rw [e, hl, hr, hc], ?_⟩
  intro r h1 c h2
  dsimp only at h1 h2
  have hlt : r + c * rd.sum < M.buf.length := by
    rw [hl, ← hr, ← hc]
    calc r + c * rd.sum < rd.sum + c * rd.sum := by omega
      _ = (c + 1) * rd.sum := by ring
      _ ≤ cd.sum * rd.sum := Nat.mul_le_mul_right _ h2
      _ = rd.sum * cd.sum := Nat.mul_comm _ _
  rw [e]
  show M.buf[r + c * rd.sum]? = some ((M.buf[r + c * M.rows]?).join)
  rw [← hr, List.getElem?_eq_getElem hlt]
  rfl

theorem rep_ofDims (rd cd : List ℕ) : Rep (Obj.ofDims rd cd : Obj K) ⟨rd, cd, fun _ _ => none⟩ := by
  have e : (Obj.ofDims rd cd : Obj K).data = ⟨rd.sum, cd.sum, List.replicate (rd.sum * cd.sum) none⟩ := by
    show Plain.resize ⟨0, 0, []⟩ (initLoop rd 0).2 (initLoop cd 0).2 (fun n => List.replicate n none) = _
    rw [initLoop_sum, initLoop_sum, Plain.resize]
    by_cases h : rd.sum * cd.sum = 0 * 0
    · rw [if_pos h]; rw [h]; rfl
    · rw [if_neg h]
  refine ⟨rfl, rfl, rfl, rfl, initLoop_sum rd, initLoop_sum cd, by rw [e], by rw [e], by rw [e]; simp, ?_⟩
  intro r h1 c h2
  dsimp only at h1 h2
  have hlt : r + c * rd.sum < rd.sum * cd.sum := by
    calc r + c * rd.sum < rd.sum + c * rd.sum := by omega
      _ = (c + 1) * rd.sum := by ring
      _ ≤ cd.sum * rd.sum := Nat.mul_le_mul_right _ h2
      _ = rd.sum * cd.sum := Nat.mul_comm _ _
  rw [e]
  show (List.replicate (rd.sum * cd.sum) (none : Option K))[r + c * rd.sum]? = some none
  rw [List.getElem?_replicate, if_pos hlt]

theorem rep_setZero [Zero K] {o : Obj K} {v : Val K} (h : Rep o v) :
    Rep o.setZero { v with at' := fun _ _ => some 0 } := by
  refine ⟨h.rd, h.cd, h.ri, h.ci, h.tr, h.tc, h.rows, h.cols, ?_, ?_⟩
  · show (o.data.buf.map _).length = _
    rw [List.length_map, h.len]
  · intro r hr c hc
    show (o.data.buf.map _)[_]? = _
    rw [List.getElem?_map, h.ent r hr c hc]
    rfl

theorem rep_setMat {o : Obj K} {v : Val K} (h : Rep o v) {M : Plain (Option K)} (hr : M.rows = v.rd.sum) (hc : M.cols = v.cd.sum)
    (hl : M.buf.length = M.rows * M.cols) : Rep { o with data := M } { v with at' := entries M } := by
  have := (rep_ofData (rd := v.rd) (cd := v.cd) hr.symm hc.symm hl).ent
  have e : (Obj.ofData M v.rd v.cd).data = M := by
    show M.resize (initLoop v.rd 0).2 (initLoop v.cd 0).2 (fun n => List.replicate n none) = M
    rw [initLoop_sum, initLoop_sum, ← hr, ← hc, Plain.resize, if_pos rfl]
  rw [e] at this
  exact ⟨h.rd, h.cd, h.ri, h.ci, h.tr, h.tc, hr, hc, by rw [hl, hr, hc], this⟩

theorem rep_swap {o t : Obj K} {v u : Val K} (h : Rep o v) (g : Rep t u) (hr : v.rd = u.rd) (hc : v.cd = u.cd) :
    Rep (o.swap t).1 u ∧ Rep (o.swap t).2 v :=
  ⟨⟨h.rd.trans hr, h.cd.trans hc, hr ▸ h.ri, hc ▸ h.ci, hr ▸ h.tr, hc ▸ h.tc, g.rows, g.cols, g.len, g.ent⟩,
   ⟨g.rd.trans hr.symm, g.cd.trans hc.symm, hr ▸ g.ri, hc ▸ g.ci, hr ▸ g.tr, hc ▸ g.tc, h.rows, h.cols, h.len, h.ent⟩⟩

theorem block_le {l : List ℕ} {i m : ℕ} (h : l[i]? = some m) : (l.take i).sum + m ≤ l.sum := by
  have := sum_take_le_sum l (i + 1)
  rw [List.take_add_one, h] at this
  simpa using this

theorem rep_block {o : Obj K} {v : Val K} (h : Rep o v) {i j m k : ℕ} (hi : v.rd[i]? = some m) (hj : v.cd[j]? = some k) :
    o.block i j = some ⟨(v.rd.take i).sum, (v.cd.take j).sum, m, k, v.rd.sum⟩ := by
  have h1 := initLoop_get v.rd 0 i (List.getElem?_eq_some_iff.1 hi).1
  have h2 := initLoop_get v.cd 0 j (List.getElem?_eq_some_iff.1 hj).1
  rw [Nat.zero_add] at h1 h2
  simp only [Obj.block, h.ri, h.ci, h1, h2, h.rd, h.cd, hi, hj, Option.bind_eq_bind, Option.bind_some, h.rows, h.cols]
  rw [if_pos ⟨block_le hi, block_le hj⟩]

theorem rep_read {o : Obj K} {v : Val K} (h : Rep o v) {i j m k a b : ℕ} (hi : v.rd[i]? = some m) (hj : v.cd[j]? = some k)
    (ha : a < m) (hb : b < k) :
    o.read i j a b = some (v.at' ((v.rd.take i).sum + a) ((v.cd.take j).sum + b)) := by
  have h1 := block_le hi
  have h2 := block_le hj
  simp only [Obj.read, rep_block h hi hj, Option.bind_eq_bind, Option.bind_some]
  rw [if_pos ⟨ha, hb⟩]
  exact h.ent ((v.rd.take i).sum + a) (by omega) ((v.cd.take j).sum + b) (by omega)

theorem rep_write {o : Obj K} {v : Val K} (h : Rep o v) {i j m k : ℕ} (hi : v.rd[i]? = some m) (hj : v.cd[j]? = some k)
    (X : ℕ → ℕ → K) : ∃ o', o.write i j X = some o' ∧ Rep o' (v.set i j m k X) := by
  set V : View := ⟨(v.rd.take i).sum, (v.cd.take j).sum, m, k, v.rd.sum⟩ with hV
  set Y : ℕ → ℕ → Option K := fun a b => some (X a b) with hY
  refine ⟨{ o with data := { o.data with buf := V.write o.data.buf Y } }, ?_, ?_⟩
  · simp only [Obj.write, rep_block h hi hj, Option.bind_eq_bind, Option.bind_some]
    rfl
  have h1 := block_le hi
  have h2 := block_le hj
  have hg : (Blocks.mkLayout v.rd v.cd id).Good := Blocks.mkLayout_good v.rd v.cd id le_rfl
  have hb : (Blocks.mkLayout v.rd v.cd id).block i j = some V := by
    have hs : (Blocks.mkLayout v.rd v.cd id).stride = v.rd.sum := initLoop_sum v.rd
    rw [Blocks.Layout.block_eq hg hi hj, hs]
    rfl
  have hlen : (Blocks.mkLayout v.rd v.cd id).stride * (Blocks.mkLayout v.rd v.cd id).totalCols ≤ o.data.buf.length := by
    show (initLoop v.rd 0).2 * (initLoop v.cd 0).2 ≤ _
    rw [initLoop_sum, initLoop_sum, h.len]
  obtain ⟨w1, w2, -, w4⟩ := C34_write_block _ hg o.data.buf hlen i j V hb Y
  refine ⟨h.rd, h.cd, h.ri, h.ci, h.tr, h.tc, h.rows, h.cols, ?_, ?_⟩
  · show (V.write o.data.buf Y).length = _
    rw [w1, h.len]; rfl
  · intro r hr c hc
    have hr : r < v.rd.sum := hr
    have hc : c < v.cd.sum := hc
    show (V.write o.data.buf Y)[r + c * v.rd.sum]? = some (if _ then _ else _)
    by_cases hin : inside (v.rd.take i).sum m r ∧ inside (v.cd.take j).sum k c
    · rw [if_pos hin]
      obtain ⟨⟨a1, a2⟩, ⟨b1, b2⟩⟩ := hin
      have := w2 (r - (v.rd.take i).sum) (c - (v.cd.take j).sum) (by show _ < m; omega) (by show _ < k; omega)
      have ea : V.addr (r - (v.rd.take i).sum) (c - (v.cd.take j).sum) = r + c * v.rd.sum := by
        show ((v.rd.take i).sum + (r - (v.rd.take i).sum)) + ((v.cd.take j).sum + (c - (v.cd.take j).sum)) * v.rd.sum = _
        rw [Nat.add_sub_cancel' a1, Nat.add_sub_cancel' b1]
      rw [View.read, ea] at this
      exact this
    · rw [if_neg hin, w4, h.ent r hr c hc]
      intro a b ha hb' e
      have ha : a < m := ha
      have hb' : b < k := hb'
      have e : r + c * v.rd.sum = ((v.rd.take i).sum + a) + ((v.cd.take j).sum + b) * v.rd.sum := e
      have e1 := congrArg (· % v.rd.sum) e
      have e2 := congrArg (· / v.rd.sum) e
      simp only [Nat.add_mul_mod_self_right] at e1
      have hpos : 0 < v.rd.sum := by omega
      simp only [Nat.add_mul_div_right _ _ hpos] at e2
      rw [Nat.mod_eq_of_lt hr, Nat.mod_eq_of_lt (by omega)] at e1
      rw [Nat.div_eq_of_lt hr, Nat.div_eq_of_lt (by omega)] at e2
      exact hin ⟨⟨by omega, by omega⟩, ⟨by omega, by omega⟩⟩

/-- One statement. -/
theorem step_rep [Zero K] (T : Tpl) (nd : Bool) {w : World K} {s s' : ℕ → Option (Slot K)} (h : RepW w s) (op : Op K)
    (hop : Spec.Op.wellFormed op) {x : Out K} (hs : Spec.step T s op = some (s', x)) :
    ∃ w', step T nd w op = .ok w' x ∧ RepW w' s' := by
  cases op with
  | create n =>
    simp only [Spec.step] at hs
    split at hs
    · rename_i hn; cases hs
      simp only [step, h.of_none hn]
      exact ⟨_, rfl, h.put n (rep_default T)⟩
    · cases hs
  | dims n rd cd =>
    simp only [Spec.step] at hs
    split at hs
    · rename_i hn; cases hs
      simp only [step, h.of_none hn]
      exact ⟨_, rfl, h.put n (rep_ofDims rd cd)⟩
    · cases hs
  | data n M rd cd =>
    simp only [Spec.step] at hs
    split at hs
    · rename_i hn
      split at hs
      · rename_i hd; cases hs
        simp only [step, h.of_none hn]
        exact ⟨_, rfl, h.put n (rep_ofData hd.1 hd.2 hop)⟩
      · cases hs
    · cases hs
  | copy n m =>
    simp only [Spec.step] at hs
    split at hs
    · rename_i v hn hm; cases hs
      obtain ⟨o, ho, hr⟩ := h.of_some hm
      simp only [step, h.of_none hn, ho]
      exact ⟨_, rfl, h.put n (sl := .val v) hr⟩
    · cases hs
  | move n m =>
    simp only [Spec.step] at hs
    split at hs
    · rename_i v hn hm; cases hs
      obtain ⟨o, ho, hr⟩ := h.of_some hm
      simp only [step, h.of_none hn, ho]
      exact ⟨_, rfl, (h.put n (sl := .val v) hr).put m (sl := .moved) trivial⟩
    · cases hs
  | assign n m =>
    simp only [Spec.step] at hs
    split at hs
    · rename_i sl v hn hm; cases hs
      obtain ⟨t, ht, -⟩ := h.of_some hn
      obtain ⟨o, ho, hr⟩ := h.of_some hm
      simp only [step, ht, ho]
      exact ⟨_, rfl, h.put n (sl := .val v) hr⟩
    · cases hs
  | moveAssign n m =>
    simp only [Spec.step] at hs
    split at hs
    · cases hs
    · rename_i hne
      split at hs
      · rename_i sl v hn hm; cases hs
        obtain ⟨t, ht, -⟩ := h.of_some hn
        obtain ⟨o, ho, hr⟩ := h.of_some hm
        simp only [step, if_neg hne, ht, ho]
        exact ⟨_, rfl, (h.put n (sl := .val v) hr).put m (sl := .moved) trivial⟩
      · cases hs
  | destroy n =>
    simp only [Spec.step] at hs
    split at hs
    · rename_i sl hn; cases hs
      obtain ⟨o, ho, -⟩ := h.of_some hn
      simp only [step, ho]
      exact ⟨_, rfl, h.del n⟩
    · cases hs
  | setZero n =>
    simp only [Spec.step] at hs
    split at hs
    · rename_i v hn; cases hs
      obtain ⟨o, ho, hr⟩ := h.of_some hn
      simp only [step, ho]
      exact ⟨_, rfl, h.put n (sl := .val _) (rep_setZero hr)⟩
    · cases hs
  | zero n rd cd =>
    simp only [Spec.step] at hs
    split at hs
    · rename_i hn; cases hs
      simp only [step, h.of_none hn]
      exact ⟨_, rfl, h.put n (sl := .val _) (rep_setZero (rep_ofDims rd cd))⟩
    · cases hs
  | setMat n M =>
    simp only [Spec.step] at hs
    split at hs
    · rename_i v hn
      split at hs
      · rename_i hd; cases hs
        obtain ⟨o, ho, hr⟩ := h.of_some hn
        have hr : Rep o v := hr
        simp only [step, ho]
        rw [if_pos (.inl ⟨hd.1.trans hr.rows.symm, hd.2.trans hr.cols.symm⟩)]
        exact ⟨_, rfl, h.put n (sl := .val _) (rep_setMat hr hd.1 hd.2 hop)⟩
      · cases hs
    · cases hs
  | swap n m =>
    simp only [Spec.step] at hs
    split at hs
    · rename_i v u hn hm
      split at hs
      · rename_i hd; cases hs
        obtain ⟨o, ho, hr⟩ := h.of_some hn
        obtain ⟨t, ht, hq⟩ := h.of_some hm
        simp only [step, ho, ht]
        have := rep_swap hr hq hd.1 hd.2
        exact ⟨_, rfl, (h.put n (sl := .val u) this.1).put m (sl := .val v) this.2⟩
      · cases hs
    · cases hs
  | read n i j a b =>
    simp only [Spec.step] at hs
    split at hs
    · rename_i v hn
      split at hs
      · rename_i m k hi hj
        split at hs
        · rename_i hab; cases hs
          obtain ⟨o, ho, hr⟩ := h.of_some hn
          simp only [step, ho, rep_read hr hi hj hab.1 hab.2]
          exact ⟨_, rfl, h⟩
        · cases hs
      · cases hs
    · cases hs
  | write n i j X =>
    simp only [Spec.step] at hs
    split at hs
    · rename_i v hn
      split at hs
      · rename_i m k hi hj; cases hs
        obtain ⟨o, ho, hr⟩ := h.of_some hn
        obtain ⟨o', e, hr'⟩ := rep_write hr hi hj X
        simp only [step, ho, e]
        exact ⟨_, rfl, h.put n (sl := .val _) hr'⟩
      · cases hs
    · cases hs
  | sizes n =>
    simp only [Spec.step] at hs
    split at hs
    · rename_i v hn; cases hs
      obtain ⟨o, ho, hr⟩ := h.of_some hn
      have hr : Rep o v := hr
      simp only [step, ho, hr.tr, hr.tc]
      exact ⟨_, rfl, h⟩
    · cases hs
  | dimsOf n =>
    simp only [Spec.step] at hs
    split at hs
    · rename_i v hn; cases hs
      obtain ⟨o, ho, hr⟩ := h.of_some hn
      have hr : Rep o v := hr
      simp only [step, ho, hr.rd, hr.cd]
      exact ⟨_, rfl, h⟩
    · cases hs

/-- **C82.** Programs of any length over block matrices of any type, in any build, that do not misuse them (`Spec.step`) are defined
and show what they show on values: a partition of rows and columns with a matrix, blocks being the submatrices at the partial
sums; copies and assignments share nothing. -/
theorem C82_block_matrices_are_values [Zero K] (T : Tpl) (nd : Bool) (ops : List (Op K))
    (hops : ∀ op ∈ ops, Spec.Op.wellFormed op) (s' : ℕ → Option (Slot K)) (outs : List (Out K))
    (h : Spec.run T (fun _ => none) ops = some (s', outs)) :
    ∃ w', run T nd (fun _ => none) ops = (.ok w' .unit, outs) ∧ RepW w' s' := by
  suffices H : ∀ (w : World K) s outs, RepW w s → Spec.run T s ops = some (s', outs) →
      ∃ w', run T nd w ops = (.ok w' .unit, outs) ∧ RepW w' s' from
    H _ _ outs (fun n => .inl ⟨rfl, rfl⟩) h
  clear h outs
  induction ops with
  | nil => intro w s outs hw h; cases h; exact ⟨w, rfl, hw⟩
  | cons op ops ih =>
    intro w s outs hw h
    simp only [Spec.run] at h
    split at h
    · rename_i s1 x hs
      obtain ⟨⟨s2, os⟩, h2, e⟩ := Option.map_eq_some_iff.1 h
      cases e
      obtain ⟨w1, e1, hw1⟩ := step_rep T nd hw op (hops op List.mem_cons_self) hs
      obtain ⟨w2, e2, hw2⟩ := ih (fun o ho => hops o (List.mem_cons_of_mem _ ho)) w1 s1 os hw1 h2
      refine ⟨w2, ?_, hw2⟩
      simp only [run, e1, e2]
    · cases h

/-- A program with four matrices of two blocks of one and two rows. -/
def exProg : List (Op ℤ) :=
    [.zero 0 [1, 2] [1], .copy 1 0, .write 1 1 0 (fun a _ => (a : ℤ) + 5), .read 0 1 0 1 0, .read 1 1 0 1 0, .swap 0 1,
      .read 0 1 0 1 0, .move 2 0, .assign 0 1, .read 0 1 0 1 0, .read 2 1 0 0 0, .sizes 0, .dims 3 [1, 2] [1], .read 3 0 0 0 0]

/-- Non-vacuity: two matrices of two by one blocks; a copy is changed, the original is not; exchanged matrices exchange their
blocks; an object that was moved from is assigned and used again. -/
example (nd : Bool) : ∃ w, run ⟨some 2, some 1⟩ nd (fun _ => none) exProg =
    (.ok w .unit, [.unit, .unit, .unit, .entry (some 0), .entry (some 6), .unit, .entry (some 6), .unit, .unit, .entry (some 0),
      .entry (some 5), .sizes 3 1, .unit, .entry none]) := by
  obtain ⟨w, h, -⟩ := C82_block_matrices_are_values (K := ℤ) ⟨some 2, some 1⟩ nd exProg
    (by simp [exProg, Spec.Op.wellFormed]) _ _ rfl
  exact ⟨w, h⟩

/-- Outside of the class, any statement that uses the value of an object must name blocks of its partition: the accesses through a
represented object are defined exactly for the entries of its blocks. -/
theorem C82_access_iff {o : Obj K} {v : Val K} (h : Rep o v) (i j a b : ℕ) :
    (o.read i j a b).isSome ↔ ∃ m k, v.rd[i]? = some m ∧ v.cd[j]? = some k ∧ a < m ∧ b < k := by
  constructor
  · intro hs
    obtain ⟨x, hx⟩ := Option.isSome_iff_exists.1 hs
    unfold Obj.read at hx
    obtain ⟨V, hV, hx⟩ := Option.bind_eq_some_iff.1 hx
    have hV' := hV
    unfold Obj.block at hV
    obtain ⟨r, hr, hV⟩ := Option.bind_eq_some_iff.1 hV
    obtain ⟨c, hc, hV⟩ := Option.bind_eq_some_iff.1 hV
    obtain ⟨m, hm, hV⟩ := Option.bind_eq_some_iff.1 hV
    obtain ⟨n, hn, hV⟩ := Option.bind_eq_some_iff.1 hV
    rw [h.rd] at hm
    rw [h.cd] at hn
    rw [rep_block h hm hn] at hV'
    cases hV'
    split at hx
    · rename_i hab
      exact ⟨m, n, hm, hn, hab⟩
    · cases hx
  · rintro ⟨m, k, hi, hj, ha, hb⟩
    rw [rep_read h hi hj ha hb]
    rfl

/-- **C82.** What is missing, first part: `swap` exchanges the matrices and keeps the partitions.  The result is a block matrix
exactly when the sums of the partitions agree, and then its value is the old partition with the other matrix. -/
theorem C82_swap_keeps_partitions {o t : Obj K} {v u : Val K} (h : Rep o v) (g : Rep t u) :
    ((∃ v', Rep (o.swap t).1 v') ↔ v.rd.sum = u.rd.sum ∧ v.cd.sum = u.cd.sum) ∧
    (v.rd.sum = u.rd.sum → v.cd.sum = u.cd.sum → Rep (o.swap t).1 ⟨v.rd, v.cd, u.at'⟩) := by
  have key : v.rd.sum = u.rd.sum → v.cd.sum = u.cd.sum → Rep (o.swap t).1 ⟨v.rd, v.cd, u.at'⟩ := fun h1 h2 =>
    ⟨h.rd, h.cd, h.ri, h.ci, h.tr, h.tc, g.rows.trans h1.symm, g.cols.trans h2.symm, by
      show t.data.buf.length = v.rd.sum * v.cd.sum
      rw [g.len, h1, h2], by
      show ∀ r < v.rd.sum, ∀ c < v.cd.sum, t.data.buf[r + c * v.rd.sum]? = some (u.at' r c)
      rw [h1, h2]; exact g.ent⟩
  refine ⟨⟨?_, fun hs => ⟨_, key hs.1 hs.2⟩⟩, key⟩
  rintro ⟨v', hv⟩
  have e1 : v.rd = v'.rd := h.rd.symm.trans hv.rd
  have e2 : v.cd = v'.cd := h.cd.symm.trans hv.cd
  exact ⟨by rw [e1]; exact hv.rows.symm.trans g.rows, by rw [e2]; exact hv.cols.symm.trans g.cols⟩

/-- **C82.** A block access after such a `swap` is out of range, although the sizes reported by the object allow it; and with equal
sums but another partition the blocks are cut in other places than before. -/
theorem C82_swap_witness (nd : Bool) :
    run ⟨some 2, some 1⟩ nd (fun _ => none) [.zero 0 [1, 2] [1], .zero 1 [1, 1] [1], .swap 0 1, .sizes 0, .read (K := ℤ) 0 1 0 0 0] =
      (.ub, [.unit, .unit, .unit, .sizes 3 1]) ∧
    ∃ w, run ⟨some 2, some 1⟩ nd (fun _ => none) [.zero 0 [1, 2] [1], .zero 1 [2, 1] [1], .write 1 0 0 (fun a _ => (a : ℤ) + 5),
      .swap 0 1, .read 0 0 0 0 0, .read 0 1 0 0 0] = (.ok w .unit, [.unit, .unit, .unit, .unit, .entry (some 5), .entry (some 6)]) :=
  ⟨rfl, _, rfl⟩

/-- **C82.** What is missing, second part: an object that was moved from by construction keeps the sizes it reports, and with a
fixed number of blocks also its partition, but has no data: every access to an entry is undefined. -/
theorem C82_moved_from (T : Tpl) {o : Obj K} {v : Val K} (h : Rep o v) :
    (o.movedFrom T).totalRows = v.rd.sum ∧ (o.movedFrom T).totalCols = v.cd.sum ∧
    (o.movedFrom T).rowDims = (if T.N.isSome then v.rd else []) ∧ (o.movedFrom T).colDims = (if T.M.isSome then v.cd else []) ∧
    ∀ i j a b, (o.movedFrom T).read i j a b = none := by
  refine ⟨h.tr, h.tc, ?_, ?_, fun i j a b => ?_⟩
  · show movedDims T.N o.rowDims = _
    rw [h.rd]; cases T.N <;> rfl
  · show movedDims T.M o.colDims = _
    rw [h.cd]; cases T.M <;> rfl
  · by_contra hs
    obtain ⟨x, hx⟩ := Option.ne_none_iff_exists'.1 hs
    unfold Obj.read at hx
    obtain ⟨V, hV, hx⟩ := Option.bind_eq_some_iff.1 hx
    split at hx
    · exact absurd hx (by simp [View.read, Obj.movedFrom])
    · cases hx

/-- **C82.** An object that was moved from by assignment, with fixed numbers of blocks, keeps its partition and gets the matrix
of the target: with equal sums it is a block matrix with that value. -/
theorem C82_moved_into (n m : ℕ) {o t : Obj K} {v u : Val K} (h : Rep o v) (g : Rep t u) (h1 : v.rd.sum = u.rd.sum)
    (h2 : v.cd.sum = u.cd.sum) : Rep (o.movedInto ⟨some n, some m⟩ t) ⟨v.rd, v.cd, u.at'⟩ := by
  have := (C82_swap_keeps_partitions h g).2 h1 h2
  exact ⟨this.rd, this.cd, this.ri, this.ci, this.tr, this.tc, this.rows, this.cols, this.len, this.ent⟩

/-- **C82.** What is missing, third part: assigning a matrix of another shape.  Builds with assertions stop; builds without take
the matrix over and keep the partition, so that the sizes reported are wrong and all blocks that do not fit are out of range. -/
theorem C82_assign_other_shape [Zero K] (T : Tpl) (w : World K) (n : ℕ) (o : Obj K) (v : Val K) (ho : w n = some o) (h : Rep o v)
    (M : Plain (Option K)) (hM : M.rows ≠ v.rd.sum ∨ M.cols ≠ v.cd.sum) :
    step T false w (.setMat n M) = .aborts ∧
    ∃ o', step T true w (.setMat n M) = .ok (Function.update w n (some o')) .unit ∧ o'.totalRows = v.rd.sum ∧
      o'.totalCols = v.cd.sum ∧ o'.data = M ∧
      ∀ i j a b m k, v.rd[i]? = some m → v.cd[j]? = some k →
        M.rows < (v.rd.take i).sum + m ∨ M.cols < (v.cd.take j).sum + k → o'.read i j a b = none := by
  have hne : ¬ (M.rows = o.data.rows ∧ M.cols = o.data.cols) := by
    rw [h.rows, h.cols]
    rintro ⟨a, b⟩
    exact hM.elim (fun hc => hc a) fun hc => hc b
  refine ⟨?_, { o with data := M }, ?_, h.tr, h.tc, rfl, ?_⟩
  · simp [step, ho, hne]
  · simp [step, ho]
  · intro i j a b m k hi hj hlt
    have h1 := initLoop_get v.rd 0 i (List.getElem?_eq_some_iff.1 hi).1
    have h2 := initLoop_get v.cd 0 j (List.getElem?_eq_some_iff.1 hj).1
    rw [Nat.zero_add] at h1 h2
    have : ({ o with data := M } : Obj K).block i j = none := by
      simp only [Obj.block, h.ri, h.ci, h1, h2, h.rd, h.cd, hi, hj, Option.bind_eq_bind, Option.bind_some]
      rw [if_neg]
      rintro ⟨x, y⟩
      omega
    simp [Obj.read, this]

/-- **C82.** What is missing, fourth part: a matrix of another shape given to the constructor.  Without a word its entries are lost,
or, when the number of entries happens to be right, dealt out again column by column. -/
theorem C82_data_of_other_shape (M : Plain (Option K)) (rd cd : List ℕ) (hl : M.buf.length = M.rows * M.cols) :
    (rd.sum * cd.sum ≠ M.rows * M.cols → Rep (Obj.ofData M rd cd) ⟨rd, cd, fun _ _ => none⟩) ∧
    (rd.sum * cd.sum = M.rows * M.cols → Rep (Obj.ofData M rd cd) ⟨rd, cd, fun r c => (M.buf[r + c * rd.sum]?).join⟩) := by
  have hlt : ∀ r < rd.sum, ∀ c < cd.sum, r + c * rd.sum < rd.sum * cd.sum := by
    intro r h1 c h2
    calc r + c * rd.sum < rd.sum + c * rd.sum := by omega
      _ = (c + 1) * rd.sum := by ring
      _ ≤ cd.sum * rd.sum := Nat.mul_le_mul_right _ h2
      _ = rd.sum * cd.sum := Nat.mul_comm _ _
  have e : (Obj.ofData M rd cd).data = M.resize rd.sum cd.sum fun n => List.replicate n none := by
    show M.resize (initLoop rd 0).2 (initLoop cd 0).2 (fun n => List.replicate n none) = _
    rw [initLoop_sum, initLoop_sum]
  refine ⟨fun hne => ?_, fun heq => ?_⟩
  · have eb : (Obj.ofData M rd cd).data.buf = List.replicate (rd.sum * cd.sum) none := by
      rw [e]; exact if_neg hne
    refine ⟨rfl, rfl, rfl, rfl, initLoop_sum rd, initLoop_sum cd, by rw [e]; rfl, by rw [e]; rfl, by rw [eb]; simp, ?_⟩
    intro r hr c hc
    rw [eb, List.getElem?_replicate, if_pos (hlt r hr c hc)]
  · have eb : (Obj.ofData M rd cd).data.buf = M.buf := by
      rw [e]; exact if_pos heq
    refine ⟨rfl, rfl, rfl, rfl, initLoop_sum rd, initLoop_sum cd, by rw [e]; rfl, by rw [e]; rfl, by rw [eb, hl, ← heq], ?_⟩
    intro r hr c hc
    have := hlt r hr c hc
    rw [eb]
    show M.buf[r + c * rd.sum]? = some ((M.buf[r + c * rd.sum]?).join)
    rw [List.getElem?_eq_getElem (by rw [hl, ← heq]; exact this)]
    rfl

/-- Non-vacuity of the last two: a row of two entries given for a column of two blocks is dealt out as a column; a matrix of
three rows assigned to a matrix of two. -/
example : (Obj.ofData ⟨1, 2, [some (3 : ℤ), some 4]⟩ [1, 1] [1]).read 1 0 0 0 = some (some 4) ∧
    (Obj.ofData ⟨1, 3, [some (3 : ℤ), some 4, some 5]⟩ [1, 1] [1]).read 1 0 0 0 = some none ∧
    run ⟨some 2, some 1⟩ true (fun _ => none) [.zero 0 [1, 2] [1], .setMat 0 ⟨1, 1, [some (1 : ℤ)]⟩, .sizes 0, .read 0 1 0 0 0] =
      (.ub, [.unit, .unit, .sizes 3 1]) := ⟨rfl, rfl, rfl⟩

end Aligator.BlkObj
