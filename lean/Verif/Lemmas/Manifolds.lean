import Verif.Spec.Manifolds
import Mathlib.Tactic.Ring
import Mathlib.Tactic.Common

/-!
# Lemmas: segments, blocks and the loops of a Cartesian product
-/

namespace Aligator.Mani

open Spec

variable {K : Type} [Field K]

theorem seg_append {α : Type} (p v : List α) (k n : ℕ) : seg (p ++ v) (p.length + k) n = seg v k n := by
  simp [seg, List.drop_append, List.drop_eq_nil_of_le]

theorem seg_zero {α : Type} (a b : List α) : seg (a ++ b) 0 a.length = a := by simp [seg]

theorem writeSeg_append {α : Type} (p v new : List α) (k : ℕ) :
    writeSeg (p ++ v) (p.length + k) new = p ++ writeSeg v k new := by
  simp [writeSeg, List.take_append, List.drop_append, List.take_of_length_le, List.drop_eq_nil_of_le, Nat.add_assoc]

theorem writeSeg_zero {α : Type} (a b new : List α) (h : new.length = a.length) :
    writeSeg (a ++ b) 0 new = new ++ b := by
  simp [writeSeg, h]

theorem writeSeg_length {α : Type} (v new : List α) (s : ℕ) (h : s + new.length ≤ v.length) :
    (writeSeg v s new).length = v.length := by
  simp only [writeSeg, List.length_append, List.length_take, List.length_drop]
  omega

theorem integrateLoop_shift (ms : List (Manifold K)) (px pv po x v out : Vec K) (cq cv : ℕ) (h : po.length = px.length) :
    integrateLoop (px.length + cq) (pv.length + cv) ms (px ++ x) (pv ++ v) (po ++ out) =
      po ++ integrateLoop cq cv ms x v out := by
  induction ms generalizing cq cv out with
  | nil => rfl
  | cons m ms ih =>
    simp only [integrateLoop, seg_append]
    rw [← h, seg_append, writeSeg_append, h, Nat.add_assoc, Nat.add_assoc, ih]

theorem differenceLoop_shift (ms : List (Manifold K)) (px py pv x y out : Vec K) (cq cv : ℕ)
    (h : py.length = px.length) :
    differenceLoop (px.length + cq) (pv.length + cv) ms (px ++ x) (py ++ y) (pv ++ out) =
      pv ++ differenceLoop cq cv ms x y out := by
  induction ms generalizing cq cv out with
  | nil => rfl
  | cons m ms ih =>
    simp only [differenceLoop, seg_append]
    rw [writeSeg_append, ← h, seg_append, h, Nat.add_assoc, Nat.add_assoc, ih]

theorem integrateLoop_cons (m : Manifold K) (ms : List (Manifold K)) (a b c d o1 o2 : Vec K) (ha : a.length = m.nx)
    (hc : c.length = m.ndx) (ho : o1.length = m.nx) (hm : (m.integrate a c o1).length = m.nx) :
    integrateLoop 0 0 (m :: ms) (a ++ b) (c ++ d) (o1 ++ o2) = m.integrate a c o1 ++ integrateLoop 0 0 ms b d o2 := by
  have h1 : seg (a ++ b) 0 m.nx = a := by rw [← ha]; exact seg_zero ..
  have h2 : seg (c ++ d) 0 m.ndx = c := by rw [← hc]; exact seg_zero ..
  have h3 : seg (o1 ++ o2) 0 m.nx = o1 := by rw [← ho]; exact seg_zero ..
  rw [integrateLoop, h1, h2, h3, writeSeg_zero _ _ _ (hm.trans ho.symm)]
  have := integrateLoop_shift ms a c (m.integrate a c o1) b d o2 0 0 (hm.trans ha.symm)
  rw [ha, hc, Nat.add_comm m.nx, Nat.add_comm m.ndx] at this
  exact this

theorem differenceLoop_cons (m : Manifold K) (ms : List (Manifold K)) (a b c d o1 o2 : Vec K) (ha : a.length = m.nx)
    (hc : c.length = m.nx) (ho : o1.length = m.ndx) (hm : (m.difference a c o1).length = m.ndx) :
    differenceLoop 0 0 (m :: ms) (a ++ b) (c ++ d) (o1 ++ o2) =
      m.difference a c o1 ++ differenceLoop 0 0 ms b d o2 := by
  have h1 : seg (a ++ b) 0 m.nx = a := by rw [← ha]; exact seg_zero ..
  have h2 : seg (c ++ d) 0 m.nx = c := by rw [← hc]; exact seg_zero ..
  have h3 : seg (o1 ++ o2) 0 m.ndx = o1 := by rw [← ho]; exact seg_zero ..
  rw [differenceLoop, h1, h2, h3, writeSeg_zero _ _ _ (hm.trans ho.symm)]
  have := differenceLoop_shift ms a c (m.difference a c o1) b d o2 0 0 (hc.trans ha.symm)
  rw [ha, hm, Nat.add_comm m.nx, Nat.add_comm m.ndx] at this
  exact this

/-- A buffer splits into the part of the first component and the rest. -/
theorem buf_split {α : Type} (o : List α) (n k : ℕ) (h : o.length = n + k) :
    ∃ o1 o2, o = o1 ++ o2 ∧ o1.length = n ∧ o2.length = k :=
  ⟨o.take n, o.drop n, (List.take_append_drop n o).symm, by simp; omega, by simp; omega⟩

/-! ### Splitting and merging -/

theorem splitLoop_shift (ns : List ℕ) (p x : Vec K) (c : ℕ) : splitLoop (p.length + c) ns (p ++ x) = splitLoop c ns x := by
  induction ns generalizing c with
  | nil => rfl
  | cons n ns ih => simp only [splitLoop, seg_append, Nat.add_assoc, ih]

theorem mergeLoop_shift (ns : List ℕ) (xs : List (Vec K)) (p out : Vec K) (c : ℕ) :
    mergeLoop (p.length + c) ns xs (p ++ out) = (mergeLoop c ns xs out).map (p ++ ·) := by
  induction ns generalizing c xs out with
  | nil => cases xs <;> rfl
  | cons n ns ih =>
    cases xs with
    | nil => rfl
    | cons x xs =>
      simp only [mergeLoop]
      split
      · rw [writeSeg_append, Nat.add_assoc, ih]
      · rfl

theorem splitLoop_flatten (ns : List ℕ) (xs : List (Vec K)) (h : xs.map List.length = ns) :
    splitLoop 0 ns xs.flatten = xs := by
  induction ns generalizing xs with
  | nil => cases xs with
    | nil => rfl
    | cons x xs => simp at h
  | cons n ns ih =>
    cases xs with
    | nil => simp at h
    | cons x xs =>
      simp only [List.map_cons, List.cons.injEq] at h
      obtain ⟨rfl, h⟩ := h
      rw [List.flatten_cons, splitLoop, seg_zero]
      have := splitLoop_shift ns x xs.flatten 0
      rw [Nat.add_zero] at this
      rw [Nat.zero_add, this, ih xs h]

theorem flatten_splitLoop (ns : List ℕ) (x : Vec K) (h : x.length = ns.sum) :
    (splitLoop 0 ns x).flatten = x ∧ (splitLoop 0 ns x).map List.length = ns := by
  induction ns generalizing x with
  | nil => simp at h; simp [splitLoop, h]
  | cons n ns ih =>
    obtain ⟨a, b, rfl, rfl, hb⟩ := buf_split x n ns.sum (by simpa using h)
    have h1 := splitLoop_shift ns a b 0
    rw [Nat.add_zero] at h1
    rw [splitLoop, Nat.zero_add, h1, seg_zero]
    obtain ⟨h2, h3⟩ := ih b hb
    simp [h2, h3]

theorem mergeLoop_flatten (ns : List ℕ) (xs : List (Vec K)) (out : Vec K) (ho : out.length = ns.sum)
    (h : xs.map List.length = ns) : mergeLoop 0 ns xs out = some xs.flatten := by
  induction ns generalizing xs out with
  | nil => cases xs with
    | nil => simp at ho; simp [mergeLoop, ho]
    | cons x xs => simp at h
  | cons n ns ih =>
    cases xs with
    | nil => simp at h
    | cons x xs =>
      simp only [List.map_cons, List.cons.injEq] at h
      obtain ⟨rfl, h⟩ := h
      obtain ⟨a, b, rfl, ha, hb⟩ := buf_split out x.length ns.sum (by simpa using ho)
      rw [mergeLoop, if_pos rfl, writeSeg_zero _ _ _ ha.symm, Nat.zero_add]
      have := mergeLoop_shift ns xs x b 0
      rw [Nat.add_zero] at this
      rw [this, ih xs b hb h]
      simp

/-! ### Blocks -/

/-- The zero matrix. -/
def zeros (r c : ℕ) : Mat K := List.replicate r (List.replicate c 0)

theorem seg_map {α β : Type} (f : α → β) (v : List α) (s n : ℕ) : seg (v.map f) s n = (seg v s n).map f := by
  simp [seg, List.map_take, List.map_drop]

theorem writeSeg_map {α β : Type} (f : α → β) (v new : List α) (s : ℕ) :
    writeSeg (v.map f) s (new.map f) = (writeSeg v s new).map f := by
  simp [writeSeg, List.map_take, List.map_drop]

theorem block_shift (p J : Mat K) (z : Vec K) (r k m n : ℕ) (hp : p.length = z.length) :
    block (p ++ J.map (z ++ ·)) (z.length + r) (z.length + k) m n = block J r k m n := by
  rw [block, ← hp, seg_append, seg_map, List.map_map, block]
  refine List.map_congr_left fun row _ => ?_
  rw [hp]
  exact seg_append z row k n

theorem writeBlock_shift (p J B : Mat K) (z : Vec K) (r k : ℕ) (hp : p.length = z.length) :
    writeBlock (p ++ J.map (z ++ ·)) (z.length + r) (z.length + k) B = p ++ (writeBlock J r k B).map (z ++ ·) := by
  have h : List.zipWith (fun row b => writeSeg row (z.length + k) b) ((seg J r B.length).map (z ++ ·)) B =
      (List.zipWith (fun row b => writeSeg row k b) (seg J r B.length) B).map (z ++ ·) := by
    rw [List.zipWith_map_left, List.map_zipWith]
    congr 1
    funext row b
    exact writeSeg_append z row b k
  rw [writeBlock, ← hp, seg_append, seg_map, hp, h, ← hp, writeSeg_append, writeSeg_map, writeBlock]

theorem JintegrateLoop_shift (ms : List (Manifold K)) (px pv x v z : Vec K) (p J : Mat K) (cq cv arg : ℕ)
    (hp : p.length = z.length) (hv : pv.length = z.length) :
    JintegrateLoop (px.length + cq) (z.length + cv) ms (px ++ x) (pv ++ v) arg (p ++ J.map (z ++ ·)) =
      (JintegrateLoop cq cv ms x v arg J).map fun J => p ++ J.map (z ++ ·) := by
  induction ms generalizing cq cv J with
  | nil => rfl
  | cons m ms ih =>
    have hs : seg (pv ++ v) (z.length + cv) m.ndx = seg v cv m.ndx := by rw [← hv]; exact seg_append ..
    simp only [JintegrateLoop, seg_append, hs, block_shift p J z _ _ _ _ hp]
    cases m.Jintegrate (seg x cq m.nx) (seg v cv m.ndx) arg (block J cv cv m.ndx m.ndx) with
    | none => rfl
    | some B => simp only [writeBlock_shift p J B z _ _ hp, Nat.add_assoc, ih]

theorem JdifferenceLoop_shift (ms : List (Manifold K)) (px py x y z : Vec K) (p J : Mat K) (cq cv arg : ℕ)
    (hp : p.length = z.length) (hy : py.length = px.length) :
    JdifferenceLoop (px.length + cq) (z.length + cv) ms (px ++ x) (py ++ y) arg (p ++ J.map (z ++ ·)) =
      (JdifferenceLoop cq cv ms x y arg J).map fun J => p ++ J.map (z ++ ·) := by
  induction ms generalizing cq cv J with
  | nil => rfl
  | cons m ms ih =>
    have hs : seg (py ++ y) (px.length + cq) m.nx = seg y cq m.nx := by rw [← hy]; exact seg_append ..
    simp only [JdifferenceLoop, seg_append, hs, block_shift p J z _ _ _ _ hp]
    cases m.Jdifference (seg x cq m.nx) (seg y cq m.nx) arg (block J cv cv m.ndx m.ndx) with
    | none => rfl
    | some B => simp only [writeBlock_shift p J B z _ _ hp, Nat.add_assoc, ih]

theorem transportLoop_shift (ms : List (Manifold K)) (px pv x v : Vec K) (p J : Mat K) (cq cv arg : ℕ)
    (hv : pv.length = p.length) :
    transportLoop (px.length + cq) (p.length + cv) ms (px ++ x) (pv ++ v) arg (p ++ J) =
      (transportLoop cq cv ms x v arg J).map (p ++ ·) := by
  induction ms generalizing cq cv J with
  | nil => rfl
  | cons m ms ih =>
    have hs : seg (pv ++ v) (p.length + cv) m.ndx = seg v cv m.ndx := by rw [← hv]; exact seg_append ..
    simp only [transportLoop, seg_append, hs]
    cases m.JintegrateTransport (seg x cq m.nx) (seg v cv m.ndx) arg (seg J cv m.ndx) with
    | none => rfl
    | some B => simp only [writeSeg_append, Nat.add_assoc, ih]

theorem block_zeros (n k : ℕ) : block (zeros (n + k) (n + k) : Mat K) 0 0 n n = zeros n n := by
  simp [block, zeros, seg]

theorem writeBlock_zeros (n k : ℕ) (B : Mat K) (hB : B.length = n) (hr : ∀ r ∈ B, r.length = n) :
    writeBlock (zeros (n + k) (n + k)) 0 0 B =
      B.map (· ++ List.replicate k 0) ++ (zeros k k).map (List.replicate n (0 : K) ++ ·) := by
  have h1 : List.zipWith (fun row b => writeSeg row 0 b) (seg (zeros (n + k) (n + k)) 0 B.length) B =
      B.map (· ++ List.replicate k 0) := by
    have : seg (zeros (n + k) (n + k) : Mat K) 0 B.length = List.replicate n (List.replicate (n + k) 0) := by
      simp [seg, zeros, hB]
    rw [this]
    clear this
    subst hB
    generalize hN : B.length + k = N
    have hN' : ∀ r ∈ B, (List.replicate N (0 : K)).drop r.length = List.replicate k 0 := by
      intro r h; rw [List.drop_replicate, hr r h]; congr 1; omega
    clear hr hN
    induction B with
    | nil => rfl
    | cons b B ih =>
      rw [List.length_cons, List.replicate_succ, List.zipWith_cons_cons, ih fun r h => hN' r (by simp [h])]
      simp [writeSeg, hN' b (by simp)]
  rw [writeBlock, h1, writeSeg, List.length_map, hB]
  simp [zeros]

theorem setZero_eq (J : Mat K) (n : ℕ) (h : J.length = n) (hr : ∀ r ∈ J, r.length = n) : setZero J = zeros n n := by
  rw [setZero, zeros, List.eq_replicate_iff]
  refine ⟨by simp [h], fun b hb => ?_⟩
  obtain ⟨r, hr', rfl⟩ := List.mem_map.mp hb
  rw [List.eq_replicate_iff]
  exact ⟨by simp [hr r hr'], by simp⟩

theorem sum_zipWith_append (a c b d : Vec K) (h : a.length = c.length) :
    (List.zipWith (· * ·) (a ++ b) (c ++ d)).sum =
      (List.zipWith (· * ·) a c).sum + (List.zipWith (· * ·) b d).sum := by
  rw [List.zipWith_append h, List.sum_append]

theorem sum_zipWith_zero (n : ℕ) (d : Vec K) : (List.zipWith (· * ·) (List.replicate n 0) d).sum = 0 := by
  induction n generalizing d with
  | zero => simp
  | succ n ih => cases d with
    | nil => simp
    | cons a d => simp [List.replicate_succ, ih]

theorem mulVec_block (n k : ℕ) (B R : Mat K) (c d : Vec K) (hB : ∀ r ∈ B, r.length = n) (hc : c.length = n) :
    mulVec (B.map (· ++ List.replicate k 0) ++ R.map (List.replicate n (0 : K) ++ ·)) (c ++ d) =
      mulVec B c ++ mulVec R d := by
  rw [mulVec, List.map_append, List.map_map, List.map_map]
  congr 1
  · refine List.map_congr_left fun r hr => ?_
    simp [sum_zipWith_append r c _ d ((hB r hr).trans hc.symm), sum_zipWith_zero]
  · refine List.map_congr_left fun r _ => ?_
    simp [sum_zipWith_append (List.replicate n 0) c r d (by simp [hc]), sum_zipWith_zero]

theorem mulVec_identity (n : ℕ) (a : K) (w : Vec K) (h : w.length = n) :
    mulVec (identity n n a) w = w.map (a * ·) := by
  subst h
  have key : ∀ (w : Vec K) (k i : ℕ),
      (List.zipWith (· * ·) ((List.range' k w.length).map fun j => if i = j then a else 0) w).sum =
        if k ≤ i then a * w.getD (i - k) 0 else 0 := by
    intro w
    induction w with
    | nil => intro k i; simp
    | cons b w ih =>
      intro k i
      rw [List.length_cons, List.range'_succ, List.map_cons, List.zipWith_cons_cons, List.sum_cons, ih]
      rcases lt_trichotomy i k with hi | rfl | hi
      · rw [if_neg (by omega), if_neg (by omega), if_neg (by omega)]; ring
      · rw [if_pos rfl, if_neg (by omega), if_pos le_rfl]; simp
      · rw [if_neg (by omega), if_pos (by omega), if_pos (by omega)]
        obtain ⟨j, rfl⟩ := Nat.exists_eq_add_of_lt hi
        rw [show k + j + 1 - (k + 1) = j by omega, show k + j + 1 - k = j + 1 by omega]
        simp
  refine List.ext_getElem (by simp [mulVec, identity]) fun i h1 h2 => ?_
  have hi : i < w.length := by simpa using h2
  have := key w 0 i
  rw [← List.range_eq_range'] at this
  simp only [mulVec, identity, List.map_map, List.getElem_map, List.getElem_range, Function.comp]
  rw [this]
  simp [hi]

theorem neutralLoop_shift (ms : List (Manifold K)) (p out : Vec K) (c : ℕ) :
    neutralLoop (p.length + c) ms (p ++ out) = p ++ neutralLoop c ms out := by
  induction ms generalizing c out with
  | nil => rfl
  | cons m ms ih => rw [neutralLoop, neutralLoop, seg_append, writeSeg_append, Nat.add_assoc, ih]

/-- A block on the diagonal, below a first one. -/
theorem writeBlock_second (n : ℕ) (B R : Mat K) (hB : B.length = n) (hBr : ∀ r ∈ B, r.length = n) (hR : R.length = n)
    (hRr : ∀ r ∈ R, r.length = n) :
    writeBlock (writeBlock (zeros (n + n) (n + n)) 0 0 B) n n R =
      B.map (· ++ List.replicate n 0) ++ R.map (List.replicate n (0 : K) ++ ·) := by
  rw [writeBlock_zeros n n B hB hBr]
  have h := writeBlock_shift (B.map (· ++ List.replicate n 0)) (zeros n n) R (List.replicate n (0 : K)) 0 0 (by simp [hB])
  have h2 := writeBlock_zeros n 0 R hR hRr
  simp only [List.length_replicate, Nat.add_zero] at h h2
  rw [h, h2]
  simp [zeros]

end Aligator.Mani
