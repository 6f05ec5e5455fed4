import Verif.Model.ConstraintSets
import Verif.Spec.ConstraintSets
import Mathlib.Tactic.Ring
import Mathlib.Tactic.Linarith

/-! # Lemmas on list vectors, segments and products -/

namespace Aligator.CSets

open Spec

theorem sub_length {a b : Vec} (h : a.length = b.length) : (sub a b).length = a.length := by
  simp [sub, h]

@[simp] theorem dot_nil : dot [] [] = 0 := rfl
@[simp] theorem dot_cons (a b : ℝ) (l m : Vec) : dot (a :: l) (b :: m) = a * b + dot l m := by
  simp [dot]
@[simp] theorem sub_nil : sub [] [] = [] := rfl
@[simp] theorem sub_cons (a b : ℝ) (l m : Vec) : sub (a :: l) (b :: m) = (a - b) :: sub l m := by
  simp [sub]

theorem dot_append {a b c d : Vec} (h : a.length = c.length) :
    dot (a ++ b) (c ++ d) = dot a c + dot b d := by
  simp [dot, List.zipWith_append h]

theorem sub_append {a b c d : Vec} (h : a.length = c.length) :
    sub (a ++ b) (c ++ d) = sub a c ++ sub b d := by
  simp [sub, List.zipWith_append h]

/-- Induction over two lists of the same length. -/
theorem ind2 {P : Vec → Vec → Prop} (h0 : P [] []) (h1 : ∀ a b l m, l.length = m.length → P l m →
    P (a :: l) (b :: m)) : ∀ {l m : Vec}, l.length = m.length → P l m
  | [], [], _ => h0
  | [], _ :: _, h => by simp at h
  | _ :: _, [], h => by simp at h
  | a :: l, b :: m, h => h1 a b l m (by simpa using h) (ind2 h0 h1 (by simpa using h))

theorem ind3 {P : Vec → Vec → Vec → Prop} (h0 : P [] [] []) (h1 : ∀ a b c l m k, l.length = m.length →
    m.length = k.length → P l m k → P (a :: l) (b :: m) (c :: k)) :
    ∀ {l m k : Vec}, l.length = m.length → m.length = k.length → P l m k
  | [], [], [], _, _ => h0
  | [], _ :: _, _, h, _ => by simp at h
  | _ :: _, [], _, h, _ => by simp at h
  | _, [], _ :: _, _, h => by simp at h
  | _, _ :: _, [], _, h => by simp at h
  | a :: l, b :: m, c :: k, h, h' =>
    h1 a b c l m k (by simpa using h) (by simpa using h') (ind3 h0 h1 (by simpa using h) (by simpa using h'))

theorem dot_self_nonneg (a : Vec) : 0 ≤ dot a a := by
  induction a with
  | nil => simp
  | cons x l ih => rw [dot_cons]; nlinarith [mul_self_nonneg x]

theorem dist2_eq_zero {a b : Vec} (h : a.length = b.length) : dist2 a b ≤ 0 → a = b := by
  refine ind2 (P := fun a b => dist2 a b ≤ 0 → a = b) (by simp) ?_ h
  intro x y l m _ ih hd
  unfold dist2 at hd ih
  rw [sub_cons, dot_cons] at hd
  have h1 := dot_self_nonneg (sub l m)
  have h2 := mul_self_nonneg (x - y)
  have h3 : (x - y) * (x - y) = 0 := by linarith
  have h4 : x - y = 0 := by simpa using h3
  rw [ih (by linarith), sub_eq_zero.1 h4]

theorem dist2_expand {z p w : Vec} (h1 : z.length = p.length) (h2 : p.length = w.length) :
    dist2 z w = dist2 z p + dist2 w p - 2 * dot (sub z p) (sub w p) := by
  refine ind3 (P := fun z p w => dist2 z w = dist2 z p + dist2 w p - 2 * dot (sub z p) (sub w p)) (by simp [dist2])
    ?_ h1 h2
  intro a b c l m k _ _ ih
  unfold dist2 at ih ⊢
  simp only [sub_cons, dot_cons]
  rw [ih]; ring

theorem dot_sub_right {v a b : Vec} (h1 : v.length = a.length) (h2 : a.length = b.length) :
    dot v (sub a b) = dot v a - dot v b := by
  refine ind3 (P := fun v a b => dot v (sub a b) = dot v a - dot v b) (by simp) ?_ h1 h2
  intro x a b v l m _ _ ih
  simp only [sub_cons, dot_cons]
  rw [ih]; ring

theorem dot_comm (a b : Vec) : dot a b = dot b a := by
  unfold dot
  congr 1
  exact List.zipWith_comm_of_comm (fun x y => mul_comm x y)

theorem dot_sub_self {u v : Vec} (h : u.length = v.length) :
    dot (sub u v) (sub u v) = dot u u - 2 * dot u v + dot v v := by
  refine ind2 (P := fun u v => dot (sub u v) (sub u v) = dot u u - 2 * dot u v + dot v v) (by simp) ?_ h
  intro a b l m _ ih
  simp only [sub_cons, dot_cons]
  rw [ih]; ring

theorem dot_sub_left {u v w : Vec} (h1 : u.length = v.length) (h2 : v.length = w.length) :
    dot (sub u v) w = dot u w - dot v w := by
  rw [dot_comm, dot_sub_right (by omega) h1, dot_comm w u, dot_comm w v]

theorem dist2_four : ∀ {z z' p p' : Vec}, z.length = z'.length → z.length = p.length → z.length = p'.length →
    dist2 z z' = dist2 p p' + dot (sub (sub z p) (sub z' p')) (sub (sub z p) (sub z' p'))
        - 2 * dot (sub z p) (sub p' p) - 2 * dot (sub z' p') (sub p p')
  | [], [], [], [], _, _, _ => by simp [dist2]
  | a :: z, b :: z', c :: p, d :: p', h1, h2, h3 => by
    have ih := dist2_four (z := z) (z' := z') (p := p) (p' := p') (by simpa using h1) (by simpa using h2)
      (by simpa using h3)
    unfold dist2 at ih ⊢
    simp only [sub_cons, dot_cons]
    rw [ih]; ring
  | [], _ :: _, _, _, h, _, _ => by simp at h
  | [], _, _ :: _, _, _, h, _ => by simp at h
  | [], _, _, _ :: _, _, _, h => by simp at h
  | _ :: _, [], _, _, h, _, _ => by simp at h
  | _ :: _, _, [], _, _, h, _ => by simp at h
  | _ :: _, _, _, [], _, _, h => by simp at h

/-! ### Segments -/

theorem seg_append {α : Type*} (a b c : List α) : seg (a ++ b ++ c) a.length b.length = b := by
  simp [seg]

theorem writeSeg_append {α : Type*} (a b c new : List α) (h : new.length = b.length) :
    writeSeg (a ++ b ++ c) a.length new = a ++ new ++ c := by
  unfold writeSeg
  rw [h]
  have e1 : List.take a.length (a ++ b ++ c) = a := by simp
  have e2 : List.drop (a.length + b.length) (a ++ b ++ c) = c := by
    rw [← List.length_append, List.drop_left]
  rw [e1, e2]

/-- A component with its block of the input and of the output buffer. -/
structure Blk (α : Type*) where
  c : CSet
  z : Vec
  out : List α

theorem productLoop_blocks {α : Type*} (f : CSet → Vec → List α → List α) (sizes0 : List ℕ) (zpre : Vec)
    (opre : List α) (hz : zpre.length = sizes0.sum) (ho : opre.length = sizes0.sum) (bs : List (Blk α))
    (hb : ∀ b ∈ bs, b.out.length = b.z.length ∧ (f b.c b.z b.out).length = b.out.length) :
    productLoop f (sizes0 ++ bs.map (·.z.length)) (zpre ++ (bs.map (·.z)).flatten) sizes0.length
      (bs.map (·.c)) (opre ++ (bs.map (·.out)).flatten) =
    opre ++ (bs.map fun b => f b.c b.z b.out).flatten := by
  induction bs generalizing sizes0 zpre opre with
  | nil => simp [productLoop]
  | cons b bs ih =>
    obtain ⟨h1, h2⟩ := hb b (List.mem_cons_self ..)
    have hs : blockStart (sizes0 ++ (b :: bs).map (·.z.length)) sizes0.length = sizes0.sum := by
      simp [blockStart]
    have hn : (sizes0 ++ (b :: bs).map (·.z.length)).getD sizes0.length 0 = b.z.length := by
      simp [List.getD_eq_getElem?_getD]
    simp only [List.map_cons, productLoop, List.flatten_cons]
    rw [List.map_cons] at hs hn
    rw [hs, hn, ← List.append_assoc, ← List.append_assoc]
    have e1 : seg (zpre ++ b.z ++ (bs.map (·.z)).flatten) sizes0.sum b.z.length = b.z := by
      rw [← hz]; exact seg_append _ _ _
    have e2 : seg (opre ++ b.out ++ (bs.map (·.out)).flatten) sizes0.sum b.z.length = b.out := by
      rw [← ho, ← h1]; exact seg_append _ _ _
    rw [e1, e2]
    have e3 : writeSeg (opre ++ b.out ++ (bs.map (·.out)).flatten) sizes0.sum (f b.c b.z b.out) =
        opre ++ f b.c b.z b.out ++ (bs.map (·.out)).flatten := by
      rw [← ho]; exact writeSeg_append _ _ _ _ h2
    rw [e3]
    have := ih (sizes0 ++ [b.z.length]) (zpre ++ b.z) (opre ++ f b.c b.z b.out) (by simp [hz])
      (by simp [ho, h2, h1]) (fun b' hb' => hb b' (List.mem_cons_of_mem _ hb'))
    simpa using this

end Aligator.CSets
