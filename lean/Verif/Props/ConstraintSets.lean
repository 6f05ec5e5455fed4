import Verif.Lemmas.ConstraintSets
import Mathlib.Analysis.Calculus.Deriv.Add
import Mathlib.Analysis.Calculus.Deriv.Slope
import Mathlib.Tactic.FieldSimp
import Mathlib.Tactic.Positivity

/-!
# Constraint sets: projections (C35), l1 penalty (C36), active sets (C37), products (C38), multipliers (C26)
-/

namespace Aligator.CSets

open Spec

/-! ### C38: products -/

/-- **C38** The constructor of a product throws exactly when the numbers of components and sizes differ. -/
theorem C38_constructor (comps : List CSet) (sizes : List ℕ) :
    product comps sizes = none ↔ comps.length ≠ sizes.length := by
  unfold product
  split_ifs with h <;> simp [h]

/-- **C38** Every method of a product acts on each block as the method of its component on that block alone:
for all components whatsoever (nested products, user-defined sets), provided they do not change the size of
the buffer they are given. -/
theorem C38_blockwise {α : Type} (f : CSet → Vec → List α → List α) (bs : List (Blk α))
    (hb : ∀ b ∈ bs, b.out.length = b.z.length ∧ (f b.c b.z b.out).length = b.out.length) :
    productLoop f (bs.map (·.z.length)) (bs.map (·.z)).flatten 0 (bs.map (·.c)) (bs.map (·.out)).flatten =
      (bs.map fun b => f b.c b.z b.out).flatten := by
  simpa using productLoop_blocks f [] [] [] rfl rfl bs hb

theorem productEvaluate_blocks (sizes0 : List ℕ) (zpre : Vec) (hz : zpre.length = sizes0.sum)
    (bs : List (CSet × Vec)) (r : ℝ) :
    productEvaluate (sizes0 ++ bs.map (·.2.length)) (zpre ++ (bs.map (·.2)).flatten) sizes0.length
      (bs.map (·.1)) r = r + (bs.map fun b => b.1.evaluate b.2).sum := by
  induction bs generalizing sizes0 zpre r with
  | nil => simp [productEvaluate]
  | cons b bs ih =>
    have hs : blockStart (sizes0 ++ b.2.length :: bs.map (·.2.length)) sizes0.length = sizes0.sum := by
      simp [blockStart]
    have hn : (sizes0 ++ b.2.length :: bs.map (·.2.length)).getD sizes0.length 0 = b.2.length := by
      simp [List.getD_eq_getElem?_getD]
    simp only [List.map_cons, productEvaluate, List.flatten_cons]
    rw [hs, hn, ← List.append_assoc, ← hz, seg_append]
    have := ih (sizes0 ++ [b.2.length]) (zpre ++ b.2) (by simp [hz]) (r + b.1.evaluate b.2)
    simp only [List.append_assoc, List.cons_append, List.nil_append, List.length_append,
      List.length_singleton, List.length_cons, List.length_nil] at this ⊢
    rw [this, List.sum_cons, add_assoc]

/-- **C38** The product object's methods, spelled out. -/
theorem C38_product_methods (bs : List (CSet × Vec)) (S : CSet)
    (hS : product (bs.map (·.1)) (bs.map (·.2.length)) = some S) :
    S.evaluate (bs.map (·.2)).flatten = (bs.map fun b => b.1.evaluate b.2).sum ∧
    (∀ outs : List Vec, outs.map List.length = bs.map (·.2.length) →
      (∀ p ∈ bs.zip outs, (p.1.1.projection p.1.2 p.2).length = p.2.length) →
      S.projection (bs.map (·.2)).flatten outs.flatten =
        ((bs.zip outs).map fun p => p.1.1.projection p.1.2 p.2).flatten) ∧
    (∀ outs : List Vec, outs.map List.length = bs.map (·.2.length) →
      (∀ p ∈ bs.zip outs, (p.1.1.normalConeProjection p.1.2 p.2).length = p.2.length) →
      S.normalConeProjection (bs.map (·.2)).flatten outs.flatten =
        ((bs.zip outs).map fun p => p.1.1.normalConeProjection p.1.2 p.2).flatten) ∧
    (∀ Js : List (List Vec), Js.map List.length = bs.map (·.2.length) →
      (∀ p ∈ bs.zip Js, (p.1.1.applyProjectionJacobian p.1.2 p.2).length = p.2.length) →
      S.applyProjectionJacobian (bs.map (·.2)).flatten Js.flatten =
        ((bs.zip Js).map fun p => p.1.1.applyProjectionJacobian p.1.2 p.2).flatten) ∧
    (∀ Js : List (List Vec), Js.map List.length = bs.map (·.2.length) →
      (∀ p ∈ bs.zip Js, (p.1.1.applyNormalConeProjectionJacobian p.1.2 p.2).length = p.2.length) →
      S.applyNormalConeProjectionJacobian (bs.map (·.2)).flatten Js.flatten =
        ((bs.zip Js).map fun p => p.1.1.applyNormalConeProjectionJacobian p.1.2 p.2).flatten) ∧
    (∀ outs : List (List Bool), outs.map List.length = bs.map (·.2.length) →
      (∀ p ∈ bs.zip outs, (p.1.1.computeActiveSet p.1.2 p.2).length = p.2.length) →
      S.computeActiveSet (bs.map (·.2)).flatten outs.flatten =
        ((bs.zip outs).map fun p => p.1.1.computeActiveSet p.1.2 p.2).flatten) := by
  unfold product at hS
  rw [if_neg (by simp)] at hS
  cases hS
  have key : ∀ {α : Type} (f : CSet → Vec → List α → List α) (outs : List (List α)),
      outs.map List.length = bs.map (·.2.length) →
      (∀ p ∈ bs.zip outs, (f p.1.1 p.1.2 p.2).length = p.2.length) →
      productLoop f (bs.map (·.2.length)) (bs.map (·.2)).flatten 0 (bs.map (·.1)) outs.flatten =
        ((bs.zip outs).map fun p => f p.1.1 p.1.2 p.2).flatten := by
    intro α f outs hl hf
    have hlen : outs.length = bs.length := by simpa using congrArg List.length hl
    have h1 : (bs.zip outs).map (fun p => p.1) = bs := List.map_fst_zip (by omega)
    have h2 : (bs.zip outs).map (fun p => p.2) = outs := List.map_snd_zip (by omega)
    have := C38_blockwise f ((bs.zip outs).map fun p => (⟨p.1.1, p.1.2, p.2⟩ : Blk α)) (by
      intro b hb
      obtain ⟨p, hp, rfl⟩ := List.mem_map.1 hb
      refine ⟨?_, hf p hp⟩
      obtain ⟨i, hi, rfl⟩ := List.getElem_of_mem hp
      have hi' : i < bs.length := by simp at hi; omega
      have e : (outs.map List.length)[i]'(by simp; omega) = (bs.map (·.2.length))[i]'(by simpa using hi') := by
        simp only [hl]
      simpa using e)
    simp only [List.map_map, Function.comp_def] at this
    have e1 : (bs.zip outs).map (fun p => p.1.2.length) = bs.map (·.2.length) := by
      rw [← h1, List.map_map]; simp [Function.comp_def, h1]
    have e2 : (bs.zip outs).map (fun p => p.1.2) = bs.map (·.2) := by
      conv_rhs => rw [← h1]
      simp [Function.comp_def]
    have e3 : (bs.zip outs).map (fun p => p.1.1) = bs.map (·.1) := by
      conv_rhs => rw [← h1]
      simp [Function.comp_def]
    rw [e1, e2, e3, h2] at this
    exact this
  refine ⟨?_, key _, key _, key _, key _, key _⟩
  simpa using productEvaluate_blocks [] [] rfl bs 0

/-! ### C35: Euclidean projections -/

/-- The methods of `S` project vectors of dimension `n` onto the set `C`. -/
structure ProjectsOnto (S : CSet) (C : Vec → Prop) (n : ℕ) : Prop where
  length : ∀ z out : Vec, z.length = n → out.length = n → (S.projection z out).length = n
  mem : ∀ z out : Vec, z.length = n → out.length = n → C (S.projection z out)
  normal : ∀ z out w : Vec, z.length = n → out.length = n → w.length = n → C w →
    dot (sub z (S.projection z out)) (sub w (S.projection z out)) ≤ 0
  cone : ∀ z out out' : Vec, z.length = n → out.length = n → out'.length = n →
    S.normalConeProjection z out = sub z (S.projection z out')

theorem ProjectsOnto.unique {S : CSet} {C : Vec → Prop} {n : ℕ} (h : ProjectsOnto S C n) {z out w : Vec}
    (hz : z.length = n) (ho : out.length = n) (hw : w.length = n) (hC : C w)
    (hd : dist2 z w ≤ dist2 z (S.projection z out)) : w = S.projection z out := by
  have hl := h.length z out hz ho
  have e := dist2_expand (z := z) (p := S.projection z out) (w := w) (by omega) (by omega)
  have := h.normal z out w hz ho hw hC
  exact dist2_eq_zero (by omega) (by linarith)

theorem ProjectsOnto.closest {S : CSet} {C : Vec → Prop} {n : ℕ} (h : ProjectsOnto S C n) {z out w : Vec}
    (hz : z.length = n) (ho : out.length = n) (hw : w.length = n) (hC : C w) :
    dist2 z (S.projection z out) ≤ dist2 z w := by
  have hl := h.length z out hz ho
  have e := dist2_expand (z := z) (p := S.projection z out) (w := w) (by omega) (by omega)
  have := h.normal z out w hz ho hw hC
  have := dot_self_nonneg (sub w (S.projection z out))
  unfold dist2 at e ⊢
  linarith

/-- The previous content of the output buffer does not matter. -/
theorem ProjectsOnto.out_irrelevant {S : CSet} {C : Vec → Prop} {n : ℕ} (h : ProjectsOnto S C n)
    {z out out' : Vec} (hz : z.length = n) (ho : out.length = n) (ho' : out'.length = n) :
    S.projection z out = S.projection z out' :=
  h.unique hz ho' (h.length z out hz ho) (h.mem z out hz ho)
    (h.closest hz ho (h.length z out' hz ho') (h.mem z out' hz ho'))

/-- **C35** From the variational inequality: `projection` is the Euclidean projection and
`normalConeProjection` is the complementary map, with values in the normal cone. -/
theorem projection_properties {S : CSet} {C : Vec → Prop} {n : ℕ} (h : ProjectsOnto S C n) (out : Vec)
    (ho : out.length = n) :
    IsEuclideanProjection C n (fun z => S.projection z out) ∧
    ∀ z out', z.length = n → out'.length = n →
      S.normalConeProjection z out' = sub z (S.projection z out) ∧
      InNormalCone C n (S.projection z out) (S.normalConeProjection z out') := by
  refine ⟨⟨fun z hz => h.length z out hz ho, fun z hz => h.mem z out hz ho,
    fun z w hz hw hC => h.closest hz ho hw hC, fun z w hz hw hC hd => h.unique hz ho hw hC hd, ?_, ?_, ?_⟩, ?_⟩
  · intro z hz
    have hl := h.length z out hz ho
    symm
    refine h.unique hl ho hl (h.mem z out hz ho) ?_
    have : dist2 (S.projection z out) (S.projection z out) = 0 := by
      have e := dist2_expand (z := z) (p := S.projection z out) (w := S.projection z out) (by omega) rfl
      have e2 : ∀ v : Vec, dist2 v v = 0 := by
        intro v
        induction v with
        | nil => rfl
        | cons a l ih => unfold dist2 at ih ⊢; rw [sub_cons, dot_cons, ih]; ring
      exact e2 _
    rw [this]
    exact dot_self_nonneg _
  · intro z hz hC
    refine (h.unique hz ho hz hC ?_).symm
    have e2 : ∀ v : Vec, dist2 v v = 0 := by
      intro v
      induction v with
      | nil => rfl
      | cons a l ih => unfold dist2 at ih ⊢; rw [sub_cons, dot_cons, ih]; ring
    rw [e2]
    exact dot_self_nonneg _
  · intro z z' hz hz'
    have hl := h.length z out hz ho
    have hl' := h.length z' out hz' ho
    have a1 := h.normal z out _ hz ho hl' (h.mem z' out hz' ho)
    have a2 := h.normal z' out _ hz' ho hl (h.mem z out hz ho)
    set p := S.projection z out
    set p' := S.projection z' out
    have key : dist2 z z' = dist2 p p' + dot (sub (sub z p) (sub z' p')) (sub (sub z p) (sub z' p'))
        - 2 * dot (sub z p) (sub p' p) - 2 * dot (sub z' p') (sub p p') := 
      dist2_four (by omega) (by omega) (by omega)
    have := dot_self_nonneg (sub (sub z p) (sub z' p'))
    show dist2 p p' ≤ dist2 z z'
    linarith
  · intro z out' hz ho'
    have e := h.cone z out' out hz ho' ho
    refine ⟨e, h.mem z out hz ho, fun w hw hC => ?_⟩
    rw [e]
    exact h.normal z out w hz ho hw hC

theorem equality_projects (n : ℕ) : ProjectsOnto equality Spec.Zero n where
  length z out _ ho := by simp [equality, ho]
  mem z out _ _ := by simp [equality, Spec.Zero]
  normal z out w hz ho hw hC := by
    have h0 : ∀ l : Vec, (∀ a ∈ l, a = (0 : ℝ)) → ∀ v : Vec, dot v l = 0 := by
      intro l
      induction l with
      | nil => intro _ v; cases v <;> simp [dot]
      | cons a l ih =>
        intro h v
        cases v with
        | nil => simp [dot]
        | cons b v =>
          rw [dot_cons, h a (by simp), ih (fun a ha => h a (by simp [ha]))]; ring
    refine le_of_eq (h0 _ ?_ _)
    intro a ha
    simp only [sub, equality] at ha
    obtain ⟨i, hi, rfl⟩ := List.getElem_of_mem ha
    simp only [List.length_zipWith, List.length_map] at hi
    simp only [List.getElem_zipWith, List.getElem_map, sub_zero]
    exact hC _ (List.getElem_mem _)
  cone z out out' hz _ ho' := by
    simp only [equality, sub]
    refine List.ext_getElem (by simp; omega) fun i h1 h2 => ?_
    simp

theorem negativeOrthant_projects (n : ℕ) : ProjectsOnto negativeOrthant Nonpos n where
  length z out hz _ := by simp [negativeOrthant, hz]
  mem z out _ _ := by
    intro a ha
    simp only [negativeOrthant, List.mem_map] at ha
    obtain ⟨b, _, rfl⟩ := ha
    exact min_le_right _ _
  normal z out w hz _ hw hC := by
    have hl : z.length = w.length := by omega
    clear hz hw
    simp only [negativeOrthant]
    revert hC
    refine ind2 (P := fun z w => Nonpos w → dot (sub z (z.map fun a => min a 0)) (sub w (z.map fun a => min a 0)) ≤ 0)
      (by simp) ?_ hl
    intro a b l m _ ih hC
    simp only [List.map_cons, sub_cons, dot_cons]
    have hb : b ≤ 0 := hC b (by simp)
    have := ih fun x hx => hC x (by simp [hx])
    have : (a - min a 0) * (b - min a 0) ≤ 0 := by
      rcases le_total a 0 with h | h
      · rw [min_eq_left h]; simp
      · rw [min_eq_right h]; nlinarith
    linarith
  cone z out out' hz _ _ := by
    simp only [negativeOrthant, sub]
    clear hz
    induction z with
    | nil => rfl
    | cons a l ih =>
      simp only [List.map_cons, List.zipWith_cons_cons, List.cons.injEq]
      refine ⟨?_, ih⟩
      rcases le_total a 0 with h | h
      · rw [min_eq_left h, max_eq_right h]; ring
      · rw [min_eq_right h, max_eq_left h]; ring

theorem box_projects (lo up : Vec) (h : List.Forall₂ (· ≤ ·) lo up) : ProjectsOnto (box lo up) (Between lo up) lo.length where
  length z out hz _ := by
    have := h.length_eq
    simp [box, boxProj, hz]; omega
  mem z out hz ho := by
    simp only [box]
    clear ho out
    induction h generalizing z with
    | nil => cases z <;> simp_all [boxProj, Between]
    | @cons l u lo up hlu _ ih =>
      cases z with
      | nil => simp at hz
      | cons a z =>
        obtain ⟨h1, h2⟩ := ih z (by simpa using hz)
        simp only [boxProj, List.zipWith_cons_cons, Between, List.forall₂_cons] at h1 h2 ⊢
        exact ⟨⟨le_max_right _ _, h1⟩, max_le (min_le_right _ _) hlu, h2⟩
  normal z out w hz ho hw hC := by
    simp only [box]
    clear ho out
    induction h generalizing z w with
    | nil => cases z <;> cases w <;> simp_all [boxProj]
    | @cons l u lo up hlu _ ih =>
      cases z with
      | nil => simp at hz
      | cons a z =>
        cases w with
        | nil => simp at hw
        | cons b w =>
          obtain ⟨h1, h2⟩ := hC
          rw [List.forall₂_cons] at h1 h2
          have := ih z w (by simpa using hz) (by simpa using hw) ⟨h1.2, h2.2⟩
          simp only [boxProj, List.zipWith_cons_cons, sub_cons, dot_cons] at this ⊢
          have key : (a - max (min a u) l) * (b - max (min a u) l) ≤ 0 := by
            have hbl := h1.1
            have hbu := h2.1
            rcases le_total a u with h | h
            · rw [min_eq_left h]
              rcases le_total a l with h' | h'
              · rw [max_eq_right h']; nlinarith
              · rw [max_eq_left h']; simp
            · rw [min_eq_right h, max_eq_left hlu]; nlinarith
          linarith
  cone z out out' _ _ _ := rfl

theorem prod_split {cs : List (CSet × (Vec → Prop) × ℕ)} {z : Vec} (hz : z.length = (cs.map (·.2.2)).sum) :
    ∃ zs : List Vec, z = zs.flatten ∧ zs.map List.length = cs.map (·.2.2) := by
  induction cs generalizing z with
  | nil => exact ⟨[], by simpa using hz, rfl⟩
  | cons c cs ih =>
    simp only [List.map_cons, List.sum_cons] at hz
    obtain ⟨zs, h1, h2⟩ := ih (z := z.drop c.2.2) (by simp; omega)
    refine ⟨z.take c.2.2 :: zs, by simp [← h1], ?_⟩
    simp only [List.map_cons, h2, List.length_take, List.cons.injEq, and_true]
    omega

/-- **C35** The product of projections onto sets is the projection onto the product of the sets. -/
theorem product_projects (cs : List (CSet × (Vec → Prop) × ℕ))
    (h : ∀ c ∈ cs, ProjectsOnto c.1 c.2.1 c.2.2) (S : CSet)
    (hS : product (cs.map (·.1)) (cs.map (·.2.2)) = some S) :
    ProjectsOnto S (Spec.Prod (cs.map (·.2))) (cs.map (·.2.2)).sum := by
  unfold product at hS
  rw [if_neg (by simp)] at hS
  cases hS
  -- blocks
  have blocks : ∀ z out : Vec, z.length = (cs.map (·.2.2)).sum → out.length = (cs.map (·.2.2)).sum →
      ∃ bs : List ((CSet × (Vec → Prop) × ℕ) × Vec × Vec), bs.map (·.1) = cs ∧
        z = (bs.map (·.2.1)).flatten ∧ out = (bs.map (·.2.2)).flatten ∧
        ∀ b ∈ bs, b.2.1.length = b.1.2.2 ∧ b.2.2.length = b.1.2.2 := by
    intro z out hz ho
    clear h
    induction cs generalizing z out with
    | nil => exact ⟨[], rfl, by simpa using hz, by simpa using ho, by simp⟩
    | cons c cs ih =>
      simp only [List.map_cons, List.sum_cons] at hz ho
      obtain ⟨bs, h1, h2, h3, h4⟩ := ih (z.drop c.2.2) (out.drop c.2.2) (by simp; omega) (by simp; omega)
      refine ⟨(c, z.take c.2.2, out.take c.2.2) :: bs, by simp [h1], by simp [← h2], by simp [← h3], ?_⟩
      intro b hb
      rcases List.mem_cons.1 hb with rfl | hb
      · simp; omega
      · exact h4 b hb
  have run : ∀ (f : CSet → Vec → Vec → Vec) (bs : List ((CSet × (Vec → Prop) × ℕ) × Vec × Vec)),
      bs.map (·.1) = cs → (∀ b ∈ bs, b.2.1.length = b.1.2.2 ∧ b.2.2.length = b.1.2.2) →
      (∀ b ∈ bs, (f b.1.1 b.2.1 b.2.2).length = b.1.2.2) →
      productLoop f (cs.map (·.2.2)) (bs.map (·.2.1)).flatten 0 (cs.map (·.1)) (bs.map (·.2.2)).flatten =
        (bs.map fun b => f b.1.1 b.2.1 b.2.2).flatten := by
    intro f bs hbs hl hf
    have := C38_blockwise f (bs.map fun b => (⟨b.1.1, b.2.1, b.2.2⟩ : Blk ℝ)) (by
      intro b hb
      obtain ⟨b, hb', rfl⟩ := List.mem_map.1 hb
      obtain ⟨h1, h2⟩ := hl b hb'
      have h3 := hf b hb'
      exact ⟨by simp [h1, h2], by simp [h3, h2]⟩)
    simp only [List.map_map, Function.comp_def] at this
    have e1 : bs.map (fun b => b.2.1.length) = cs.map (·.2.2) := by
      rw [← hbs, List.map_map]
      exact List.map_congr_left fun b hb => (hl b hb).1
    have e2 : bs.map (fun b => b.1.1) = cs.map (·.1) := by rw [← hbs, List.map_map]; rfl
    rw [e1, e2] at this
    exact this
  have hc : ∀ {bs : List ((CSet × (Vec → Prop) × ℕ) × Vec × Vec)}, bs.map (·.1) = cs → ∀ b ∈ bs,
      ProjectsOnto b.1.1 b.1.2.1 b.1.2.2 := by
    intro bs hbs b hb
    exact h _ (hbs ▸ List.mem_map.2 ⟨b, hb, rfl⟩)
  refine ⟨?_, ?_, ?_, ?_⟩
  · intro z out hz ho
    obtain ⟨bs, h1, rfl, rfl, h4⟩ := blocks z out hz ho
    dsimp only
    rw [run CSet.projection bs h1 h4 fun b hb => (hc h1 b hb).length _ _ (h4 b hb).1 (h4 b hb).2]
    rw [List.length_flatten, List.map_map, ← h1, List.map_map]
    congr 1
    exact List.map_congr_left fun b hb => (hc h1 b hb).length _ _ (h4 b hb).1 (h4 b hb).2
  · intro z out hz ho
    obtain ⟨bs, h1, rfl, rfl, h4⟩ := blocks z out hz ho
    dsimp only
    rw [run CSet.projection bs h1 h4 fun b hb => (hc h1 b hb).length _ _ (h4 b hb).1 (h4 b hb).2]
    have hc' := hc h1
    rw [← h1]
    clear run blocks hz ho hc h h1
    induction bs with
    | nil => rfl
    | cons b bs ih =>
      have hb := hc' b (by simp)
      obtain ⟨l1, l2⟩ := h4 b (by simp)
      exact ⟨_, _, rfl, hb.length _ _ l1 l2, hb.mem _ _ l1 l2,
        ih (fun b hb => h4 b (by simp [hb])) fun b hb => hc' b (by simp [hb])⟩
  · intro z out w hz ho hw hC
    obtain ⟨bs, h1, rfl, rfl, h4⟩ := blocks z out hz ho
    dsimp only
    rw [run CSet.projection bs h1 h4 fun b hb => (hc h1 b hb).length _ _ (h4 b hb).1 (h4 b hb).2]
    have hc' := hc h1
    rw [← h1] at hC
    clear run blocks hz ho hc h h1 hw
    induction bs generalizing w with
    | nil =>
      have : w = [] := hC
      subst this
      simp
    | cons b bs ih =>
      have hb := hc' b (by simp)
      obtain ⟨l1, l2⟩ := h4 b (by simp)
      obtain ⟨a, w', rfl, la, Ca, Cw⟩ := hC
      have hp := hb.length _ _ l1 l2
      simp only [List.map_cons, List.flatten_cons] at la Ca ⊢
      rw [sub_append (by omega), sub_append (by omega), dot_append (by
        rw [sub_length (by omega), sub_length (by omega)]; omega)]
      have := hb.normal _ _ a l1 l2 la Ca
      have := ih w' Cw (fun b hb => h4 b (by simp [hb])) (fun b hb => hc' b (by simp [hb]))
      linarith
  · intro z out out' hz ho ho'
    obtain ⟨bs, h1, h2, h3, h4⟩ := blocks z out hz ho
    obtain ⟨bs', h1', h2', h3', h4'⟩ := blocks z out' hz ho'
    have hlen : ∀ b ∈ bs, (b.1.1.normalConeProjection b.2.1 b.2.2).length = b.1.2.2 := by
      intro b hb
      have hP := hc h1 b hb
      obtain ⟨l1, l2⟩ := h4 b hb
      rw [hP.cone _ _ b.2.2 l1 l2 l2, sub_length (by rw [hP.length _ _ l1 l2, l1]), l1]
    dsimp only
    have r1 := run CSet.normalConeProjection bs h1 h4 hlen
    have r2 := run CSet.projection bs' h1' h4' fun b hb =>
      (hc h1' b hb).length _ _ (h4' b hb).1 (h4' b hb).2
    rw [← h2, ← h3] at r1
    rw [← h2', ← h3'] at r2
    rw [r1, r2, h2]
    have hcc := hc h1
    have hcc' := hc h1'
    have hz2 : (bs.map (·.2.1)).flatten = (bs'.map (·.2.1)).flatten := h2.symm.trans h2'
    have hbb : bs.map (·.1) = bs'.map (·.1) := h1.trans h1'.symm
    clear r1 r2 run blocks hz ho ho' hc h h1 h1' h2 h2' h3 h3' hlen
    induction bs generalizing bs' with
    | nil =>
      have : bs' = [] := by simpa using hbb.symm
      subst this; rfl
    | cons b bs ih =>
      cases bs' with
      | nil => simp at hbb
      | cons b' bs' =>
        simp only [List.map_cons, List.cons.injEq] at hbb
        obtain ⟨l1, l2⟩ := h4 b (by simp)
        obtain ⟨l1', l2'⟩ := h4' b' (by simp)
        simp only [List.map_cons, List.flatten_cons] at hz2 ⊢
        have hbz : b.2.1.length = b'.2.1.length := by rw [l1, l1', hbb.1]
        obtain ⟨e1, e2⟩ := List.append_inj hz2 hbz
        have hP := hcc b (by simp)
        have l3 : b'.2.2.length = b.1.2.2 := by rw [l2', hbb.1]
        rw [hP.cone _ _ b'.2.2 l1 l2 l3, ← hbb.1, ← e1,
          sub_append (by rw [hP.length _ _ l1 l3, l1])]
        congr 1
        exact ih (fun b hb => h4 b (by simp [hb])) bs' (fun b hb => h4' b (by simp [hb]))
          (fun b hb => hcc b (by simp [hb])) (fun b hb => hcc' b (by simp [hb])) e2 hbb.2

/-- The sets of the library with the set of vectors they represent: the three basic ones and arbitrarily nested
products. -/
inductive LibrarySet : CSet → (Vec → Prop) → ℕ → Prop
  | equality (n : ℕ) : LibrarySet equality Spec.Zero n
  | negativeOrthant (n : ℕ) : LibrarySet negativeOrthant Nonpos n
  | box (lo up : Vec) : List.Forall₂ (· ≤ ·) lo up → LibrarySet (box lo up) (Between lo up) lo.length
  | product (cs : List (CSet × (Vec → Prop) × ℕ)) (S : CSet) :
      (∀ c ∈ cs, LibrarySet c.1 c.2.1 c.2.2) → product (cs.map (·.1)) (cs.map (·.2.2)) = some S →
      LibrarySet S (Spec.Prod (cs.map (·.2))) (cs.map (·.2.2)).sum

theorem LibrarySet.projects {S : CSet} {C : Vec → Prop} {n : ℕ} (h : LibrarySet S C n) : ProjectsOnto S C n := by
  induction h with
  | equality n => exact equality_projects n
  | negativeOrthant n => exact negativeOrthant_projects n
  | box lo up h => exact box_projects lo up h
  | product cs S _ hS ih => exact product_projects cs ih S hS

/-- **C35** For every set of the library, including nested products: `projection` is the Euclidean projection
(in the set, closest, unique, idempotent, nonexpansive), `normalConeProjection` is `z - projection(z)` and lies
in the normal cone at `projection(z)`; neither depends on the previous contents of the output buffer. -/
theorem C35_projections {S : CSet} {C : Vec → Prop} {n : ℕ} (h : LibrarySet S C n) (out : Vec)
    (ho : out.length = n) :
    IsEuclideanProjection C n (fun z => S.projection z out) ∧
    ∀ z out', z.length = n → out'.length = n →
      S.normalConeProjection z out' = sub z (S.projection z out) ∧
      InNormalCone C n (S.projection z out) (S.normalConeProjection z out') :=
  projection_properties h.projects out ho

/-- **C35** The same for a product of arbitrary (for instance user-defined) projections. -/
theorem C35_product (cs : List (CSet × (Vec → Prop) × ℕ)) (h : ∀ c ∈ cs, ProjectsOnto c.1 c.2.1 c.2.2)
    (S : CSet) (hS : product (cs.map (·.1)) (cs.map (·.2.2)) = some S) (out : Vec)
    (ho : out.length = (cs.map (·.2.2)).sum) :
    IsEuclideanProjection (Spec.Prod (cs.map (·.2))) (cs.map (·.2.2)).sum (fun z => S.projection z out) :=
  (projection_properties (product_projects cs h S hS) out ho).1

/-- Example: a product of an equality, a box and a nested product. -/
example : ∃ S C, LibrarySet S C 4 ∧ S.projection [5, 3, -7, 2] [9, 9, 9, 9] = [0, 1, -7, 0] := by
  obtain ⟨S1, h1⟩ : ∃ S, product [negativeOrthant, negativeOrthant] [1, 1] = some S := ⟨_, rfl⟩
  obtain ⟨S, h2⟩ : ∃ S, product [equality, box [-1] [1], S1] [1, 1, 2] = some S := ⟨_, rfl⟩
  refine ⟨S, _, LibrarySet.product [(equality, Spec.Zero, 1), (box [-1] [1], Between [-1] [1], 1),
    (S1, Spec.Prod [(Nonpos, 1), (Nonpos, 1)], 2)] S ?_ h2, ?_⟩
  · intro c hc
    simp only [List.mem_cons, List.not_mem_nil, or_false] at hc
    rcases hc with rfl | rfl | rfl
    · exact .equality 1
    · exact .box [-1] [1] (by norm_num)
    · exact LibrarySet.product [(negativeOrthant, Nonpos, 1), (negativeOrthant, Nonpos, 1)] S1
        (by
          intro c hc
          simp only [List.mem_cons, List.not_mem_nil, or_false, or_self] at hc
          subst hc
          exact .negativeOrthant 1) h1
  · cases h1
    cases h2
    norm_num [productLoop, blockStart, seg, writeSeg, equality, negativeOrthant, box, boxProj]

/-- **C35** A box with swapped limits is accepted by the constructor; its `projection` is then outside the
(empty) box. -/
theorem C35_swapped_limits (z out : Vec) : ¬ Between [1] [0] ((box [1] [0]).projection z out) := by
  generalize (box [1] [0]).projection z out = v
  rintro ⟨h1, h2⟩
  cases h1 with
  | cons h _ =>
    cases h2 with
    | cons h' _ => linarith

end Aligator.CSets
