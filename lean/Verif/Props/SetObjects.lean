import Verif.Model.SetObjects
import Verif.Props.ActiveSets

/-!
# The proximal parameter of sets, penalties and their products (C36), vectors that are too long (C38)
-/

namespace Aligator.CSets

open Spec

/-- **C36, the parameter of a single set.**  A penalty whose parameter was set to `mu` last, whatever was set before,
behaves as the penalty with that parameter, and its envelope is the one of `C36_moreau_envelope`; before the first call
there is no envelope. -/
theorem C36_parameter (mu : ℝ) (before : List ℝ) (z out : Vec) :
    ((before.foldl Obj.setProxParameter Obj.l1).setProxParameter mu).cset = l1 mu ∧
    ((before.foldl Obj.setProxParameter Obj.l1).setProxParameter mu).moreauEnvelope z out =
      some (moreauEnvelope (l1 mu) mu z out) ∧
    Obj.l1.moreauEnvelope z out = none := by
  have h : (before.foldl Obj.setProxParameter Obj.l1).methods = CSets.l1 := by
    have key : ∀ (l : List ℝ) (o : Obj), o.methods = CSets.l1 → (l.foldl Obj.setProxParameter o).methods = CSets.l1 := by
      intro l
      induction l with
      | nil => intro o h; exact h
      | cons a l ih => intro o h; exact ih _ h
    exact key before _ rfl
  refine ⟨?_, ?_, rfl⟩
  · simp [Obj.cset, Obj.setProxParameter, h]
  · simp [Obj.moreauEnvelope, Obj.cset, Obj.setProxParameter, h, moreauEnvelope]

/-- **C36, the parameter of a product goes nowhere.**  Setting the parameter of a product changes none of its methods,
whatever the components. -/
theorem C36_product_parameter_ignored (comps : List Obj) (sizes : List ℕ) (P : Obj) (hP : Obj.product comps sizes = some P)
    (mus : List ℝ) :
    CSets.product (comps.map Obj.cset) sizes = some (mus.foldl Obj.setProxParameter P).cset := by
  unfold Obj.product at hP
  cases hS : CSets.product (comps.map Obj.cset) sizes with
  | none => rw [hS] at hP; simp at hP
  | some S =>
    rw [hS] at hP
    simp only [Option.map_some, Option.some.injEq] at hP
    subst hP
    have key : ∀ (l : List ℝ) (o : Obj), (o.methods = fun _ => S) →
        (l.foldl Obj.setProxParameter o).methods = fun _ => S := by
      intro l
      induction l with
      | nil => intro o h; exact h
      | cons a l ih => intro o h; exact ih _ h
    rw [Obj.cset, key mus _ rfl]

/-- **C36, products of penalties.**  If the parameter of every component was `mu` when the product was built and the
parameter of the product is set to `mu` too, then the envelope of the product is that of one penalty on the whole vector:
the least value of `‖w‖₁ + ‖z - w‖² / (2 mu)`. -/
theorem C36_product_of_penalties (mu : ℝ) (bs outs : List Vec) (hl : outs.map List.length = bs.map List.length) (P : Obj)
    (hP : Obj.product (bs.map fun _ => Obj.l1.setProxParameter mu) (bs.map List.length) = some P) (out' : Vec) :
    (P.setProxParameter mu).cset.projection bs.flatten outs.flatten = (l1 mu).projection bs.flatten out' ∧
    (P.setProxParameter mu).moreauEnvelope bs.flatten outs.flatten = some (moreauEnvelope (l1 mu) mu bs.flatten out') := by
  have h := C36_product_parameter_ignored _ _ P hP [mu]
  simp only [List.foldl_cons, List.foldl_nil, List.map_map] at h
  set S := (P.setProxParameter mu).cset with hSdef
  have hS : CSets.product ((bs.map fun b => (CSets.l1 mu, b)).map (·.1)) ((bs.map fun b => (CSets.l1 mu, b)).map (·.2.length)) =
      some S := by
    rw [← h]
    simp only [List.map_map]
    rfl
  have hlen : outs.length = bs.length := by simpa using congrArg List.length hl
  have hz : ∀ p ∈ bs.zip outs, p.1.length = p.2.length := by
    intro p hp
    obtain ⟨i, hi, rfl⟩ := List.getElem_of_mem hp
    have hi' : i < bs.length := by simp at hi; omega
    have e : (outs.map List.length)[i]'(by simp; omega) = (bs.map List.length)[i]'(by simpa using hi') := by simp only [hl]
    simpa using e.symm
  have hpl : ∀ b : Vec, (l1Proj mu b).length = b.length := fun b => by simp [l1Proj]
  obtain ⟨h1, h2, h3, -⟩ := C38_product_methods (bs.map fun b => (CSets.l1 mu, b)) S hS
  have hmem : ∀ p ∈ (bs.map fun b => (CSets.l1 mu, b)).zip outs, p.1.1 = CSets.l1 mu ∧ p.1.2.length = p.2.length := by
    intro p hp
    rw [List.zip_map_left] at hp
    obtain ⟨q, hq, rfl⟩ := List.mem_map.1 hp
    exact ⟨rfl, hz q hq⟩
  have hmm : ∀ f : Vec → Vec, ((bs.map fun b => (CSets.l1 mu, b)).zip outs).map (fun p => f p.1.2) = bs.map f := by
    intro f
    rw [List.zip_map_left, List.map_map]
    have : (bs.zip outs).map (fun p => p.1) = bs := List.map_fst_zip (by omega)
    conv_rhs => rw [← this, List.map_map]
    rfl
  have e1 := h2 outs (by simpa [Function.comp_def] using hl) (by
    intro p hp
    obtain ⟨a, b⟩ := hmem p hp
    rw [a, ← b]
    exact hpl _)
  have e2 := h3 outs (by simpa [Function.comp_def] using hl) (by
    intro p hp
    obtain ⟨a, b⟩ := hmem p hp
    rw [a, ← b]
    simp [CSets.l1, hpl])
  have hfl : (bs.map fun b => (CSets.l1 mu, b)).map (·.2) = bs := by simp [Function.comp_def]
  rw [hfl] at e1 e2
  have f1 : S.projection bs.flatten outs.flatten = l1Proj mu bs.flatten := by
    rw [e1, List.map_congr_left (g := fun p => l1Proj mu p.1.2) (fun p hp => by rw [(hmem p hp).1]; rfl), hmm]
    unfold l1Proj
    rw [← List.map_flatten]
  have f2 : S.normalConeProjection bs.flatten outs.flatten = List.zipWith (· - ·) bs.flatten (l1Proj mu bs.flatten) := by
    rw [e2, List.map_congr_left (g := fun p => List.zipWith (· - ·) p.1.2 (l1Proj mu p.1.2))
      (fun p hp => by rw [(hmem p hp).1]; rfl), hmm (fun b => List.zipWith (· - ·) b (l1Proj mu b))]
    clear * -
    induction bs with
    | nil => rfl
    | cons b bs ih =>
      have ha : ∀ u v : Vec, l1Proj mu (u ++ v) = l1Proj mu u ++ l1Proj mu v := fun u v => by simp [l1Proj]
      rw [List.map_cons, List.flatten_cons, List.flatten_cons, ih, ha, List.zipWith_append (by simp [l1Proj])]
  have f3 : ∀ v : Vec, v.length = bs.flatten.length → S.evaluate v = norm1 v := by
    intro v hv
    -- cut `v` into blocks of the same lengths
    have key : ∀ (ls : List ℕ) (v : Vec), v.length = ls.sum → ∃ ws : List Vec, ws.flatten = v ∧ ws.map List.length = ls := by
      intro ls
      induction ls with
      | nil => intro v hv; exact ⟨[], (List.length_eq_zero_iff.1 (by simpa using hv)).symm, rfl⟩
      | cons n ls ih =>
        intro v hv
        obtain ⟨ws, h1, h2⟩ := ih (v.drop n) (by simp at hv ⊢; omega)
        exact ⟨v.take n :: ws, by simp [h1], by simp [h2]; simp at hv; omega⟩
    obtain ⟨ws, hw1, hw2⟩ := key (bs.map List.length) v (by rw [hv, List.length_flatten])
    have hlw : ws.length = bs.length := by simpa using congrArg List.length hw2
    have hS' : CSets.product ((ws.map fun b => (CSets.l1 mu, b)).map (·.1))
        ((ws.map fun b => (CSets.l1 mu, b)).map (·.2.length)) = some S := by
      rw [← hS]
      simp only [List.map_map, Function.comp_def]
      rw [hw2]
      congr 1
      simp [hlw]
    have := (C38_product_methods _ S hS').1
    simp only [List.map_map, Function.comp_def, List.map_id'] at this
    rw [hw1] at this
    rw [this, ← hw1]
    clear * -
    induction ws with
    | nil => rfl
    | cons b ws ih =>
      rw [List.map_cons, List.sum_cons, ih]
      simp [CSets.l1, norm1]
  refine ⟨f1, ?_⟩
  have g : (P.setProxParameter mu).moreauEnvelope bs.flatten outs.flatten = some (S.evaluate (List.zipWith (· - ·) bs.flatten
      (S.normalConeProjection bs.flatten outs.flatten)) +
      1 / 2 * (1 / mu) * ((S.normalConeProjection bs.flatten outs.flatten).map fun a => a * a).sum) := rfl
  rw [g, f2, f3 _ (by rw [List.length_zipWith, List.length_zipWith, hpl, min_self, min_self])]
  rfl

/-- **C36 is violated for products whose own parameter alone is set**: the parameter of the components is still 0, the
projection is the identity and the envelope is `‖z‖₁` for every parameter, also where the least value of
`‖w‖₁ + ‖z - w‖² / (2 mu)` is smaller. -/
theorem C36_product_parameter_negation : ∃ P : Obj, Obj.product [Obj.l1] [1] = some P ∧
    (∀ mu out, out.length = 1 → (P.setProxParameter mu).cset.projection [1] out = [1]) ∧
    (∀ out, out.length = 1 → (P.setProxParameter 1).moreauEnvelope [1] out = some 1) ∧
    norm1 [0] + dist2 [1] [0] / (2 * 1) < (1 : ℝ) := by
  refine ⟨_, rfl, fun mu out ho => ?_, fun out ho => ?_, by norm_num [norm1, dist2, dot, sub]⟩
  · obtain ⟨a, rfl⟩ := List.length_eq_one_iff.1 ho
    norm_num [Obj.cset, Obj.setProxParameter, Obj.new, CSets.product, productLoop, Obj.l1, CSets.l1, l1Proj, seg, writeSeg,
      blockStart, Real.sign_of_pos]
  · obtain ⟨a, rfl⟩ := List.length_eq_one_iff.1 ho
    norm_num [Obj.moreauEnvelope, Obj.cset, Obj.setProxParameter, Obj.new, productLoop, productEvaluate, Obj.l1, CSets.l1,
      l1Proj, seg, writeSeg, blockStart, Real.sign_of_pos]

/-- The hypotheses of `C36_product_of_penalties` are met. -/
example : ∃ P, Obj.product ([[3, -2], [1 / 2]].map fun _ : Vec => Obj.l1.setProxParameter 1) [2, 1] = some P ∧
    (P.setProxParameter 1).cset.projection [3, -2, 1 / 2] [0, 0, 0] = (l1 1).projection [3, -2, 1 / 2] [] := by
  refine ⟨_, rfl, ?_⟩
  exact (C36_product_of_penalties 1 [[3, -2], [1 / 2]] [[0, 0], [0]] rfl _ rfl []).1

/-! ### The weight of the penalty in the solver -/

theorem soft_fixed (k mu c a : ℝ) (hk : 0 ≤ k) (hmu : 0 < mu) :
    Real.sign (c + mu * a) * max (|c + mu * a| - k * mu) 0 = c ↔ |a| ≤ k ∧ a * c = k * |c| := by
  have hm : 0 ≤ k * mu := mul_nonneg hk hmu.le
  constructor
  · intro h
    rcases soft_cases (k * mu) (c + mu * a) hm with ⟨h1, e⟩ | ⟨h1, e⟩ | ⟨h1, e⟩ <;> rw [e] at h
    · have ha : a = k := by
        have : mu * (a - k) = 0 := by linarith
        rcases mul_eq_zero.1 this with h | h <;> linarith
      have hc : 0 < c := by linarith
      rw [ha, abs_of_nonneg hk, abs_of_pos hc]
      exact ⟨le_refl _, rfl⟩
    · have ha : a = -k := by
        have : mu * (a + k) = 0 := by linarith
        rcases mul_eq_zero.1 this with h | h <;> linarith
      have hc : c < 0 := by linarith
      rw [ha, abs_neg, abs_of_nonneg hk, abs_of_neg hc]
      exact ⟨le_refl _, by ring⟩
    · rw [← h] at h1 ⊢
      rw [zero_add, abs_mul, abs_of_pos hmu] at h1
      exact ⟨le_of_mul_le_mul_left (by linarith) hmu, by simp⟩
  · rintro ⟨ha, hc⟩
    have h2 := abs_le.1 ha
    have hp : 0 < c → a = k := fun h => by
      rw [abs_of_pos h] at hc
      exact mul_right_cancel₀ h.ne' hc
    have hn : c < 0 → a = -k := fun h => by
      rw [abs_of_neg h] at hc
      exact mul_right_cancel₀ h.ne (by linarith)
    have b1 : mu * a ≤ k * mu := by nlinarith
    have b2 : -(k * mu) ≤ mu * a := by nlinarith
    rcases soft_cases (k * mu) (c + mu * a) hm with ⟨h1, e⟩ | ⟨h1, e⟩ | ⟨h1, e⟩ <;> rw [e]
    · have := hp (by linarith)
      subst this; ring
    · have := hn (by linarith)
      subst this; ring
    · have h3 := abs_le.1 h1
      rcases lt_trichotomy c 0 with h | h | h
      · have := hn h
        subst this; linarith [h3.1]
      · exact h.symm
      · have := hp h
        subst this; linarith [h3.2]

/-- **C36, the weight of the penalty in the solver.**  The solver never sets the parameter of a set, it keeps the value
`m` it had when it was added.  The multiplier update with the solver's penalty parameter `mu` leaves a multiplier
unchanged if and only if every entry is a subgradient of `(m / mu) |·|` at the constraint value: what a run treats is the
penalty with weight `m / mu`, which is 1 only while the two parameters are equal. -/
theorem C36_weight_in_solver (m mu : ℝ) (hm : 0 ≤ m) (hmu : 0 < mu) (c v out : Vec) (outA : List Bool)
    (hl : c.length = v.length) :
    (multiplierStep (l1 m) mu c v v out outA).vsPlus = v ↔
      List.Forall₂ (fun ci vi => |vi| ≤ m / mu ∧ vi * ci = m / mu * |ci|) c v := by
  have key : ∀ ci vi : ℝ, 1 / mu * (ci + mu * vi - Real.sign (ci + mu * vi) * max (|ci + mu * vi| - m) 0) = vi ↔
      |vi| ≤ m / mu ∧ vi * ci = m / mu * |ci| := by
    intro ci vi
    rw [← soft_fixed (m / mu) mu ci vi (div_nonneg hm hmu.le) hmu, div_mul_cancel₀ _ hmu.ne', one_div,
      inv_mul_eq_iff_eq_mul₀ hmu.ne']
    constructor <;> intro h <;> linarith
  refine ind2 (P := fun c v => (multiplierStep (l1 m) mu c v v out outA).vsPlus = v ↔
      List.Forall₂ (fun ci vi => |vi| ≤ m / mu ∧ vi * ci = m / mu * |ci|) c v) ?_ ?_ hl
  · simp [multiplierStep, l1, l1Proj]
  · intro a b l n _ ih
    rw [List.forall₂_cons, ← ih, ← key a b]
    simp [multiplierStep, l1, l1Proj]

/-- A penalty whose parameter was never set has no effect: the only multiplier that is kept is 0, whatever the constraint
value. -/
theorem C36_unset_in_solver (mu : ℝ) (hmu : 0 < mu) (c v out : Vec) (outA : List Bool) (hl : c.length = v.length) :
    (multiplierStep Obj.l1.cset mu c v v out outA).vsPlus = v ↔ ∀ a ∈ v, a = 0 := by
  rw [show Obj.l1.cset = l1 0 from rfl, C36_weight_in_solver 0 mu le_rfl hmu c v out outA hl]
  refine ind2 (P := fun c v => List.Forall₂ (fun ci vi => |vi| ≤ 0 / mu ∧ vi * ci = 0 / mu * |ci|) c v ↔
    ∀ a ∈ v, a = 0) (by simp) ?_ hl
  intro a b l n _ ih
  rw [List.forall₂_cons, ih, List.forall_mem_cons, zero_div]
  constructor
  · rintro ⟨⟨h, -⟩, h2⟩
    exact ⟨abs_nonpos_iff.1 h, h2⟩
  · rintro ⟨rfl, h2⟩
    exact ⟨⟨by simp, by simp⟩, h2⟩

/-- `C36_weight_in_solver` with `m = 1`, `mu = 1 / 2`: at the value 3 the kept multiplier is 2, not 1. -/
example (out : Vec) (outA : List Bool) : (multiplierStep (l1 1) (1 / 2) [3] [2] [2] out outA).vsPlus = [2] ∧
    (multiplierStep (l1 1) (1 / 2) [3] [1] [1] out outA).vsPlus ≠ [1] := by
  rw [C36_weight_in_solver 1 (1 / 2) (by norm_num) (by norm_num) [3] [2] _ _ rfl, Ne,
    C36_weight_in_solver 1 (1 / 2) (by norm_num) (by norm_num) [3] [1] _ _ rfl]
  norm_num

/-! ### Vectors that are too long -/

theorem productLoop_suffix {α : Type} (f : CSet → Vec → List α → List α) (sizes0 : List ℕ) (zpre zsuf : Vec)
    (opre osuf : List α) (hz : zpre.length = sizes0.sum) (ho : opre.length = sizes0.sum) (bs : List (Blk α))
    (hb : ∀ b ∈ bs, b.out.length = b.z.length ∧ (f b.c b.z b.out).length = b.out.length) :
    productLoop f (sizes0 ++ bs.map (·.z.length)) (zpre ++ (bs.map (·.z)).flatten ++ zsuf) sizes0.length
      (bs.map (·.c)) (opre ++ (bs.map (·.out)).flatten ++ osuf) =
    opre ++ (bs.map fun b => f b.c b.z b.out).flatten ++ osuf := by
  induction bs generalizing sizes0 zpre opre with
  | nil => simp [productLoop]
  | cons b bs ih =>
    obtain ⟨h1, h2⟩ := hb b (List.mem_cons_self ..)
    have hs : blockStart (sizes0 ++ (b :: bs).map (·.z.length)) sizes0.length = sizes0.sum := by
      simp [blockStart]
    have hn : (sizes0 ++ (b :: bs).map (·.z.length)).getD sizes0.length 0 = b.z.length := by
      simp [List.getD_eq_getElem?_getD]
    simp only [List.map_cons, productLoop, List.flatten_cons]
    rw [List.map_cons] at hs hn
    rw [hs, hn, ← List.append_assoc, ← List.append_assoc, List.append_assoc _ _ zsuf, List.append_assoc _ _ osuf]
    have e1 : seg (zpre ++ b.z ++ ((bs.map (·.z)).flatten ++ zsuf)) sizes0.sum b.z.length = b.z := by
      rw [← hz]; exact seg_append _ _ _
    have e2 : seg (opre ++ b.out ++ ((bs.map (·.out)).flatten ++ osuf)) sizes0.sum b.z.length = b.out := by
      rw [← ho, ← h1]; exact seg_append _ _ _
    rw [e1, e2]
    have e3 : writeSeg (opre ++ b.out ++ ((bs.map (·.out)).flatten ++ osuf)) sizes0.sum (f b.c b.z b.out) =
        opre ++ f b.c b.z b.out ++ ((bs.map (·.out)).flatten ++ osuf) := by
      rw [← ho]; exact writeSeg_append _ _ _ _ h2
    rw [e3]
    have := ih (sizes0 ++ [b.z.length]) (zpre ++ b.z) (opre ++ f b.c b.z b.out) (by simp [hz])
      (by simp [ho, h2, h1]) (fun b' hb' => hb b' (List.mem_cons_of_mem _ hb'))
    simpa using this

/-- **C38, vectors longer than the blocks.**  No method checks the length: the entries behind the last block are not read,
and those of the output keep what they held.  Python's `projection(z)` passes a new vector of the length of `z`, so the end
of the array it returns is uninitialised memory. -/
theorem C38_longer_vectors {α : Type} (f : CSet → Vec → List α → List α) (bs : List (Blk α)) (zsuf : Vec) (osuf : List α)
    (hb : ∀ b ∈ bs, b.out.length = b.z.length ∧ (f b.c b.z b.out).length = b.out.length) :
    productLoop f (bs.map (·.z.length)) ((bs.map (·.z)).flatten ++ zsuf) 0 (bs.map (·.c))
      ((bs.map (·.out)).flatten ++ osuf) = (bs.map fun b => f b.c b.z b.out).flatten ++ osuf := by
  simpa using productLoop_suffix f [] [] zsuf [] osuf rfl rfl bs hb

/-- A product of one block of size 1 given vectors of length 2. -/
example : ∃ S, CSets.product [negativeOrthant] [1] = some S ∧ S.projection [3, 5] [7, 8] = [0, 8] := by
  refine ⟨_, rfl, ?_⟩
  have := C38_longer_vectors CSet.projection [⟨negativeOrthant, [3], [7]⟩] [5] [8] (by simp [negativeOrthant])
  simpa [negativeOrthant] using this

end Aligator.CSets
