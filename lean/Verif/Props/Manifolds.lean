import Verif.Lemmas.Manifolds
import Mathlib.Tactic.NormNum
import Mathlib.Data.Rat.Defs
import Mathlib.Algebra.Field.Rat

/-!
# Manifold laws (C39) and validation of points (C40)
-/

namespace Aligator.Mani

open Spec

variable {K : Type} [Field K]

/-- **C39 on vector spaces.** -/
theorem C39_vector_space (n : ℕ) : Laws (vectorSpace n : Manifold K) (euclid n) ∧
    Interpolates (vectorSpace n : Manifold K) (euclid n) := by
  have key : ∀ (f : K → K → K) (x y : Vec K), x.length = y.length → (∀ a b, f a b = b) → List.zipWith f x y = y := by
    intro f x y h hf
    induction x generalizing y with
    | nil => cases y with
      | nil => rfl
      | cons b y => simp at h
    | cons a x ih => cases y with
      | nil => simp at h
      | cons b y => simp [hf, ih y (by simpa using h)]
  refine ⟨⟨fun x h => h, fun x v h => h, fun x v o hx hv _ => ?_, fun x y o hx hy _ => ?_,
    fun x y o o' hx hy _ _ => ?_, fun x v o o' hx hv _ _ => ?_, fun x o hx _ => ?_⟩, fun x y o hx hy _ => ?_, fun x y o hx hy _ => ?_⟩
  all_goals simp only [vectorSpace, euclid] at *
  · simp [hx, hv]
  · simp [hx, hy]
  · rw [← hy] at hx
    clear hy
    induction x generalizing y with
    | nil => cases y with
      | nil => rfl
      | cons b y => simp at hx
    | cons a x ih => cases y with
      | nil => simp at hx
      | cons b y => simp [ih y (by simpa using hx)]
  · rw [← hv] at hx
    clear hv
    induction x generalizing v with
    | nil => cases v with
      | nil => rfl
      | cons b v => simp at hx
    | cons a x ih => cases v with
      | nil => simp at hx
      | cons b v => simp [ih v (by simpa using hx)]
  · subst hx
    clear * -
    induction x with
    | nil => rfl
    | cons a x ih => simp only [List.length_cons, List.replicate_succ, List.zipWith_cons_cons, add_zero, ih]
  · exact key _ _ _ (hy.trans hx.symm) fun a b => by ring
  · rw [List.zipWith_comm]
    exact key _ _ _ (hx.trans hy.symm) fun a b => by ring

/-- The total dimension of a list of components. -/
def nxs (ms : List (Manifold K)) : ℕ := (ms.map (·.nx)).sum

/-- The total tangent dimension of a list of components. -/
def ndxs (ms : List (Manifold K)) : ℕ := (ms.map (·.ndx)).sum

/-- The loops over a list of components, as a manifold. -/
def loops (ms : List (Manifold K)) : Manifold K := (⟨nxs ms, ndxs ms, ms⟩ : Product K).toManifold

theorem loops_laws (cs : List (Manifold K × Domain K)) (h : ∀ c ∈ cs, Laws c.1 c.2) :
    Laws (loops (cs.map (·.1))) (prod (cs.map (·.2))) := by
  induction cs with
  | nil =>
    refine ⟨fun x hx => ?_, fun x v hx => ?_, fun x v o hx hv ho => ?_, fun x y o hx hy ho => ?_,
      fun x y o o' hx hy ho ho' => ?_, fun x v o o' hx hv ho ho' => ?_, fun x o hx ho => ?_⟩
    · have : x = [] := hx
      simp [this, loops, Product.toManifold, nxs]
    · have : v = [] := hx.2
      simp [this, loops, Product.toManifold, ndxs]
    · have : o = [] := List.eq_nil_of_length_eq_zero (by simpa [loops, Product.toManifold, nxs] using ho)
      subst this; rfl
    · have : o = [] := List.eq_nil_of_length_eq_zero (by simpa [loops, Product.toManifold, ndxs] using ho)
      subst this; exact ⟨hx, rfl⟩
    · have : o' = [] := List.eq_nil_of_length_eq_zero (by simpa [loops, Product.toManifold, nxs] using ho')
      subst this; exact (show y = [] from hy).symm
    · have : o' = [] := List.eq_nil_of_length_eq_zero (by simpa [loops, Product.toManifold, ndxs] using ho')
      subst this; exact hv.2.symm
    · have : o = [] := List.eq_nil_of_length_eq_zero (by simpa [loops, Product.toManifold, nxs] using ho)
      subst this; exact (show x = [] from hx).symm
  | cons c cs ih =>
    obtain ⟨m, D⟩ := c
    have hm : Laws m D := h (m, D) (by simp)
    have hr : Laws (loops (cs.map (·.1))) (prod (cs.map (·.2))) := ih fun c hc => h c (by simp [hc])
    set ms := cs.map (·.1)
    set Ds := cs.map (·.2)
    have hnx : (loops (m :: ms)).nx = m.nx + (loops ms).nx := by simp [loops, Product.toManifold, nxs]
    have hndx : (loops (m :: ms)).ndx = m.ndx + (loops ms).ndx := by simp [loops, Product.toManifold, ndxs]
    show Laws (loops (m :: ms)) (prod (D :: Ds))
    have hint : ∀ a b c d o1 o2, D.pt a → c.length = m.ndx → o1.length = m.nx →
        (loops (m :: ms)).integrate (a ++ b) (c ++ d) (o1 ++ o2) = m.integrate a c o1 ++ (loops ms).integrate b d o2 :=
      fun a b c d o1 o2 ha hc ho => integrateLoop_cons m ms a b c d o1 o2 (hm.len_pt a ha) hc ho
        (hm.len_pt _ (hm.integrate_pt a c o1 ha hc ho))
    have hdif : ∀ a b c d o1 o2, D.pt a → D.pt c → o1.length = m.ndx →
        (loops (m :: ms)).difference (a ++ b) (c ++ d) (o1 ++ o2) =
          m.difference a c o1 ++ (loops ms).difference b d o2 :=
      fun a b c d o1 o2 ha hc ho => differenceLoop_cons m ms a b c d o1 o2 (hm.len_pt a ha) (hm.len_pt c hc) ho
        (hm.len_step a _ (hm.difference_step a c o1 ha hc ho))
    refine ⟨fun x hx => ?_, fun x v hx => ?_, fun x v o hx hv ho => ?_, fun x y o hx hy ho => ?_,
      fun x y o o' hx hy ho ho' => ?_, fun x v o o' hx hv ho ho' => ?_, fun x o hx ho => ?_⟩
    · obtain ⟨a, b, rfl, ha, hb⟩ := hx
      rw [hnx, List.length_append, hm.len_pt a ha, hr.len_pt b hb]
    · obtain ⟨a, b, c, d, rfl, rfl, ha, hc, hd⟩ := hx
      rw [hndx, List.length_append, hm.len_step a c hc, hr.len_step b d hd]
    · obtain ⟨a, b, rfl, ha, hb⟩ := hx
      rw [hndx] at hv
      rw [hnx] at ho
      obtain ⟨c, d, rfl, hc, hd⟩ := buf_split v _ _ hv
      obtain ⟨o1, o2, rfl, ho1, ho2⟩ := buf_split o _ _ ho
      rw [hint a b c d o1 o2 ha hc ho1]
      exact ⟨_, _, rfl, hm.integrate_pt a c o1 ha hc ho1, hr.integrate_pt b d o2 hb hd ho2⟩
    · obtain ⟨a, b, rfl, ha, hb⟩ := hx
      obtain ⟨c, d, rfl, hc, hd⟩ := hy
      rw [hndx] at ho
      obtain ⟨o1, o2, rfl, ho1, ho2⟩ := buf_split o _ _ ho
      rw [hdif a b c d o1 o2 ha hc ho1]
      exact ⟨a, b, _, _, rfl, rfl, ha, hm.difference_step a c o1 ha hc ho1, hr.difference_step b d o2 hb hd ho2⟩
    · obtain ⟨a, b, rfl, ha, hb⟩ := hx
      obtain ⟨c, d, rfl, hc, hd⟩ := hy
      rw [hndx] at ho
      rw [hnx] at ho'
      obtain ⟨o1, o2, rfl, ho1, ho2⟩ := buf_split o _ _ ho
      obtain ⟨p1, p2, rfl, hp1, hp2⟩ := buf_split o' _ _ ho'
      rw [hdif a b c d o1 o2 ha hc ho1,
        hint a b _ _ p1 p2 ha (hm.len_step a _ (hm.difference_step a c o1 ha hc ho1)) hp1,
        hm.integrate_difference a c o1 p1 ha hc ho1 hp1, hr.integrate_difference b d o2 p2 hb hd ho2 hp2]
    · obtain ⟨a0, b0, e, ha0, hb0⟩ := hx
      obtain ⟨a, b, c, d, rfl, rfl, ha, hc, hd⟩ := hv
      obtain ⟨rfl, rfl⟩ := List.append_inj e ((hm.len_pt a ha).trans (hm.len_pt a0 ha0).symm)
      rw [hnx] at ho
      rw [hndx] at ho'
      obtain ⟨o1, o2, rfl, ho1, ho2⟩ := buf_split o _ _ ho
      obtain ⟨p1, p2, rfl, hp1, hp2⟩ := buf_split o' _ _ ho'
      rw [hint a b c d o1 o2 ha (hm.len_step a c hc) ho1,
        hdif a b _ _ p1 p2 ha (hm.integrate_pt a c o1 ha (hm.len_step a c hc) ho1) hp1,
        hm.difference_integrate a c o1 p1 ha hc ho1 hp1, hr.difference_integrate b d o2 p2 hb0 hd ho2 hp2]
    · obtain ⟨a, b, rfl, ha, hb⟩ := hx
      rw [hnx] at ho
      obtain ⟨o1, o2, rfl, ho1, ho2⟩ := buf_split o _ _ ho
      rw [hndx, List.replicate_add, hint a b _ _ o1 o2 ha (by simp) ho1, hm.integrate_zero a o1 ha ho1,
        hr.integrate_zero b o2 hb ho2]

/-- Products whose stored dimensions are those of their components. -/
def Product.WF (p : Product K) : Prop := p.nx = nxs p.comps ∧ p.ndx = ndxs p.comps

theorem loops_of_wf (p : Product K) (h : p.WF) : p.toManifold = loops p.comps := by
  obtain ⟨nx, ndx, ms⟩ := p
  obtain ⟨h1, h2⟩ := h
  dsimp only at h1 h2
  subst h1 h2
  rfl

/-- **C39, dimensions.**  Every way to build a product stores the sums of the dimensions and the components in order. -/
theorem C39_product_built :
    (Product.empty : Product K).WF ∧
    (∀ ms : List (Manifold K), (Product.ofList ms).WF ∧ (Product.ofList ms).comps = ms) ∧
    (∀ l r : Manifold K, (Product.pair l r).WF ∧ (Product.pair l r).comps = [l, r]) ∧
    (∀ (p : Product K) (m : Manifold K), p.WF → (p.addComponent m).WF ∧ (p.addComponent m).comps = p.comps ++ [m]) ∧
    (∀ p q : Product K, p.WF → (p.append q).WF ∧ (p.append q).comps = p.comps ++ q.comps) := by
  have hadd : ∀ (p : Product K) (m : Manifold K), p.WF →
      (p.addComponent m).WF ∧ (p.addComponent m).comps = p.comps ++ [m] := by
    rintro p m ⟨h1, h2⟩
    exact ⟨⟨by simp [Product.addComponent, nxs, h1], by simp [Product.addComponent, ndxs, h2]⟩, rfl⟩
  refine ⟨⟨rfl, rfl⟩, fun ms => ?_, fun l r => ⟨⟨?_, ?_⟩, rfl⟩, hadd, fun p q hp => ?_⟩
  · have gen : ∀ (l : List (Manifold K)) (p : Product K),
        let r := l.foldl (fun p m => { p with nx := p.nx + m.nx, ndx := p.ndx + m.ndx }) p
        r.nx = p.nx + nxs l ∧ r.ndx = p.ndx + ndxs l ∧ r.comps = p.comps := by
      intro l
      induction l with
      | nil => intro p; simp [nxs, ndxs]
      | cons m l ih =>
        intro p
        obtain ⟨h1, h2, h3⟩ := ih { p with nx := p.nx + m.nx, ndx := p.ndx + m.ndx }
        simp only [List.foldl_cons]
        refine ⟨h1.trans ?_, h2.trans ?_, h3⟩ <;> simp [nxs, ndxs, Nat.add_assoc]
    obtain ⟨h1, h2, h3⟩ := gen ms ⟨0, 0, ms⟩
    exact ⟨⟨by rw [Product.ofList, h1, h3]; simp, by rw [Product.ofList, h2, h3]; simp⟩, h3⟩
  · simp [Product.pair, nxs]
  · simp [Product.pair, ndxs]
  · have gen : ∀ (l : List (Manifold K)) (p : Product K), p.WF →
        (l.foldl Product.addComponent p).WF ∧ (l.foldl Product.addComponent p).comps = p.comps ++ l := by
      intro l
      induction l with
      | nil => intro p hp; exact ⟨hp, by simp⟩
      | cons m l ih =>
        intro p hp
        obtain ⟨h1, h2⟩ := hadd p m hp
        obtain ⟨h3, h4⟩ := ih _ h1
        exact ⟨h3, by rw [List.foldl_cons, h4, h2]; simp⟩
    exact gen q.comps p hp

/-- **C39 on products.**  If the laws hold on the components, they hold on the product, for every list of components (no
component, components without coordinates, nested products, components whose tangent dimension differs), every point,
step and content of the buffers; interpolation hits the end points. -/
theorem C39_product (cs : List (Manifold K × Domain K)) (h : ∀ c ∈ cs, Laws c.1 c.2) (p : Product K) (hp : p.WF)
    (hc : p.comps = cs.map (·.1)) :
    Laws p.toManifold (prod (cs.map (·.2))) ∧ Interpolates p.toManifold (prod (cs.map (·.2))) := by
  have hl := loops_laws cs h
  rw [← hc] at hl
  rw [loops_of_wf p hp]
  refine ⟨hl, fun x y o hx hy ho => ?_, fun x y o hx hy ho => ?_⟩
  · show (loops p.comps).integrate x (((loops p.comps).difference x y (List.replicate (loops p.comps).ndx 0)).map (0 * ·)) o = x
    have h1 := hl.len_step x _ (hl.difference_step x y (List.replicate (loops p.comps).ndx 0) hx hy (by simp))
    have h2 : ((loops p.comps).difference x y (List.replicate (loops p.comps).ndx 0)).map (0 * ·) =
        List.replicate (loops p.comps).ndx 0 := by
      rw [List.eq_replicate_iff]
      refine ⟨by simpa using h1, fun b hb => ?_⟩
      obtain ⟨r, -, rfl⟩ := List.mem_map.mp hb
      exact zero_mul r
    rw [h2, hl.integrate_zero x o hx ho]
  · show (loops p.comps).integrate x (((loops p.comps).difference x y (List.replicate (loops p.comps).ndx 0)).map (1 * ·)) o = y
    simp only [one_mul, List.map_id']
    exact hl.integrate_difference x y _ o hx hy (by simp) ho

/-- **C39, no interference.**  The parts of the result are the results on the parts. -/
theorem C39_parts (p : Product K) (hp : p.WF) (xs vs os : List (Vec K))
    (hx : xs.map List.length = p.comps.map (·.nx)) (hv : vs.map List.length = p.comps.map (·.ndx))
    (ho : os.map List.length = p.comps.map (·.nx))
    (hm : ∀ m ∈ p.comps, ∀ x v o, x.length = m.nx → v.length = m.ndx → o.length = m.nx →
      (m.integrate x v o).length = m.nx) :
    p.split (p.toManifold.integrate xs.flatten vs.flatten os.flatten) =
      some (List.zipWith (fun m (a : Vec K × Vec K × Vec K) => m.integrate a.1 a.2.1 a.2.2) p.comps
        (xs.zip (vs.zip os))) := by
  have key : ∀ (ms : List (Manifold K)) (xs vs os : List (Vec K)), xs.map List.length = ms.map (·.nx) →
      vs.map List.length = ms.map (·.ndx) → os.map List.length = ms.map (·.nx) →
      (∀ m ∈ ms, ∀ x v o, x.length = m.nx → v.length = m.ndx → o.length = m.nx →
        (m.integrate x v o).length = m.nx) →
      integrateLoop 0 0 ms xs.flatten vs.flatten os.flatten =
        (List.zipWith (fun m (a : Vec K × Vec K × Vec K) => m.integrate a.1 a.2.1 a.2.2) ms
          (xs.zip (vs.zip os))).flatten ∧
      (List.zipWith (fun m (a : Vec K × Vec K × Vec K) => m.integrate a.1 a.2.1 a.2.2) ms
          (xs.zip (vs.zip os))).map List.length = ms.map (·.nx) := by
    intro ms
    induction ms with
    | nil =>
      intro xs vs os h1 h2 h3 _
      simp only [List.map_nil, List.map_eq_nil_iff] at h1 h2 h3
      subst h1 h2 h3
      exact ⟨rfl, rfl⟩
    | cons m ms ih =>
      intro xs vs os h1 h2 h3 h4
      obtain _ | ⟨x, xs⟩ := xs
      · simp at h1
      obtain _ | ⟨v, vs⟩ := vs
      · simp at h2
      obtain _ | ⟨o, os⟩ := os
      · simp at h3
      simp only [List.map_cons, List.cons.injEq] at h1 h2 h3
      have hl := h4 m (by simp) x v o h1.1 h2.1 h3.1
      obtain ⟨i1, i2⟩ := ih xs vs os h1.2 h2.2 h3.2 fun m hm => h4 m (by simp [hm])
      simp only [List.flatten_cons, List.zip_cons_cons, List.zipWith_cons_cons, List.map_cons]
      rw [integrateLoop_cons m ms x _ v _ o _ h1.1 h2.1 h3.1 hl, i1, hl, i2]
      exact ⟨rfl, rfl⟩
  obtain ⟨k1, k2⟩ := key p.comps xs vs os hx hv ho hm
  show p.split (integrateLoop 0 0 p.comps _ _ _) = _
  rw [k1, Product.split, if_neg, splitLoop_flatten _ _ k2]
  rw [not_not, hp.1, List.length_flatten, k2, nxs]

/-- **C39, `split` and `merge`.**  Both are inverse to each other, for points and for tangent vectors; `split` throws
exactly on vectors of another size. -/
theorem C39_split_merge (p : Product K) (hp : p.WF) :
    (∀ x, p.split x = none ↔ x.length ≠ p.nx) ∧
    (∀ x xs, p.split x = some xs → xs.map List.length = p.comps.map (·.nx) ∧ p.merge xs = some x) ∧
    (∀ xs, xs.map List.length = p.comps.map (·.nx) → ∃ x, p.merge xs = some x ∧ p.split x = some xs) ∧
    (∀ v vs, p.splitVector v = some vs → vs.map List.length = p.comps.map (·.ndx) ∧ p.mergeVector vs = some v) ∧
    (∀ vs, vs.map List.length = p.comps.map (·.ndx) → ∃ v, p.mergeVector vs = some v ∧ p.splitVector v = some vs) := by
  obtain ⟨hp1, hp2⟩ := hp
  refine ⟨fun x => ?_, fun x xs h => ?_, fun xs h => ?_, fun v vs h => ?_, fun vs h => ?_⟩
  · rw [Product.split]; split <;> simp_all
  · rw [Product.split] at h
    split at h
    · simp at h
    · rename_i hl
      rw [not_not] at hl
      simp only [Option.some.injEq] at h
      obtain ⟨h1, h2⟩ := flatten_splitLoop (p.comps.map (·.nx)) x (by rw [hl, hp1, nxs])
      rw [h] at h1 h2
      exact ⟨h2, by rw [Product.merge, mergeLoop_flatten _ xs _ (by simp [hp1, nxs]) h2, h1]⟩
  · refine ⟨xs.flatten, mergeLoop_flatten _ xs _ (by simp [hp1, nxs]) h, ?_⟩
    rw [Product.split, if_neg, splitLoop_flatten _ _ h]
    rw [not_not, hp1, List.length_flatten, h, nxs]
  · rw [Product.splitVector] at h
    split at h
    · simp at h
    · rename_i hl
      rw [not_not] at hl
      simp only [Option.some.injEq] at h
      obtain ⟨h1, h2⟩ := flatten_splitLoop (p.comps.map (·.ndx)) v (by rw [hl, hp2, ndxs])
      rw [h] at h1 h2
      exact ⟨h2, by rw [Product.mergeVector, mergeLoop_flatten _ vs _ (by simp [hp2, ndxs]) h2, h1]⟩
  · refine ⟨vs.flatten, mergeLoop_flatten _ vs _ (by simp [hp2, ndxs]) h, ?_⟩
    rw [Product.splitVector, if_neg, splitLoop_flatten _ _ h]
    rw [not_not, hp2, List.length_flatten, h, ndxs]

/-! ### Jacobians of products -/

/-- A component with inputs and the Jacobian it returns on a zero buffer. -/
structure JItem (K : Type) where
  m : Manifold K
  x : Vec K
  y : Vec K
  B : Mat K

/-- A square matrix. -/
def Square (n : ℕ) (B : Mat K) : Prop := B.length = n ∧ ∀ r ∈ B, r.length = n

theorem square_block (n k : ℕ) (B R : Mat K) (hB : Square n B) (hR : Square k R) :
    Square (n + k) (B.map (· ++ List.replicate k 0) ++ R.map (List.replicate n (0 : K) ++ ·)) := by
  refine ⟨by simp [hB.1, hR.1], fun r hr => ?_⟩
  rcases List.mem_append.mp hr with h | h
  · obtain ⟨b, hb, rfl⟩ := List.mem_map.mp h
    simp [hB.2 b hb]
  · obtain ⟨b, hb, rfl⟩ := List.mem_map.mp h
    simp [hR.2 b hb]

/-- **C39, Jacobians of products.**  If every component returns a square Jacobian on a zero buffer, the product returns
a square Jacobian, whatever the buffer held before, and it acts on each part of a tangent vector as the Jacobian of the
component: no cross terms.  (Integration, in both arguments.) -/
theorem C39_Jintegrate (p : Product K) (hp : p.WF) (L : List (JItem K)) (hL : p.comps = L.map (·.m)) (arg : ℕ)
    (hx : ∀ i ∈ L, i.x.length = i.m.nx ∧ i.y.length = i.m.ndx)
    (hJ : ∀ i ∈ L, i.m.Jintegrate i.x i.y arg (zeros i.m.ndx i.m.ndx) = some i.B ∧ Square i.m.ndx i.B)
    (J0 : Mat K) (hJ0 : Square p.ndx J0) :
    ∃ J, p.toManifold.Jintegrate (L.map (·.x)).flatten (L.map (·.y)).flatten arg J0 = some J ∧ Square p.ndx J ∧
      ∀ ws : List (Vec K), ws.map List.length = L.map (·.m.ndx) →
        mulVec J ws.flatten = (List.zipWith (fun i w => mulVec i.B w) L ws).flatten := by
  have key : ∀ L : List (JItem K), (∀ i ∈ L, i.x.length = i.m.nx ∧ i.y.length = i.m.ndx) →
      (∀ i ∈ L, i.m.Jintegrate i.x i.y arg (zeros i.m.ndx i.m.ndx) = some i.B ∧ Square i.m.ndx i.B) →
      ∃ J, JintegrateLoop 0 0 (L.map (·.m)) (L.map (·.x)).flatten (L.map (·.y)).flatten arg
          (zeros (ndxs (L.map (·.m))) (ndxs (L.map (·.m)))) = some J ∧ Square (ndxs (L.map (·.m))) J ∧
        ∀ ws : List (Vec K), ws.map List.length = L.map (·.m.ndx) →
          mulVec J ws.flatten = (List.zipWith (fun i w => mulVec i.B w) L ws).flatten := by
    intro L
    induction L with
    | nil =>
      intro _ _
      refine ⟨[], rfl, ⟨rfl, by simp⟩, fun ws _ => by simp [mulVec]⟩
    | cons i L ih =>
      intro h1 h2
      obtain ⟨R, e1, e2, e3⟩ := ih (fun j hj => h1 j (by simp [hj])) fun j hj => h2 j (by simp [hj])
      obtain ⟨hx, hy⟩ := h1 i (by simp)
      obtain ⟨hB, hsq⟩ := h2 i (by simp)
      have hn : ndxs ((i :: L).map (·.m)) = i.m.ndx + ndxs (L.map (·.m)) := by simp [ndxs]
      generalize ndxs (L.map (·.m)) = k at *
      refine ⟨_, ?_, by rw [hn]; exact square_block _ _ i.B R hsq e2, fun ws hw => ?_⟩
      · rw [hn, List.map_cons, List.map_cons, List.map_cons, List.flatten_cons, List.flatten_cons, JintegrateLoop]
        have s1 : seg (i.x ++ (L.map (·.x)).flatten) 0 i.m.nx = i.x := by rw [← hx]; exact seg_zero ..
        have s2 : seg (i.y ++ (L.map (·.y)).flatten) 0 i.m.ndx = i.y := by rw [← hy]; exact seg_zero ..
        rw [s1, s2, block_zeros, hB]
        simp only [Nat.zero_add]
        rw [writeBlock_zeros _ _ _ hsq.1 hsq.2]
        have := JintegrateLoop_shift (L.map (·.m)) i.x i.y (L.map (·.x)).flatten (L.map (·.y)).flatten
          (List.replicate i.m.ndx 0) (i.B.map (· ++ List.replicate k 0)) (zeros k k) 0 0 arg
          (by simp [hsq.1]) (by simp [hy])
        rw [e1] at this
        simp only [List.length_replicate, Nat.add_zero, hx, Option.map_some] at this
        exact this
      · obtain _ | ⟨w, ws⟩ := ws
        · simp at hw
        simp only [List.map_cons, List.cons.injEq] at hw
        rw [List.flatten_cons, List.zipWith_cons_cons, List.flatten_cons, ← e3 ws hw.2]
        exact mulVec_block _ _ _ _ _ _ hsq.2 hw.1
  obtain ⟨J, h1, h2, h3⟩ := key L hx hJ
  have hn : p.ndx = ndxs (L.map (·.m)) := by rw [hp.2, hL]
  refine ⟨J, ?_, hn ▸ h2, h3⟩
  show JintegrateLoop 0 0 p.comps _ _ arg (setZero J0) = some J
  rw [setZero_eq J0 p.ndx hJ0.1 hJ0.2, hn, hL]
  exact h1

/-- **C39, Jacobians of products.**  (Difference, in both arguments.) -/
theorem C39_Jdifference (p : Product K) (hp : p.WF) (L : List (JItem K)) (hL : p.comps = L.map (·.m)) (arg : ℕ)
    (hx : ∀ i ∈ L, i.x.length = i.m.nx ∧ i.y.length = i.m.nx)
    (hJ : ∀ i ∈ L, i.m.Jdifference i.x i.y arg (zeros i.m.ndx i.m.ndx) = some i.B ∧ Square i.m.ndx i.B)
    (J0 : Mat K) (hJ0 : Square p.ndx J0) :
    ∃ J, p.toManifold.Jdifference (L.map (·.x)).flatten (L.map (·.y)).flatten arg J0 = some J ∧ Square p.ndx J ∧
      ∀ ws : List (Vec K), ws.map List.length = L.map (·.m.ndx) →
        mulVec J ws.flatten = (List.zipWith (fun i w => mulVec i.B w) L ws).flatten := by
  have key : ∀ L : List (JItem K), (∀ i ∈ L, i.x.length = i.m.nx ∧ i.y.length = i.m.nx) →
      (∀ i ∈ L, i.m.Jdifference i.x i.y arg (zeros i.m.ndx i.m.ndx) = some i.B ∧ Square i.m.ndx i.B) →
      ∃ J, JdifferenceLoop 0 0 (L.map (·.m)) (L.map (·.x)).flatten (L.map (·.y)).flatten arg
          (zeros (ndxs (L.map (·.m))) (ndxs (L.map (·.m)))) = some J ∧ Square (ndxs (L.map (·.m))) J ∧
        ∀ ws : List (Vec K), ws.map List.length = L.map (·.m.ndx) →
          mulVec J ws.flatten = (List.zipWith (fun i w => mulVec i.B w) L ws).flatten := by
    intro L
    induction L with
    | nil =>
      intro _ _
      refine ⟨[], rfl, ⟨rfl, by simp⟩, fun ws _ => by simp [mulVec]⟩
    | cons i L ih =>
      intro h1 h2
      obtain ⟨R, e1, e2, e3⟩ := ih (fun j hj => h1 j (by simp [hj])) fun j hj => h2 j (by simp [hj])
      obtain ⟨hx, hy⟩ := h1 i (by simp)
      obtain ⟨hB, hsq⟩ := h2 i (by simp)
      have hn : ndxs ((i :: L).map (·.m)) = i.m.ndx + ndxs (L.map (·.m)) := by simp [ndxs]
      generalize ndxs (L.map (·.m)) = k at *
      refine ⟨_, ?_, by rw [hn]; exact square_block _ _ i.B R hsq e2, fun ws hw => ?_⟩
      · rw [hn, List.map_cons, List.map_cons, List.map_cons, List.flatten_cons, List.flatten_cons, JdifferenceLoop]
        have s1 : seg (i.x ++ (L.map (·.x)).flatten) 0 i.m.nx = i.x := by rw [← hx]; exact seg_zero ..
        have s2 : seg (i.y ++ (L.map (·.y)).flatten) 0 i.m.nx = i.y := by rw [← hy]; exact seg_zero ..
        rw [s1, s2, block_zeros, hB]
        simp only [Nat.zero_add]
        rw [writeBlock_zeros _ _ _ hsq.1 hsq.2]
        have := JdifferenceLoop_shift (L.map (·.m)) i.x i.y (L.map (·.x)).flatten (L.map (·.y)).flatten
          (List.replicate i.m.ndx 0) (i.B.map (· ++ List.replicate k 0)) (zeros k k) 0 0 arg
          (by simp [hsq.1]) (by rw [hx, hy])
        rw [e1] at this
        simp only [List.length_replicate, Nat.add_zero, hx, Option.map_some] at this
        exact this
      · obtain _ | ⟨w, ws⟩ := ws
        · simp at hw
        simp only [List.map_cons, List.cons.injEq] at hw
        rw [List.flatten_cons, List.zipWith_cons_cons, List.flatten_cons, ← e3 ws hw.2]
        exact mulVec_block _ _ _ _ _ _ hsq.2 hw.1
  obtain ⟨J, h1, h2, h3⟩ := key L hx hJ
  have hn : p.ndx = ndxs (L.map (·.m)) := by rw [hp.2, hL]
  refine ⟨J, ?_, hn ▸ h2, h3⟩
  show JdifferenceLoop 0 0 p.comps _ _ arg (setZero J0) = some J
  rw [setZero_eq J0 p.ndx hJ0.1 hJ0.2, hn, hL]
  exact h1

/-- A component with inputs, the rows it transports and the rows it returns. -/
structure TItem (K : Type) where
  m : Manifold K
  x : Vec K
  v : Vec K
  rows : Mat K
  out : Mat K

/-- **C39, transport on products.**  Each component transports its own rows. -/
theorem C39_transport (p : Product K) (L : List (TItem K)) (hL : p.comps = L.map (·.m)) (arg : ℕ)
    (hx : ∀ i ∈ L, i.x.length = i.m.nx ∧ i.v.length = i.m.ndx ∧ i.rows.length = i.m.ndx ∧ i.out.length = i.m.ndx)
    (hJ : ∀ i ∈ L, i.m.JintegrateTransport i.x i.v arg i.rows = some i.out) :
    p.toManifold.JintegrateTransport (L.map (·.x)).flatten (L.map (·.v)).flatten arg (L.map (·.rows)).flatten =
      some (L.map (·.out)).flatten := by
  show transportLoop 0 0 p.comps _ _ arg _ = _
  rw [hL]
  clear hL
  induction L with
  | nil => rfl
  | cons i L ih =>
    obtain ⟨hx1, hv1, hr1, ho1⟩ := hx i (by simp)
    have e1 := ih (fun j hj => hx j (by simp [hj])) fun j hj => hJ j (by simp [hj])
    simp only [List.map_cons, List.flatten_cons]
    rw [transportLoop]
    have s1 : seg (i.x ++ (L.map (·.x)).flatten) 0 i.m.nx = i.x := by rw [← hx1]; exact seg_zero ..
    have s2 : seg (i.v ++ (L.map (·.v)).flatten) 0 i.m.ndx = i.v := by rw [← hv1]; exact seg_zero ..
    have s3 : seg (i.rows ++ (L.map (·.rows)).flatten) 0 i.m.ndx = i.rows := by rw [← hr1]; exact seg_zero ..
    rw [s1, s2, s3, hJ i (by simp)]
    simp only [Nat.zero_add]
    rw [writeSeg_zero _ _ _ (ho1.trans hr1.symm)]
    have := transportLoop_shift (L.map (·.m)) i.x i.v (L.map (·.x)).flatten (L.map (·.v)).flatten i.out
      (L.map (·.rows)).flatten 0 0 arg (hv1.trans ho1.symm)
    rw [e1, hx1, ho1] at this
    simpa using this

/-! ### Tangent bundles -/

theorem head_append {α : Type} (a b : List α) (n : ℕ) (h : a.length = n) : head (a ++ b) n = a := by simp [head, ← h]

theorem tail_append {α : Type} (a b : List α) (n : ℕ) (h : b.length = n) : tail (a ++ b) n = b := by
  simp [tail, ← h]

theorem writeHead_append {α : Type} (a b new : List α) (h : new.length = a.length) :
    writeHead (a ++ b) new = new ++ b := writeSeg_zero a b new h

theorem writeTail_append {α : Type} (a b new : List α) (h : new.length = b.length) :
    writeTail (a ++ b) new = a ++ new := by
  have := writeSeg_append a b new 0
  rw [writeTail, h, List.length_append, Nat.add_sub_cancel]
  rw [Nat.add_zero] at this
  rw [this]
  simp [writeSeg, h]

/-- **C39 on tangent bundles.**  If the laws hold on the base space, they hold on its tangent bundle.  Missing: the end
points of the interpolation (`C39_bundle_interpolation`). -/
theorem C39_tangent_bundle_partial (b : Manifold K) (D : Domain K) (h : Laws b D) :
    Laws (tangentBundle b) (bundle b.ndx D) := by
  have hV := (C39_vector_space (K := K) b.ndx).1
  have hint : ∀ p v a c o1 o2, D.pt p → v.length = b.ndx → a.length = b.ndx → c.length = b.ndx →
      o1.length = b.nx → o2.length = b.ndx →
      (tangentBundle b).integrate (p ++ v) (a ++ c) (o1 ++ o2) = b.integrate p a o1 ++ List.zipWith (· + ·) v c := by
    intro p v a c o1 o2 hp hv ha hc ho1 ho2
    have hl := h.len_pt _ (h.integrate_pt p a o1 hp ha ho1)
    simp only [tangentBundle]
    rw [head_append p v _ (h.len_pt p hp), head_append a c _ ha, head_append o1 o2 _ ho1, tail_append p v _ hv,
      tail_append a c _ hc, writeHead_append _ _ _ (hl.trans ho1.symm), writeTail_append]
    simp [hv, hc, ho2]
  have hdif : ∀ p v q w o1 o2, D.pt p → v.length = b.ndx → D.pt q → w.length = b.ndx →
      o1.length = b.ndx → o2.length = b.ndx →
      (tangentBundle b).difference (p ++ v) (q ++ w) (o1 ++ o2) = b.difference p q o1 ++ List.zipWith (· - ·) w v := by
    intro p v q w o1 o2 hp hv hq hw ho1 ho2
    have hl := h.len_step p _ (h.difference_step p q o1 hp hq ho1)
    simp only [tangentBundle]
    rw [head_append p v _ (h.len_pt p hp), head_append q w _ (h.len_pt q hq), head_append o1 o2 _ ho1,
      tail_append p v _ hv, tail_append q w _ hw, writeHead_append _ _ _ (hl.trans ho1.symm), writeTail_append]
    simp [hv, hw, ho2]
  have hnx : (tangentBundle b).nx = b.nx + b.ndx := rfl
  have hndx : (tangentBundle b).ndx = b.ndx + b.ndx := Nat.two_mul _
  refine ⟨fun x hx => ?_, fun x v hx => ?_, fun x v o hx hv ho => ?_, fun x y o hx hy ho => ?_,
    fun x y o o' hx hy ho ho' => ?_, fun x v o o' hx hv ho ho' => ?_, fun x o hx ho => ?_⟩
  · obtain ⟨p, v, rfl, hp, hv⟩ := hx
    rw [hnx, List.length_append, h.len_pt p hp, hv]
  · obtain ⟨p, v, a, c, rfl, rfl, hp, hv, ha, hc⟩ := hx
    rw [hndx, List.length_append, h.len_step p a ha, hc]
  · obtain ⟨p, w, rfl, hp, hw⟩ := hx
    rw [hndx] at hv
    obtain ⟨a, c, rfl, ha, hc⟩ := buf_split v _ _ hv
    obtain ⟨o1, o2, rfl, ho1, ho2⟩ := buf_split o _ _ ho
    rw [hint p w a c o1 o2 hp hw ha hc ho1 ho2]
    exact ⟨_, _, rfl, h.integrate_pt p a o1 hp ha ho1, by simp [hw, hc]⟩
  · obtain ⟨p, v, rfl, hp, hv⟩ := hx
    obtain ⟨q, w, rfl, hq, hw⟩ := hy
    rw [hndx] at ho
    obtain ⟨o1, o2, rfl, ho1, ho2⟩ := buf_split o _ _ ho
    rw [hdif p v q w o1 o2 hp hv hq hw ho1 ho2]
    exact ⟨p, v, _, _, rfl, rfl, hp, hv, h.difference_step p q o1 hp hq ho1, by simp [hv, hw]⟩
  · obtain ⟨p, v, rfl, hp, hv⟩ := hx
    obtain ⟨q, w, rfl, hq, hw⟩ := hy
    rw [hndx] at ho
    obtain ⟨o1, o2, rfl, ho1, ho2⟩ := buf_split o _ _ ho
    obtain ⟨p1, p2, rfl, hp1, hp2⟩ := buf_split o' _ _ ho'
    rw [hdif p v q w o1 o2 hp hv hq hw ho1 ho2, hint p v _ _ p1 p2 hp hv
      (h.len_step p _ (h.difference_step p q o1 hp hq ho1)) (by simp [hv, hw]) hp1 hp2,
      h.integrate_difference p q o1 p1 hp hq ho1 hp1]
    congr 1
    exact hV.integrate_difference v w (List.replicate b.ndx 0) (List.replicate b.ndx 0) hv hw (by simp [vectorSpace])
      (by simp [vectorSpace])
  · obtain ⟨p', v', e, hp', hv'⟩ := hx
    obtain ⟨p, u, a, c, rfl, rfl, hp, hu, ha, hc⟩ := hv
    obtain ⟨o1, o2, rfl, ho1, ho2⟩ := buf_split o _ _ ho
    rw [hndx] at ho'
    obtain ⟨p1, p2, rfl, hp1, hp2⟩ := buf_split o' _ _ ho'
    have hla := h.len_step p a ha
    rw [hint p u a c o1 o2 hp hu hla hc ho1 ho2, hdif p u _ _ p1 p2 hp hu (h.integrate_pt p a o1 hp hla ho1)
      (by simp [hu, hc]) hp1 hp2, h.difference_integrate p a o1 p1 hp ha ho1 hp1]
    congr 1
    exact hV.difference_integrate u c (List.replicate b.ndx 0) (List.replicate b.ndx 0) hu hc (by simp [vectorSpace])
      (by simp [vectorSpace])
  · obtain ⟨p, v, rfl, hp, hv⟩ := hx
    obtain ⟨o1, o2, rfl, ho1, ho2⟩ := buf_split o _ _ ho
    rw [hndx, List.replicate_add, hint p v _ _ o1 o2 hp hv (by simp) (by simp) ho1 ho2,
      h.integrate_zero p o1 hp ho1]
    congr 1
    exact hV.integrate_zero v (List.replicate b.ndx 0) hv (by simp [vectorSpace])

theorem square_identity (n : ℕ) (a : K) : Square n (identity n n a) := by
  refine ⟨by simp [identity], fun r hr => ?_⟩
  simp only [identity, List.mem_map] at hr
  obtain ⟨i, -, rfl⟩ := hr
  simp

theorem cols_of_square {n : ℕ} {J : Mat K} (h : Square n J) : cols J = n := by
  obtain ⟨h1, h2⟩ := h
  cases J with
  | nil => simpa [cols] using h1
  | cons r J => exact h2 r (by simp)

/-- **C39, Jacobians of vector spaces.**  They are plus or minus the identity, whatever the buffer held. -/
theorem C39_vector_space_jacobians (n : ℕ) (x y : Vec K) (J0 : Mat K) (h : Square n J0) (w : Vec K) (hw : w.length = n) :
    (∀ arg, ∃ J, (vectorSpace n : Manifold K).Jintegrate x y arg J0 = some J ∧ Square n J ∧ mulVec J w = w) ∧
    (∃ J, (vectorSpace n : Manifold K).Jdifference x y 0 J0 = some J ∧ Square n J ∧ mulVec J w = w.map (- ·)) ∧
    (∃ J, (vectorSpace n : Manifold K).Jdifference x y 1 J0 = some J ∧ Square n J ∧ mulVec J w = w) := by
  have hc := cols_of_square h
  refine ⟨fun arg => ⟨identity n n 1, ?_, square_identity n 1, ?_⟩, ⟨identity n n (-1), ?_, square_identity n _, ?_⟩,
    ⟨identity n n 1, ?_, square_identity n 1, ?_⟩⟩
  · simp [vectorSpace, hc, h.1]
  · rw [mulVec_identity n 1 w hw]; simp
  · simp [vectorSpace, hc, h.1]
  · rw [mulVec_identity n _ w hw]; simp
  · simp [vectorSpace, hc, h.1]
  · rw [mulVec_identity n 1 w hw]; simp

/-- **C39, neutral element.**  The neutral element of a product is made of the neutral elements of the components; the
neutral element of a tangent bundle has the velocity 0.  (Components whose `neutral` does not depend on the buffer.) -/
theorem C39_neutral (p : Product K) (hp : p.WF) (L : List (Manifold K × Vec K)) (hL : p.comps = L.map (·.1))
    (hn : ∀ c ∈ L, c.2.length = c.1.nx ∧ ∀ o, o.length = c.1.nx → c.1.neutral o = c.2) (o : Vec K)
    (ho : o.length = p.nx) : p.toManifold.neutral o = (L.map (·.2)).flatten := by
  show neutralLoop 0 p.comps o = _
  rw [hp.1, hL] at ho
  rw [hL]
  clear hL hp
  induction L generalizing o with
  | nil => simpa [nxs, neutralLoop] using ho
  | cons c L ih =>
    obtain ⟨h1, h2⟩ := hn c (by simp)
    obtain ⟨a, b, rfl, ha, hb⟩ := buf_split o c.1.nx (nxs (L.map (·.1))) (by simpa [nxs] using ho)
    have hs : seg (a ++ b) 0 c.1.nx = a := by rw [← ha]; exact seg_zero ..
    rw [List.map_cons, neutralLoop, hs, h2 a ha, writeSeg_zero _ _ _ (h1.trans ha.symm)]
    have := neutralLoop_shift (L.map (·.1)) c.2 b 0
    rw [Nat.add_zero, h1] at this
    rw [Nat.zero_add, this, ih (fun d hd => hn d (by simp [hd])) b hb]
    simp

/-- **C39, neutral element of a tangent bundle.** -/
theorem C39_neutral_bundle (b : Manifold K) (e : Vec K) (he : e.length = b.nx)
    (hn : ∀ o, o.length = b.nx → b.neutral o = e) (o : Vec K) (ho : o.length = b.nx + b.ndx) :
    (tangentBundle b).neutral o = e ++ List.replicate b.ndx 0 := by
  obtain ⟨o1, o2, rfl, h1, h2⟩ := buf_split o _ _ ho
  simp only [tangentBundle, hn _ (List.length_replicate), List.map_append]
  rw [writeHead_append _ _ _ (by simp [he, h1])]
  congr 1
  rw [List.eq_replicate_iff]
  exact ⟨by simp [h2], by simp⟩

/-- **C39, Jacobians of tangent bundles.**  If the base returns a square Jacobian on a zero buffer, the bundle returns,
whatever the buffer held, a Jacobian that acts on the base part as that of the base and on the velocity part as the
identity (integration; difference, second argument) or its negative (difference, first argument). -/
theorem C39_bundle_jacobians (b : Manifold K) (p q a v c B : _) (hp : p.length = b.nx) (hq : q.length = b.nx)
    (ha : a.length = b.ndx) (hB : Square b.ndx B) (J0 : Mat K) (hJ0 : Square (b.ndx + b.ndx) J0)
    (w1 w2 : Vec K) (h1 : w1.length = b.ndx) (h2 : w2.length = b.ndx) :
    (∀ arg, b.Jintegrate p a arg (zeros b.ndx b.ndx) = some B →
      ∃ J, (tangentBundle b).Jintegrate (p ++ v) (a ++ c) arg J0 = some J ∧ Square (b.ndx + b.ndx) J ∧
        mulVec J (w1 ++ w2) = mulVec B w1 ++ w2) ∧
    (b.Jdifference p q 0 (zeros b.ndx b.ndx) = some B →
      ∃ J, (tangentBundle b).Jdifference (p ++ v) (q ++ c) 0 J0 = some J ∧ Square (b.ndx + b.ndx) J ∧
        mulVec J (w1 ++ w2) = mulVec B w1 ++ w2.map (- ·)) ∧
    (b.Jdifference p q 1 (zeros b.ndx b.ndx) = some B →
      ∃ J, (tangentBundle b).Jdifference (p ++ v) (q ++ c) 1 J0 = some J ∧ Square (b.ndx + b.ndx) J ∧
        mulVec J (w1 ++ w2) = mulVec B w1 ++ w2) := by
  have hz := setZero_eq J0 _ hJ0.1 hJ0.2
  have e1 : mulVec (identity b.ndx b.ndx 1) w2 = w2 := by rw [mulVec_identity _ _ _ h2]; simp
  have e2 : mulVec (identity b.ndx b.ndx (-1)) w2 = w2.map (- ·) := by rw [mulVec_identity _ _ _ h2]; simp
  have i1 := square_identity (K := K) b.ndx 1
  have i2 := square_identity (K := K) b.ndx (-1)
  refine ⟨fun arg h => ⟨_, ?_, square_block _ _ B _ hB i1, ?_⟩, fun h => ⟨_, ?_, square_block _ _ B _ hB i2, ?_⟩,
    fun h => ⟨_, ?_, square_block _ _ B _ hB i1, ?_⟩⟩
  · simp only [tangentBundle, hz, block_zeros, head_append p v _ hp, head_append a c _ ha, h, Option.map_some]
    rw [writeBlock_second _ _ _ hB.1 hB.2 i1.1 i1.2]
  · rw [mulVec_block _ _ _ _ _ _ hB.2 h1, e1]
  · simp only [tangentBundle, hz, block_zeros, head_append p v _ hp, head_append q c _ hq, h, Option.map_some, if_true]
    rw [writeBlock_second _ _ _ hB.1 hB.2 i2.1 i2.2]
  · rw [mulVec_block _ _ _ _ _ _ hB.2 h1, e2]
  · simp only [tangentBundle, hz, block_zeros, head_append p v _ hp, head_append q c _ hq, h, Option.map_some,
      one_ne_zero, if_false, if_true]
    rw [writeBlock_second _ _ _ hB.1 hB.2 i1.1 i1.2]
  · rw [mulVec_block _ _ _ _ _ _ hB.2 h1, e1]

/-- **C39, transport on tangent bundles.**  The base transports the upper rows, the lower ones stay. -/
theorem C39_bundle_transport (b : Manifold K) (p v a c : Vec K) (U U' D : Mat K) (hp : p.length = b.nx)
    (ha : a.length = b.ndx) (hU : U.length = b.ndx) (hU' : U'.length = b.ndx) (arg : ℕ)
    (h : b.JintegrateTransport p a arg U = some U') :
    (tangentBundle b).JintegrateTransport (p ++ v) (a ++ c) arg (U ++ D) = some (U' ++ D) := by
  simp only [tangentBundle, head_append p v _ hp, head_append a c _ ha, head_append U D _ hU, h, Option.map_some]
  rw [writeHead_append _ _ _ (hU'.trans hU.symm)]

/-- Hypotheses of `C39_bundle_jacobians` and `C39_neutral`: the tangent bundle of a plane, and a product of a plane with
a line. -/
example : (∃ J, (tangentBundle (vectorSpace 2 : Manifold ℚ)).Jdifference [1, 2, 3, 4] [5, 6, 7, 8] 0
      (List.replicate 4 [9, 9, 9, 9]) = some J ∧ Square 4 J ∧ mulVec J [1, 2, 3, 4] = [-1, -2, -3, -4]) ∧
    (Product.pair (vectorSpace 2) (vectorSpace 1) : Product ℚ).toManifold.neutral [7, 8, 9] = [0, 0, 0] := by
  constructor
  · obtain ⟨J, h1, h2, h3⟩ := (C39_bundle_jacobians (vectorSpace 2 : Manifold ℚ) [1, 2] [5, 6] [0, 0] [3, 4] [7, 8]
      [[-1, 0], [0, -1]] rfl rfl rfl (by simp [Square, vectorSpace]) (List.replicate 4 [9, 9, 9, 9])
      (by simp [Square, vectorSpace]) [1, 2] [3, 4] rfl rfl).2.1
      (by simp [vectorSpace, zeros, identity, cols, List.range_succ, List.replicate])
    exact ⟨J, h1, h2, by simpa [mulVec] using h3⟩
  · exact C39_neutral _ ((C39_product_built (K := ℚ)).2.2.1 (vectorSpace 2) (vectorSpace 1)).1
      [(vectorSpace 2, [0, 0]), (vectorSpace 1, [0])] rfl (by
        intro c hc
        simp only [List.mem_cons, List.not_mem_nil, or_false] at hc
        rcases hc with rfl | rfl
        · refine ⟨rfl, fun o ho => ?_⟩
          match o, ho with
          | [_, _], _ => rfl
        · refine ⟨rfl, fun o ho => ?_⟩
          match o, ho with
          | [_], _ => rfl) [7, 8, 9] rfl

/-- **C39 is violated by the interpolation of tangent bundles.**  It mixes the base coordinates into the velocity: the
end point of the path from (1, 5) to (2, 7) at 0 is (1, 1). -/
theorem C39_bundle_interpolation :
    (tangentBundle (vectorSpace 1 : Manifold ℚ)).interpolate [1, 5] [2, 7] 0 [0, 0] = [1, 1] := by
  norm_num [tangentBundle, vectorSpace, head, writeHead, writeTail, writeSeg]

/-- **C39, order of a product.**  Multiplying a product by a component from the left appends it at the right. -/
theorem C39_left_factor_goes_right :
    ((Product.leftMul (vectorSpace 1) (Product.pair (vectorSpace 2) (vectorSpace 3))).comps.map
      (fun m : Manifold ℚ => m.nx)) = [2, 3, 1] := rfl

/-! ### Validation of points -/

theorem normalizedLoop_true (ms : List (Manifold K)) (c : ℕ) (x : Vec K) : normalizedLoop c ms x true = true := by
  induction ms generalizing c with
  | nil => rfl
  | cons m ms ih => rw [normalizedLoop, Bool.true_or, ih]

/-- **C40, one direction.**  A point whose parts are all normalised is accepted.  Missing: the converse
(`C40_accepts_everything`). -/
theorem C40_complete_partial (p : Product K) (x : Vec K) (xs : List (Vec K)) (h : p.split x = some xs)
    (_ : ∀ a ∈ p.comps.zip xs, a.1.isNormalized a.2 = true) : p.isNormalized x = some true := by
  rw [Product.split] at h
  rw [Product.isNormalized]
  split at h
  · simp at h
  · rename_i hl
    rw [if_neg hl, normalizedLoop_true]

/-- **C40 is violated.**  Whatever the components say, every vector of the right size is accepted. -/
theorem C40_accepts_everything (p : Product K) (x : Vec K) : p.isNormalized x = if x.length = p.nx then some true else none := by
  rw [Product.isNormalized, normalizedLoop_true]
  split <;> simp_all

/-- A component that accepts only the number 1 (as a unit complex number on a line). -/
def onlyOne : Manifold ℚ := { (vectorSpace 1 : Manifold ℚ) with isNormalized := fun x => decide (x = [1]) }

/-- **C40 is violated**, concretely: no part of the point is normalised. -/
theorem C40_witness :
    (Product.pair onlyOne onlyOne).isNormalized [2, 3] = some true ∧ onlyOne.isNormalized [2] = false ∧
      onlyOne.isNormalized [3] = false := by
  refine ⟨by rw [C40_accepts_everything]; rfl, by norm_num [onlyOne], by norm_num [onlyOne]⟩

/-- Tangent bundles validate the base point. -/
theorem C40_tangent_bundle (b : Manifold K) (p v : Vec K) (h : p.length = b.nx) :
    (tangentBundle b).isNormalized (p ++ v) = b.isNormalized p := by
  simp only [tangentBundle, head_append p v _ h]

/-- Hypotheses of `C39_product` and `C39_tangent_bundle_partial`: the product of a plane, a point without coordinates
and the tangent bundle of a line. -/
example : Laws (Product.ofList [vectorSpace 2, vectorSpace 0, tangentBundle (vectorSpace 1)] : Product ℚ).toManifold
    (prod [euclid 2, euclid 0, bundle 1 (euclid 1)]) := by
  have hb := C39_product_built (K := ℚ)
  refine (C39_product [(vectorSpace 2, euclid 2), (vectorSpace 0, euclid 0),
    (tangentBundle (vectorSpace 1), bundle 1 (euclid 1))] ?_ _ (hb.2.1 _).1 (hb.2.1 _).2).1
  intro c hc
  simp only [List.mem_cons, List.not_mem_nil, or_false] at hc
  rcases hc with rfl | rfl | rfl
  · exact (C39_vector_space 2).1
  · exact (C39_vector_space 0).1
  · exact C39_tangent_bundle_partial (vectorSpace 1) (euclid 1) (C39_vector_space 1).1

/-- Hypotheses of `C39_Jdifference`: a product of two vector spaces, first argument. -/
example : ∃ J, (Product.pair (vectorSpace 1) (vectorSpace 2) : Product ℚ).toManifold.Jdifference [1, 2, 3] [4, 5, 6] 0
    [[9, 9, 9], [9, 9, 9], [9, 9, 9]] = some J ∧ mulVec J [1, 2, 3] = [-1, -2, -3] := by
  have hb := C39_product_built (K := ℚ)
  obtain ⟨J, h1, -, h3⟩ := C39_Jdifference _ (hb.2.2.1 (vectorSpace 1) (vectorSpace 2)).1
    [⟨vectorSpace 1, [1], [4], [[-1]]⟩, ⟨vectorSpace 2, [2, 3], [5, 6], [[-1, 0], [0, -1]]⟩] rfl 0
    (by simp [vectorSpace])
    (by simp [vectorSpace, Square, zeros, identity, cols, List.range_succ, List.replicate])
    [[9, 9, 9], [9, 9, 9], [9, 9, 9]] (by simp [Square, Product.pair, vectorSpace])
  refine ⟨J, h1, ?_⟩
  have := h3 [[1], [2, 3]] (by simp [vectorSpace])
  simpa [mulVec] using this

end Aligator.Mani
