import Verif.Lemmas.LqrObjects
import Mathlib.Tactic.NormNum
import Mathlib.Tactic.IntervalCases

/-!
# Properties: LQ knots and problems are values (C70)

Construction, copies, moves, assignments and comparisons of knots and problems, for all dimensions, coefficients and
allocators, block by block.
-/

namespace Aligator.LqrObj

open Spec

variable {K A : Type}

/-! ## Knots -/

/-- **C70**: a new knot has the dimensions asked for, blocks of the documented shapes, all zero, all on the allocator
that was given, whatever the memory contained. -/
theorem C70_new_knot [Zero K] (j : ℕ → K) (nx nu nc nx2 nth : ℕ) (a : A) :
    ∃ k, Knot.new j nx nu nc nx2 nth a = some k ∧
      (k.nx = nx ∧ k.nu = nu ∧ k.nc = nc ∧ k.nx2 = nx2 ∧ k.nth = nth) ∧
      OnAlloc a k ∧ Intact k ∧
      ∀ b, (blk k b).contents
        = some (List.replicate ((shape nx nu nc nx2 nth b).1 * (shape nx nu nc nx2 nth b).2) 0) := by
  choose z hz1 hz2 using fun (s : ℕ × ℕ) => zeroed_spec (A := A) j s.1 s.2 a
  have hz (r c : ℕ) : (AMat.new j r c a).zeroed = some (z (r, c)) := hz1 (r, c)
  have e : Knot.new j nx nu nc nx2 nth a = some ⟨nx, nu, nc, nx2, nth, z (nx, nx), z (nx, nu), z (nu, nu), z (nx, 1),
      z (nu, 1), z (nx2, nx), z (nx2, nu), z (nx2, 1), z (nc, nx), z (nc, nu), z (nc, 1), z (nth, nth), z (nx, nth),
      z (nu, nth), z (nc, nth), z (nth, 1), a⟩ := by
    simp [Knot.new, hz]
  have hb (b : Block) : blk (⟨nx, nu, nc, nx2, nth, z (nx, nx), z (nx, nu), z (nu, nu), z (nx, 1),
      z (nu, 1), z (nx2, nx), z (nx2, nu), z (nx2, 1), z (nc, nx), z (nc, nu), z (nc, 1), z (nth, nth), z (nx, nth),
      z (nu, nth), z (nc, nth), z (nth, 1), a⟩ : Knot K A) b = z (shape nx nu nc nx2 nth b) := by
    cases b <;> rfl
  refine ⟨_, e, ⟨rfl, rfl, rfl, rfl, rfl⟩, ⟨rfl, fun b => ?_⟩, fun b => ⟨?_, ?_⟩, fun b => ?_⟩
  · rw [hb]; exact (hz2 _).2.2.1
  · rw [hb]; exact (hz2 _).live
  · rw [hb, (hz2 _).1, (hz2 _).2.1]
  · rw [hb]; exact (hz2 _).2.2.2.2

/-- **C70**: the shorter constructors are the full one with `nth = 0`, and with `nx2 = nx`. -/
theorem C70_short_constructors [Zero K] (j : ℕ → K) (nx nu nc nx2 : ℕ) (a : A) :
    (∃ k, Knot.new4 j nx nu nc nx2 a = some k ∧ k.nx2 = nx2 ∧ k.nth = 0 ∧ k.nx = nx ∧ k.nu = nu ∧ k.nc = nc ∧
      Intact k) ∧
    (∃ k, Knot.new3 j nx nu nc a = some k ∧ k.nx2 = nx ∧ k.nth = 0 ∧ k.nx = nx ∧ k.nu = nu ∧ k.nc = nc ∧ Intact k) := by
  obtain ⟨k, h1, ⟨h2, h3, h4, h5, h6⟩, -, h7, -⟩ := C70_new_knot j nx nu nc nx2 0 a
  obtain ⟨k', g1, ⟨g2, g3, g4, g5, g6⟩, -, g7, -⟩ := C70_new_knot j nx nu nc nx 0 a
  exact ⟨⟨k, h1, h5, h6, h2, h3, h4, h7⟩, ⟨k', g1, g5, g6, g2, g3, g4, g7⟩⟩

theorem Intact.of_copy {k o : Knot K A} {a : A} (ho : Intact o) (hd : SameDims k o)
    (h : ∀ b, IsCopy (blk o b) (blk k b) a) : Intact k := by
  intro b
  obtain ⟨h1, -, h3⟩ := h b
  obtain ⟨e1, e2, e3, e4, e5⟩ := hd
  refine ⟨h3, ?_⟩
  unfold val at h1
  simp only [Prod.mk.injEq] at h1
  rw [h1.1, h1.2.1, e1, e2, e3, e4, e5]
  exact (ho b).2

/-- **C70**: a copy has the value of its source and lives entirely on the allocator that was given. -/
theorem C70_copy_knot (j : ℕ → K) (o : Knot K A) (a : A) (ho : Intact o) :
    ∃ k, o.copy j a = some k ∧ SameKnot k o ∧ OnAlloc a k ∧ Intact k := by
  choose c hc1 hc2 using fun b => copy_spec j (blk o b) a (ho b).1
  have e : o.copy j a = some ⟨o.nx, o.nu, o.nc, o.nx2, o.nth, c .Q, c .S, c .R, c .q, c .r, c .A, c .B, c .f, c .C,
      c .D, c .d, c .Gth, c .Gx, c .Gu, c .Gv, c .gamma, a⟩ := by
    have h1 := hc1 .Q; have h2 := hc1 .S; have h3 := hc1 .R; have h4 := hc1 .q; have h5 := hc1 .r
    have h6 := hc1 .A; have h7 := hc1 .B; have h8 := hc1 .f; have h9 := hc1 .C; have h10 := hc1 .D
    have h11 := hc1 .d; have h12 := hc1 .Gth; have h13 := hc1 .Gx; have h14 := hc1 .Gu; have h15 := hc1 .Gv
    have h16 := hc1 .gamma
    simp only [blk] at h1 h2 h3 h4 h5 h6 h7 h8 h9 h10 h11 h12 h13 h14 h15 h16
    simp [Knot.copy, h1, h2, h3, h4, h5, h6, h7, h8, h9, h10, h11, h12, h13, h14, h15, h16]
  have hb : ∀ b, IsCopy (blk o b) (blk (⟨o.nx, o.nu, o.nc, o.nx2, o.nth, c .Q, c .S, c .R, c .q, c .r, c .A, c .B, c .f, c .C,
      c .D, c .d, c .Gth, c .Gx, c .Gu, c .Gv, c .gamma, a⟩ : Knot K A) b) a := by
    intro b; cases b <;> exact hc2 _
  exact ⟨_, e, ⟨⟨rfl, rfl, rfl, rfl, rfl⟩, fun b => (hb b).1⟩, ⟨rfl, fun b => (hb b).2.1⟩,
    Intact.of_copy ho ⟨rfl, rfl, rfl, rfl, rfl⟩ hb⟩

/-- **C70**: assignment gives the target the value of the source and leaves it on its own allocators; it is defined
for every target that holds data or has been moved from by construction. -/
theorem C70_assign_knot (j : ℕ → K) (k o : Knot K A) (ho : Intact o) (hk : Assignable k) :
    ∃ k', k.assign j o = some k' ∧ SameKnot k' o ∧ Intact k' ∧ k'.alloc = k.alloc ∧
      ∀ b, (blk k' b).alloc = (blk k b).alloc := by
  choose c hc1 hc2 using fun b => assign_spec j (blk k b) (blk o b) (ho b).1 (hk b)
  have e : k.assign j o = some ⟨o.nx, o.nu, o.nc, o.nx2, o.nth, c .Q, c .S, c .R, c .q, c .r, c .A, c .B, c .f, c .C,
      c .D, c .d, c .Gth, c .Gx, c .Gu, c .Gv, c .gamma, k.alloc⟩ := by
    have h1 := hc1 .Q; have h2 := hc1 .S; have h3 := hc1 .R; have h4 := hc1 .q; have h5 := hc1 .r
    have h6 := hc1 .A; have h7 := hc1 .B; have h8 := hc1 .f; have h9 := hc1 .C; have h10 := hc1 .D
    have h11 := hc1 .d; have h12 := hc1 .Gth; have h13 := hc1 .Gx; have h14 := hc1 .Gu; have h15 := hc1 .Gv
    have h16 := hc1 .gamma
    simp only [blk] at h1 h2 h3 h4 h5 h6 h7 h8 h9 h10 h11 h12 h13 h14 h15 h16
    simp [Knot.assign, h1, h2, h3, h4, h5, h6, h7, h8, h9, h10, h11, h12, h13, h14, h15, h16]
  have hb : ∀ b, IsCopy (blk o b) (blk (⟨o.nx, o.nu, o.nc, o.nx2, o.nth, c .Q, c .S, c .R, c .q, c .r, c .A, c .B, c .f, c .C,
      c .D, c .d, c .Gth, c .Gx, c .Gu, c .Gv, c .gamma, k.alloc⟩ : Knot K A) b) (blk k b).alloc := by
    intro b; cases b <;> exact hc2 _
  refine ⟨_, e, ⟨⟨rfl, rfl, rfl, rfl, rfl⟩, fun b => (hb b).1⟩, fun b => ?_, rfl, fun b => (hb b).2.1⟩
  obtain ⟨h1, -, h3⟩ := hb b
  refine ⟨h3, ?_⟩
  unfold val at h1
  simp only [Prod.mk.injEq] at h1
  rw [h1.1, h1.2.1]
  exact (ho b).2

/-- A live block holds data or nothing. -/
theorem Intact.assignable {k : Knot K A} (h : Intact k) : Assignable k := fun b => Live.assignable (h b).1

/-- **C70** (the documentation "Other allocator will be stolen", gar/lqr-problem.hpp:81, is wrong): move assignment is
copy assignment.  The target stays on its own allocators and the source keeps its value. -/
theorem C70_move_assign_copies (j : ℕ → K) (k o : Knot K A) (ho : Intact o) (hk : Assignable k) :
    ∃ k' o', k.moveAssign j o = some (k', o') ∧ SameKnot k' o ∧ Intact k' ∧ k'.alloc = k.alloc ∧
      (∀ b, (blk k' b).alloc = (blk k b).alloc) ∧ SameKnot o' o ∧ Intact o' := by
  obtain ⟨k', h1, h2, h3, h4, h5⟩ := C70_assign_knot j k o ho hk
  exact ⟨k', o, by unfold Knot.moveAssign; rw [h1], h2, h3, h4, h5, ⟨⟨rfl, rfl, rfl, rfl, rfl⟩, fun _ => rfl⟩, ho⟩

theorem emptied_hollow (o : Knot K A) : Hollow o.emptied := by
  intro b; cases b <;> exact ⟨rfl, rfl⟩

theorem emptied_shape (o : Knot K A) (b : Block) :
    (blk o.emptied b).rows = (blk o b).rows ∧ (blk o.emptied b).cols = (blk o b).cols := by
  cases b <;> exact ⟨rfl, rfl⟩

/-- **C70**: a knot made by moving has the value, the blocks and the allocators of its source; the source keeps its
dimensions and has no buffers left. -/
theorem C70_move_knot (o : Knot K A) (ho : Intact o) :
    SameKnot o.move.1 o ∧ Intact o.move.1 ∧ o.move.1.alloc = o.alloc ∧
      (∀ b, (blk o.move.1 b).alloc = (blk o b).alloc) ∧ SameDims o.move.2 o ∧ Hollow o.move.2 ∧
      o.move.2.alloc = o.alloc :=
  ⟨⟨⟨rfl, rfl, rfl, rfl, rfl⟩, fun _ => rfl⟩, ho, rfl, fun _ => rfl, ⟨rfl, rfl, rfl, rfl, rfl⟩, emptied_hollow o, rfl⟩

/-- **C70**: moving with an allocator gives the value on that allocator, whether or not it is the allocator of the
source; the source keeps its dimensions and has no buffers left. -/
theorem C70_move_knot_to [DecidableEq A] (j : ℕ → K) (o : Knot K A) (a : A) (ho : Intact o) :
    ∃ k o', o.moveTo j a = some (k, o') ∧ SameKnot k o ∧ OnAlloc a k ∧ Intact k ∧ SameDims o' o ∧ Hollow o' := by
  choose c hc1 hc2 using fun b => moveTo_spec j (blk o b) a (ho b).1
  have e : o.moveTo j a = some (⟨o.nx, o.nu, o.nc, o.nx2, o.nth, c .Q, c .S, c .R, c .q, c .r, c .A, c .B, c .f, c .C,
      c .D, c .d, c .Gth, c .Gx, c .Gu, c .Gv, c .gamma, a⟩, o.emptied) := by
    have h1 := hc1 .Q; have h2 := hc1 .S; have h3 := hc1 .R; have h4 := hc1 .q; have h5 := hc1 .r
    have h6 := hc1 .A; have h7 := hc1 .B; have h8 := hc1 .f; have h9 := hc1 .C; have h10 := hc1 .D
    have h11 := hc1 .d; have h12 := hc1 .Gth; have h13 := hc1 .Gx; have h14 := hc1 .Gu; have h15 := hc1 .Gv
    have h16 := hc1 .gamma
    simp only [blk] at h1 h2 h3 h4 h5 h6 h7 h8 h9 h10 h11 h12 h13 h14 h15 h16
    simp [Knot.moveTo, h1, h2, h3, h4, h5, h6, h7, h8, h9, h10, h11, h12, h13, h14, h15, h16]
  have hb : ∀ b, IsCopy (blk o b) (blk (⟨o.nx, o.nu, o.nc, o.nx2, o.nth, c .Q, c .S, c .R, c .q, c .r, c .A, c .B, c .f, c .C,
      c .D, c .d, c .Gth, c .Gx, c .Gu, c .Gv, c .gamma, a⟩ : Knot K A) b) a := by
    intro b; cases b <;> exact hc2 _
  exact ⟨_, _, e, ⟨⟨rfl, rfl, rfl, rfl, rfl⟩, fun b => (hb b).1⟩, ⟨rfl, fun b => (hb b).2.1⟩,
    Intact.of_copy ho ⟨rfl, rfl, rfl, rfl, rfl⟩ hb, ⟨rfl, rfl, rfl, rfl, rfl⟩, emptied_hollow o⟩

theorem copy_null (j : ℕ → K) (m : AMat K A) (a : A) (h : m.data = none) (hs : m.rows * m.cols ≠ 0) :
    m.copy j a = none := by
  unfold AMat.copy; rw [contents_null m h hs]

theorem assign_null (j : ℕ → K) (m o : AMat K A) (h : o.data = none) (hs : o.rows * o.cols ≠ 0) :
    m.assign j o = none := by
  unfold AMat.assign; rw [contents_null o h hs]

/-- **C70**: a knot that has been moved from still reports its dimensions, but copying it or assigning from it is
undefined as soon as the state space is not trivial; assigning *to* it is fine. -/
theorem C70_moved_from (j : ℕ → K) (o k : Knot K A) (a : A) (ho : Intact o) (hx : o.nx ≠ 0) :
    o.move.2.nx = o.nx ∧ o.move.2.copy j a = none ∧ k.assign j o.move.2 = none ∧
      ∀ o2, Intact o2 → ∃ k', o.move.2.assign j o2 = some k' ∧ SameKnot k' o2 := by
  have hQ : o.move.2.Q.data = none ∧ o.move.2.Q.rows * o.move.2.Q.cols ≠ 0 := by
    refine ⟨rfl, ?_⟩
    have := (ho .Q).2
    simp only [shape, blk, Prod.mk.injEq] at this
    show o.Q.rows * o.Q.cols ≠ 0
    rw [this.1, this.2]
    exact mul_ne_zero hx hx
  refine ⟨rfl, ?_, ?_, fun o2 h2 => ?_⟩
  · unfold Knot.copy; rw [copy_null j _ a hQ.1 hQ.2]; rfl
  · unfold Knot.assign; rw [assign_null j _ _ hQ.1 hQ.2]; rfl
  · obtain ⟨k', h1, h3, -⟩ := C70_assign_knot j o.move.2 o2 h2 fun b => Or.inr (emptied_hollow o b).2
    exact ⟨k', h1, h3⟩

/-- **C70** (the dimensions of a knot built from an allocator alone are whatever the memory held): they need not match
its blocks, which are empty. -/
theorem C70_default_knot_dims (g0 g1 g2 g3 g4 : ℕ) (a : A) :
    let k : Knot K A := Knot.onAlloc g0 g1 g2 g3 g4 a
    (k.nx = g0 ∧ k.nu = g1 ∧ k.nc = g2 ∧ k.nx2 = g3 ∧ k.nth = g4) ∧ OnAlloc a k ∧ Hollow k ∧
      ∀ b, (blk k b).rows = 0 := by
  refine ⟨⟨rfl, rfl, rfl, rfl, rfl⟩, ⟨rfl, fun b => ?_⟩, fun b => ?_, fun b => ?_⟩ <;> cases b <;>
    first | rfl | exact ⟨rfl, rfl⟩

/-- **C70**: adding a parameterisation sets the parameter dimension, makes the five parametric blocks zero of the right
shape on their allocators, and touches no other block. -/
theorem C70_add_parameterization [Zero K] (j : ℕ → K) (k : Knot K A) (nth : ℕ) (hk : Intact k) :
    ∃ k', k.addParam j nth = some k' ∧ k'.nth = nth ∧ Intact k' ∧
      (k'.nx = k.nx ∧ k'.nu = k.nu ∧ k'.nc = k.nc ∧ k'.nx2 = k.nx2 ∧ k'.alloc = k.alloc) ∧
      (∀ b, b.parametric = false → blk k' b = blk k b) ∧
      (∀ b, b.parametric = true → (blk k' b).alloc = (blk k b).alloc ∧
        (blk k' b).contents = some (List.replicate
          ((shape k.nx k.nu k.nc k.nx2 nth b).1 * (shape k.nx k.nu k.nc k.nx2 nth b).2) 0)) := by
  choose c hc1 hc2 using fun b => setZero_spec j (blk k b) (shape k.nx k.nu k.nc k.nx2 nth b).1
    (shape k.nx k.nu k.nc k.nx2 nth b).2 (Live.assignable (hk b).1)
  have e : k.addParam j nth = some { k with nth := nth, Gth := c .Gth, Gx := c .Gx, Gu := c .Gu, Gv := c .Gv, gamma := c .gamma } := by
    have h1 := hc1 .Gth; have h2 := hc1 .Gx; have h3 := hc1 .Gu; have h4 := hc1 .Gv; have h5 := hc1 .gamma
    simp only [blk, shape] at h1 h2 h3 h4 h5
    simp [Knot.addParam, h1, h2, h3, h4, h5]
  refine ⟨_, e, rfl, fun b => ?_, ⟨rfl, rfl, rfl, rfl, rfl⟩, fun b hb => ?_, fun b hb => ?_⟩
  · cases b with
    | Gth => exact ⟨(hc2 .Gth).live, Prod.ext (hc2 .Gth).1 (hc2 .Gth).2.1⟩
    | Gx => exact ⟨(hc2 .Gx).live, Prod.ext (hc2 .Gx).1 (hc2 .Gx).2.1⟩
    | Gu => exact ⟨(hc2 .Gu).live, Prod.ext (hc2 .Gu).1 (hc2 .Gu).2.1⟩
    | Gv => exact ⟨(hc2 .Gv).live, Prod.ext (hc2 .Gv).1 (hc2 .Gv).2.1⟩
    | gamma => exact ⟨(hc2 .gamma).live, Prod.ext (hc2 .gamma).1 (hc2 .gamma).2.1⟩
    | Q => exact hk .Q
    | S => exact hk .S
    | R => exact hk .R
    | q => exact hk .q
    | r => exact hk .r
    | A => exact hk .A
    | B => exact hk .B
    | f => exact hk .f
    | C => exact hk .C
    | D => exact hk .D
    | d => exact hk .d
  · cases b <;> first | rfl | (simp [Block.parametric] at hb)
  · cases b <;> first
      | exact ⟨(hc2 _).2.2.1, (hc2 _).2.2.2.2⟩
      | (simp [Block.parametric] at hb)

/-! ## Comparison of knots -/

section approx
variable [Field K] [LinearOrder K] [IsStrictOrderedRing K]

omit [Field K] [LinearOrder K] [IsStrictOrderedRing K] in
theorem sameDim_iff (k o : Knot K A) : sameDim k o = true ↔ SameDims k o := by
  simp [sameDim, SameDims, and_assoc]

/-- **C70**: on knots that hold data the comparison is always defined, and it says that the dimensions agree and every
one of the sixteen blocks is near. -/
theorem C70_isApprox_iff (prec : K) (k o : Knot K A) (hk : Intact k) (ho : Intact o) :
    ∃ b, k.isApprox prec o = some b ∧ (b = true ↔ SameDims k o ∧ ∀ b, Near prec (blk k b) (blk o b)) := by
  by_cases hd : SameDims k o
  · have hsh (b : Block) : (blk k b).rows = (blk o b).rows ∧ (blk k b).cols = (blk o b).cols := by
      have h1 := (hk b).2
      have h2 := (ho b).2
      obtain ⟨e1, e2, e3, e4, e5⟩ := hd
      rw [e1, e2, e3, e4, e5, ← h2] at h1
      simpa using h1
    choose t ht1 ht2 using fun b => approx_spec prec (blk k b) (blk o b) (hk b).1 (ho b).1 (hsh b).1 (hsh b).2
    have h1 := ht1 .Q; have h2 := ht1 .S; have h3 := ht1 .R; have h4 := ht1 .q; have h5 := ht1 .r
    have h6 := ht1 .A; have h7 := ht1 .B; have h8 := ht1 .f; have h9 := ht1 .C; have h10 := ht1 .D
    have h11 := ht1 .d; have h12 := ht1 .Gth; have h13 := ht1 .Gx; have h14 := ht1 .Gu; have h15 := ht1 .Gv
    have h16 := ht1 .gamma
    simp only [blk] at h1 h2 h3 h4 h5 h6 h7 h8 h9 h10 h11 h12 h13 h14 h15 h16
    have e : k.isApprox prec o = allSC [some (t .Q), some (t .S), some (t .R), some (t .q), some (t .r), some (t .A),
        some (t .B), some (t .f), some (t .C), some (t .D), some (t .d), some (t .Gth), some (t .Gx), some (t .Gu),
        some (t .Gv), some (t .gamma)] := by
      unfold Knot.isApprox
      rw [if_pos ((sameDim_iff k o).2 hd), h1, h2, h3, h4, h5, h6, h7, h8, h9, h10, h11, h12, h13, h14, h15, h16]
    obtain ⟨b, hb⟩ := allSC_defined [some (t .Q), some (t .S), some (t .R), some (t .q), some (t .r), some (t .A),
        some (t .B), some (t .f), some (t .C), some (t .D), some (t .d), some (t .Gth), some (t .Gx), some (t .Gu),
        some (t .Gv), some (t .gamma)] (by intro b hb; simp at hb; aesop)
    refine ⟨b, e.trans hb, ?_⟩
    have hbt : b = true ↔ ∀ c, t c = true := by
      have : (b = true) ↔ (some b = some true) := by simp
      rw [this, ← hb, allSC_true]
      simp only [List.mem_cons, List.not_mem_nil, or_false, forall_eq_or_imp, forall_eq, Option.some.injEq]
      constructor
      · rintro ⟨a1, a2, a3, a4, a5, a6, a7, a8, a9, a10, a11, a12, a13, a14, a15, a16⟩ c
        cases c <;> assumption
      · intro h
        exact ⟨h _, h _, h _, h _, h _, h _, h _, h _, h _, h _, h _, h _, h _, h _, h _, h _⟩
    rw [hbt]
    exact ⟨fun h => ⟨hd, fun c => (ht2 c).1 (h c)⟩, fun h c => (ht2 c).2 (h.2 c)⟩
  · refine ⟨false, ?_, ?_⟩
    · unfold Knot.isApprox
      rw [if_neg (fun h => hd ((sameDim_iff k o).1 h))]
    · simp [hd]

/-- **C70**: a knot equals itself, equality is symmetric, and a knot equals its copies. -/
theorem C70_isApprox_refl_symm (prec : K) (k o : Knot K A) (hk : Intact k) (ho : Intact o) :
    k.isApprox prec k = some true ∧ k.isApprox prec o = o.isApprox prec k ∧
      ∀ (j : ℕ → K) (a : A) (c : Knot K A), k.copy j a = some c → c.isApprox prec k = some true := by
  have hself : ∀ c : Knot K A, Intact c → SameKnot c k → c.isApprox prec k = some true := by
    intro c hc hs
    obtain ⟨b, h1, h2⟩ := C70_isApprox_iff prec c k hc hk
    rw [h1, h2.2 ⟨hs.1, fun b => ?_⟩]
    have hv := hs.2 b
    unfold val at hv
    simp only [Prod.mk.injEq] at hv
    have := Near.refl prec (blk k b)
    unfold Near coeff at *
    rw [hv.1, hv.2.1, hv.2.2]
    exact this
  refine ⟨hself k hk ⟨⟨rfl, rfl, rfl, rfl, rfl⟩, fun _ => rfl⟩, ?_, ?_⟩
  · obtain ⟨b, h1, h2⟩ := C70_isApprox_iff prec k o hk ho
    obtain ⟨b', g1, g2⟩ := C70_isApprox_iff prec o k ho hk
    rw [h1, g1]
    congr 1
    rw [Bool.eq_iff_iff, h2, g2]
    constructor
    · rintro ⟨hd, h⟩
      obtain ⟨e1, e2, e3, e4, e5⟩ := hd
      refine ⟨⟨e1.symm, e2.symm, e3.symm, e4.symm, e5.symm⟩, fun c => ?_⟩
      have a1 := (hk c).2
      have a2 := (ho c).2
      rw [e1, e2, e3, e4, e5, ← a2] at a1
      simp only [Prod.mk.injEq] at a1
      exact Near.symm a1.1 a1.2 (h c)
    · rintro ⟨hd, h⟩
      obtain ⟨e1, e2, e3, e4, e5⟩ := hd
      refine ⟨⟨e1.symm, e2.symm, e3.symm, e4.symm, e5.symm⟩, fun c => ?_⟩
      have a1 := (ho c).2
      have a2 := (hk c).2
      rw [e1, e2, e3, e4, e5, ← a2] at a1
      simp only [Prod.mk.injEq] at a1
      exact Near.symm a1.1 a1.2 (h c)
  · intro j a c hc
    obtain ⟨c', h1, h2, -, h4⟩ := C70_copy_knot j k a hk
    rw [hc] at h1
    cases h1
    exact hself c h4 h2

/-- **C70**: the tolerance is relative, block by block.  A block that is zero in one knot has to be exactly zero in the
other, whatever the precision. -/
theorem C70_isApprox_zero_block (prec : K) (k o : Knot K A) (hk : Intact k) (ho : Intact o) (b : Block)
    (hz : ∀ i, coeff (blk o b) i = 0) (h : k.isApprox prec o = some true) :
    ∀ i, i < (blk k b).rows * (blk k b).cols → coeff (blk k b) i = 0 := by
  obtain ⟨b', h1, h2⟩ := C70_isApprox_iff prec k o hk ho
  rw [h] at h1
  cases h1
  exact Near.zero ((h2.1 rfl).2 b) fun i _ => hz i

end approx

end Aligator.LqrObj
