import Verif.Props.LqrObjects

/-!
# Properties: LQ problems are values (C70, continued)
-/

namespace Aligator.LqrObj

open Spec

variable {K A : Type}

theorem copyKnots_spec (j : ℕ → K) (ks : List (Knot K A)) (a : A) (h : ∀ k ∈ ks, Intact k) :
    ∃ ks', copyKnots j ks a = some ks' ∧ List.Forall₂ SameKnot ks' ks ∧ ∀ k ∈ ks', OnAlloc a k ∧ Intact k := by
  induction ks with
  | nil => exact ⟨[], rfl, .nil, by simp⟩
  | cons k ks ih =>
    obtain ⟨ks', h1, h2, h3⟩ := ih fun k' hk' => h k' (by simp [hk'])
    obtain ⟨k', g1, g2, g3, g4⟩ := C70_copy_knot j k a (h k (by simp))
    refine ⟨k' :: ks', ?_, .cons g2 h2, ?_⟩
    · unfold copyKnots; rw [g1, h1]
    · intro x hx
      rcases List.mem_cons.1 hx with rfl | hx
      · exact ⟨g3, g4⟩
      · exact h3 x hx

/-- The number of columns of the initial constraint: the state dimension of the first knot, if there is one. -/
theorem firstNx_eq (ks : List (Knot K A)) : firstNx ks = (ks.head?.map fun k => k.nx).getD 0 := by
  cases ks <;> rfl

/-- **C70**: a problem built from knots holds copies of them on the allocator that was given, and an initial constraint
of the right shape. -/
theorem C70_problem_of_knots (j : ℕ → K) (ks : List (Knot K A)) (nc0 : ℕ) (a : A) (h : ∀ k ∈ ks, Intact k) :
    ∃ p, Problem.ofKnots j ks nc0 a = some p ∧ List.Forall₂ SameKnot p.stages ks ∧ POnAlloc a p ∧ PIntact p ∧
      p.nc0 = nc0 ∧ p.horizon = (ks.length : ℤ) - 1 ∧ p.G0.rows = nc0 ∧
      p.G0.cols = (ks.head?.map fun k => k.nx).getD 0 := by
  obtain ⟨ks', h1, h2, h3⟩ := copyKnots_spec j ks a h
  refine ⟨_, by unfold Problem.ofKnots; rw [h1], h2, ⟨rfl, rfl, rfl, fun k hk => (h3 k hk).1⟩, ?_, rfl, ?_, rfl,
    firstNx_eq ks⟩
  · exact ⟨new_live j _ _ a, new_live j _ _ a, rfl, rfl, fun k hk => (h3 k hk).2⟩
  · simp [Problem.horizon, h2.length_eq]

/-- **C70**: taking a vector of knots leaves them as they are, on their allocators. -/
theorem C70_problem_of_moved_knots (j : ℕ → K) (ks : List (Knot K A)) (va : A) (nc0 : ℕ) :
    let p := Problem.ofKnotsMove j ks va nc0
    p.stages = ks ∧ p.nc0 = nc0 ∧ p.G0.rows = nc0 ∧ p.G0.cols = (ks.head?.map fun k => k.nx).getD 0 ∧
      p.G0.alloc = va ∧ p.g0.alloc = va ∧ p.valloc = va :=
  ⟨rfl, rfl, rfl, firstNx_eq ks, rfl, rfl, rfl⟩

/-- **C70** (negative): the initial constraint of a new problem is *not* initialised, unlike the blocks of a new knot:
its coefficients are whatever the memory held. -/
theorem C70_initial_constraint_uninitialised (j : ℕ → K) (ks : List (Knot K A)) (nc0 : ℕ) (a : A) (p : Problem K A)
    (h : Problem.ofKnots j ks nc0 a = some p) : p.g0.contents = some ((List.range nc0).map j) := by
  unfold Problem.ofKnots at h
  split at h
  · cases h
  · cases h
    rw [new_contents, mul_one]; rfl

/-- **C70**: a copy of a problem has its value and lives on the allocator given to the copy constructor. -/
theorem C70_copy_problem (j : ℕ → K) (o : Problem K A) (a : A) (ho : PIntact o) :
    ∃ p, o.copy j a = some p ∧ SameProblem p o ∧ POnAlloc a p ∧ PIntact p := by
  obtain ⟨hG, hg, hc, hr, hk⟩ := ho
  obtain ⟨p, h1, h2, ⟨h3, h3', h3'', h3'''⟩, ⟨hpG, hpg, -, -, hpk⟩, -⟩ := C70_problem_of_knots j o.stages o.nc0 a hk
  obtain ⟨G0, a1, a2⟩ := assign_spec j p.G0 o.G0 hG (Live.assignable hpG)
  obtain ⟨g0, b1, b2⟩ := assign_spec j p.g0 o.g0 hg (Live.assignable hpg)
  have eG := a2.1
  have eg := b2.1
  unfold val at eG eg
  simp only [Prod.mk.injEq] at eG eg
  refine ⟨{ p with G0 := G0, g0 := g0 }, by unfold Problem.copy; rw [h1]; dsimp only; rw [a1, b1], ⟨a2.1, b2.1, h2⟩,
    ⟨a2.2.1.trans h3, b2.2.1.trans h3', h3'', h3'''⟩, ⟨a2.2.2, b2.2.2, ?_, ?_, hpk⟩⟩
  · exact eg.2.1.trans hc
  · show G0.rows = g0.rows
    rw [eG.1, eg.1, hr]

/-- **C70** (negative: "Copy constructor. Will copy the allocator from `other`", gar/lqr-problem.hpp:132): a copy made
without naming an allocator lives on the default one, wherever the source lives. -/
theorem C70_copy_ignores_allocator (j : ℕ → K) (dflt : A) (o : Problem K A) (ho : PIntact o) (hd : o.alloc ≠ dflt) :
    ∃ p, o.copyDefault j dflt = some p ∧ p.alloc = dflt ∧ p.alloc ≠ o.alloc := by
  obtain ⟨p, h1, -, h3, -⟩ := C70_copy_problem j o dflt ho
  refine ⟨p, h1, h3.1, ?_⟩
  show p.G0.alloc ≠ _
  rw [h3.1]
  exact fun h => hd h.symm

/-- **C70**: a problem made by moving has the value of its source and is on the allocator of its knots; the source keeps
its initial constraint and has no knots left. -/
theorem C70_move_problem (j : ℕ → K) (o : Problem K A) (ho : PIntact o) :
    ∃ p o', o.move j = some (p, o') ∧ SameProblem p o ∧ p.stages = o.stages ∧
      (p.G0.alloc = o.valloc ∧ p.g0.alloc = o.valloc ∧ p.valloc = o.valloc) ∧ PIntact p ∧
      o'.G0 = o.G0 ∧ o'.g0 = o.g0 ∧ o'.stages = [] := by
  obtain ⟨hG, hg, hc, hr, hk⟩ := ho
  obtain ⟨G0, a1, a2⟩ := assign_spec j (Problem.ofKnotsMove j o.stages o.valloc o.nc0).G0 o.G0 hG
    (Or.inl (by simp [Problem.ofKnotsMove, AMat.new]))
  obtain ⟨g0, b1, b2⟩ := assign_spec j (Problem.ofKnotsMove j o.stages o.valloc o.nc0).g0 o.g0 hg
    (Or.inl (by simp [Problem.ofKnotsMove, AMat.new]))
  have eG := a2.1
  have eg := b2.1
  unfold val at eG eg
  simp only [Prod.mk.injEq] at eG eg
  have e : o.move j = some (⟨G0, g0, o.stages, o.valloc⟩, { o with stages := [] }) := by
    unfold Problem.move
    rw [a1, b1]
    rfl
  refine ⟨_, _, e, ⟨a2.1, b2.1, ?_⟩, rfl, ⟨a2.2.1, b2.2.1, rfl⟩,
    ⟨a2.2.2, b2.2.2, eg.2.1.trans hc, ?_, hk⟩, rfl, rfl, rfl⟩
  · exact List.forall₂_same.2 fun k _ => ⟨⟨rfl, rfl, rfl, rfl, rfl⟩, fun _ => rfl⟩
  · show G0.rows = g0.rows
    rw [eG.1, eg.1, hr]

theorem moveAssign_spec [DecidableEq A] (j : ℕ → K) (m o : AMat K A) (ho : Live o) (hm : m.data ≠ none ∨ m.cap = 0) :
    ∃ m' o', m.moveAssign j o = some (m', o') ∧ IsCopy o m' m.alloc ∧ o' = { o with data := none } := by
  unfold AMat.moveAssign
  by_cases h : m.alloc = o.alloc
  · rw [if_pos h]
    exact ⟨_, _, rfl, ⟨rfl, rfl, ho⟩, rfl⟩
  · rw [if_neg h]
    obtain ⟨m', h1, h2⟩ := assign_spec j m o ho hm
    exact ⟨m', _, by rw [h1], h2, rfl⟩

theorem assignKnots_spec [DecidableEq A] (j : ℕ → K) (a : A) (os : List (Knot K A)) :
    ∀ ks : List (Knot K A), (∀ k ∈ os, Intact k) → (∀ k ∈ ks, Assignable k ∧ OnAlloc a k) →
    ∃ ks', assignKnots j ks os a = some ks' ∧ List.Forall₂ SameKnot ks' os ∧ ∀ k ∈ ks', OnAlloc a k ∧ Intact k := by
  induction os with
  | nil =>
    intro ks _ _
    exact ⟨[], by cases ks <;> rfl, .nil, by simp⟩
  | cons o os ih =>
    intro ks hos hks
    cases ks with
    | nil =>
      obtain ⟨ks', h1, h2, h3⟩ := ih [] (fun k hk => hos k (by simp [hk])) (by simp)
      obtain ⟨k', o', g1, g2, g3, g4, -⟩ := C70_move_knot_to j o a (hos o (by simp))
      refine ⟨k' :: ks', by unfold assignKnots; rw [g1, h1], .cons g2 h2, ?_⟩
      intro x hx
      rcases List.mem_cons.1 hx with rfl | hx
      · exact ⟨g3, g4⟩
      · exact h3 x hx
    | cons k ks =>
      obtain ⟨ks', h1, h2, h3⟩ := ih ks (fun k hk => hos k (by simp [hk])) (fun k hk => hks k (by simp [hk]))
      obtain ⟨k', o', g1, g2, g3, g4, g5, -⟩ :=
        C70_move_assign_copies j k o (hos o (by simp)) (hks k (by simp)).1
      refine ⟨k' :: ks', by unfold assignKnots; rw [g1, h1], .cons g2 h2, ?_⟩
      intro x hx
      rcases List.mem_cons.1 hx with rfl | hx
      · obtain ⟨e1, e2⟩ := (hks k (by simp)).2
        exact ⟨⟨g4.trans e1, fun b => (g5 b).trans (e2 b)⟩, g3⟩
      · exact h3 x hx

/-- **C70**: move assignment of problems gives the target the value of the source on the target's allocator, whether or
not the allocators agree. -/
theorem C70_move_assign_problem [DecidableEq A] (j : ℕ → K) (p o : Problem K A) (a a' : A) (hp : PIntact p)
    (ho : PIntact o) (hpa : POnAlloc a p) (hoa : POnAlloc a' o) :
    ∃ p' o', p.moveAssign j o = some (p', o') ∧ SameProblem p' o ∧ POnAlloc a p' ∧ PIntact p' ∧
      o'.stages = [] ∧ o'.G0.data = none ∧ o'.g0.data = none := by
  obtain ⟨G0, oG0, a1, a2, a3⟩ := moveAssign_spec j p.G0 o.G0 ho.1 (Live.assignable hp.1)
  obtain ⟨g0, og0, b1, b2, b3⟩ := moveAssign_spec j p.g0 o.g0 ho.2.1 (Live.assignable hp.2.1)
  have eG := a2.1
  have eg := b2.1
  unfold val at eG eg
  simp only [Prod.mk.injEq] at eG eg
  obtain ⟨ks, k1, k2, k3⟩ : ∃ ks, (if p.valloc = o.valloc then some o.stages
      else assignKnots j p.stages o.stages p.valloc) = some ks ∧ List.Forall₂ SameKnot ks o.stages ∧
      ∀ k ∈ ks, OnAlloc a k ∧ Intact k := by
    by_cases h : p.valloc = o.valloc
    · refine ⟨o.stages, by rw [if_pos h], ?_, fun k hk => ⟨?_, ho.2.2.2.2 k hk⟩⟩
      · exact List.forall₂_same.2 fun k _ => ⟨⟨rfl, rfl, rfl, rfl, rfl⟩, fun _ => rfl⟩
      · have := hoa.2.2.2 k hk
        have e : a' = a := by rw [← hoa.2.2.1, ← h, hpa.2.2.1]
        rw [← e]; exact this
    · rw [if_neg h, hpa.2.2.1]
      exact assignKnots_spec j a o.stages p.stages ho.2.2.2.2 fun k hk =>
        ⟨Intact.assignable (hp.2.2.2.2 k hk), hpa.2.2.2 k hk⟩
  refine ⟨⟨G0, g0, ks, p.valloc⟩, ⟨oG0, og0, [], o.valloc⟩, ?_, ⟨a2.1, b2.1, k2⟩,
    ⟨a2.2.1.trans hpa.1, b2.2.1.trans hpa.2.1, hpa.2.2.1, fun k hk => (k3 k hk).1⟩,
    ⟨a2.2.2, b2.2.2, eg.2.1.trans ho.2.2.1, ?_, fun k hk => (k3 k hk).2⟩, rfl, by rw [a3], by rw [b3]⟩
  · unfold Problem.moveAssign; rw [a1, b1, k1]
  · show G0.rows = g0.rows
    rw [eG.1, eg.1, ho.2.2.2.1]

/-- **C70** (negative): after `p = std::move(o)` the initial constraint of `o` cannot be assigned a value of the size it
had (the recorded size is kept and the buffer is null: the write is undefined). -/
theorem C70_moved_from_initial_constraint [DecidableEq A] (j : ℕ → K) (p o p' o' : Problem K A) (g : AMat K A)
    (ho : PIntact o) (h : p.moveAssign j o = some (p', o')) (hg : Live g) (hn : g.rows * g.cols ≠ 0)
    (hs : g.rows * g.cols = o.g0.rows * o.g0.cols) : o'.g0.assign j g = none := by
  have e : o'.g0.data = none ∧ o'.g0.cap = o.g0.cap := by
    unfold Problem.moveAssign at h
    split at h
    · next G0 oG0 g0 og0 ks h1 h2 h3 =>
      cases h
      unfold AMat.moveAssign at h2
      split at h2
      · cases h2; exact ⟨rfl, rfl⟩
      · split at h2
        · cases h2
        · cases h2; exact ⟨rfl, rfl⟩
    · cases h
  obtain ⟨l, g1, -, -⟩ := hg
  obtain ⟨-, -, -, c3⟩ := ho.2.1
  unfold AMat.assign
  rw [g1]
  dsimp only
  have hr : AMat.resize j o'.g0 g.rows g.cols = { o'.g0 with rows := g.rows, cols := g.cols } := by
    unfold AMat.resize
    rw [if_neg (by rw [e.2, c3, hs]; simp)]
  rw [hr]
  unfold AMat.write
  rw [if_neg (by exact hn)]
  show (match o'.g0.data with | none => none | some _ => _) = none
  rw [e.1]

theorem addParams_spec [Zero K] (j : ℕ → K) (ks : List (Knot K A)) (nth : ℕ) (h : ∀ k ∈ ks, Intact k) :
    ∃ ks', addParams j ks nth = some ks' ∧ List.Forall₂ (fun k k' => k.addParam j nth = some k') ks ks' := by
  induction ks with
  | nil => exact ⟨[], rfl, .nil⟩
  | cons k ks ih =>
    obtain ⟨ks', h1, h2⟩ := ih fun k hk => h k (by simp [hk])
    obtain ⟨k', g1, -⟩ := C70_add_parameterization j k nth (h k (by simp))
    exact ⟨k' :: ks', by unfold addParams; rw [g1, h1], .cons g1 h2⟩

/-- **C70**: adding a parameterisation to a problem adds it to every knot, terminal knot included, and makes the problem
parameterised exactly when the dimension is positive and there is a knot. -/
theorem C70_problem_add_parameterization [Zero K] (j : ℕ → K) (p : Problem K A) (nth : ℕ) (hp : PIntact p) :
    ∃ p', p.addParam j nth = some p' ∧ p'.G0 = p.G0 ∧ p'.g0 = p.g0 ∧ p'.stages.length = p.stages.length ∧
      (∀ i (h : i < p.stages.length) (h' : i < p'.stages.length), (p'.stages[i]).nth = nth ∧ Intact p'.stages[i] ∧
        ∀ b, b.parametric = false → blk p'.stages[i] b = blk p.stages[i] b) ∧
      (p'.isParameterized = true ↔ p.stages ≠ [] ∧ 0 < nth) ∧ (p.stages ≠ [] → p'.ntheta = some nth) := by
  obtain ⟨ks', h1, h2⟩ := addParams_spec j p.stages nth hp.2.2.2.2
  have hi : ∀ i (h : i < p.stages.length) (h' : i < ks'.length), (ks'[i]).nth = nth ∧ Intact ks'[i] ∧
        ∀ b, b.parametric = false → blk ks'[i] b = blk p.stages[i] b := by
    intro i h h'
    have e := (List.forall₂_iff_get.1 h2).2 i h h'
    simp only [List.get_eq_getElem] at e
    obtain ⟨k', g1, g2, g3, -, g5, -⟩ := C70_add_parameterization j p.stages[i] nth
      (hp.2.2.2.2 _ (List.getElem_mem h))
    rw [e] at g1
    cases g1
    exact ⟨g2, g3, g5⟩
  refine ⟨{ p with stages := ks' }, by unfold Problem.addParam; rw [h1], rfl, rfl, h2.length_eq.symm, hi, ?_, ?_⟩
  · unfold Problem.isParameterized
    cases hks : p.stages with
    | nil =>
      have := h2.length_eq
      rw [hks] at this
      have : ks' = [] := List.length_eq_zero_iff.1 this.symm
      subst this
      simp
    | cons k ks =>
      cases ks' with
      | nil => rw [hks] at h2; cases h2
      | cons k' ks' =>
        have := (hi 0 (by rw [hks]; simp) (by simp)).1
        simp only [List.getElem_cons_zero] at this
        simp [this]
  · intro hne
    unfold Problem.ntheta
    cases ks' with
    | nil =>
      have := h2.length_eq
      exact absurd (List.length_eq_zero_iff.1 this) hne
    | cons k' ks' =>
      have := (hi 0 (List.length_pos_iff.2 hne) (by simp)).1
      simp only [List.getElem_cons_zero] at this
      simp [this]

/-! ## Comparison of problems -/

section approx
variable [Field K] [LinearOrder K] [IsStrictOrderedRing K]

theorem approxLoop_spec (prec : K) (ks os : List (Knot K A)) (hk : ∀ k ∈ ks, Intact k) (ho : ∀ k ∈ os, Intact k)
    (hlen : ks.length = os.length) : ∀ n i, i + n ≤ ks.length →
    ∃ b, approxLoop prec ks os n i = some b ∧
      (b = true ↔ ∀ m (h : m < ks.length) (h' : m < os.length), i ≤ m → m < i + n →
        (ks[m]).isApprox prec os[m] = some true) := by
  intro n
  induction n with
  | zero =>
    intro i _
    refine ⟨true, rfl, ?_⟩
    simp only [true_iff]
    intro m _ _ h1 h2
    omega
  | succ n ih =>
    intro i hi
    have h1 : i < ks.length := by omega
    have h2 : i < os.length := by omega
    obtain ⟨b, hb, -⟩ := C70_isApprox_iff prec ks[i] os[i] (hk _ (List.getElem_mem h1)) (ho _ (List.getElem_mem h2))
    unfold approxLoop
    rw [List.getElem?_eq_getElem h1, List.getElem?_eq_getElem h2]
    dsimp only
    cases b with
    | false =>
      refine ⟨false, by rw [hb], ?_⟩
      simp only [Bool.false_eq_true, false_iff, not_forall]
      refine ⟨i, h1, h2, le_refl _, by omega, ?_⟩
      rw [hb]; simp
    | true =>
      obtain ⟨b', hb', hb''⟩ := ih (i + 1) (by omega)
      refine ⟨b', by rw [hb]; exact hb', ?_⟩
      rw [hb'']
      constructor
      · intro h m hm1 hm2 hm3 hm4
        by_cases e : m = i
        · subst e; exact hb
        · exact h m hm1 hm2 (by omega) (by omega)
      · intro h m hm1 hm2 hm3 hm4
        exact h m hm1 hm2 (by omega) (by omega)

omit [Field K] [LinearOrder K] [IsStrictOrderedRing K] in
theorem horizon_toNat (p : Problem K A) (h : p.stages ≠ []) (hb : p.stages.length ≤ 2 ^ 32) :
    (p.horizon % (2 ^ 32 : ℤ)).toNat = p.stages.length - 1 := by
  have := List.length_pos_iff.2 h
  unfold Problem.horizon
  rw [Int.emod_eq_of_lt (by omega) (by omega)]
  omega

/-- **C70** (what the comparison of problems does): with at least one knot and initial constraints of one shape, it says
that the initial constraints are near and all knots *but the last* are equal. -/
theorem C70_problem_isApprox_iff (eps dummy : K) (p o : Problem K A) (hp : PIntact p) (ho : PIntact o)
    (hne : p.stages ≠ []) (hlen : p.stages.length = o.stages.length) (hb : p.stages.length ≤ 2 ^ 32)
    (hG : p.G0.rows = o.G0.rows ∧ p.G0.cols = o.G0.cols) :
    ∃ b, p.isApprox eps dummy o = some b ∧ (b = true ↔ Near dummy p.G0 o.G0 ∧ Near dummy p.g0 o.g0 ∧
      ∀ m (h : m < p.stages.length) (h' : m < o.stages.length), m + 1 < p.stages.length →
        (p.stages[m]).isApprox eps o.stages[m] = some true) := by
  obtain ⟨b1, h1, h1'⟩ := approx_spec dummy p.G0 o.G0 hp.1 ho.1 hG.1 hG.2
  obtain ⟨b2, h2, h2'⟩ := approx_spec dummy p.g0 o.g0 hp.2.1 ho.2.1
    (by rw [← hp.2.2.2.1, ← ho.2.2.2.1, hG.1]) (by rw [hp.2.2.1, ho.2.2.1])
  obtain ⟨b3, h3, h3'⟩ := approxLoop_spec eps p.stages o.stages hp.2.2.2.2 ho.2.2.2.2 hlen (p.stages.length - 1) 0
    (by omega)
  unfold Problem.isApprox
  rw [if_neg (by unfold Problem.horizon; rw [hlen]; simp), h1, h2, horizon_toNat p hne hb]
  have h3'' : b3 = true ↔ ∀ m (h : m < p.stages.length) (h' : m < o.stages.length), m + 1 < p.stages.length →
        (p.stages[m]).isApprox eps o.stages[m] = some true := by
    rw [h3']
    constructor
    · intro h m a1 a2 a3; exact h m a1 a2 (by omega) (by omega)
    · intro h m a1 a2 a3 a4; exact h m a1 a2 (by omega)
  cases b1 with
  | false =>
    refine ⟨false, rfl, ?_⟩
    have : ¬ Near dummy p.G0 o.G0 := fun h => by simpa using h1'.2 h
    simp [this]
  | true =>
    cases b2 with
    | false =>
      refine ⟨false, rfl, ?_⟩
      have : ¬ Near dummy p.g0 o.g0 := fun h => by simpa using h2'.2 h
      simp [this]
    | true =>
      refine ⟨b3, h3, ?_⟩
      rw [h3'']
      exact ⟨fun h => ⟨h1'.1 rfl, h2'.1 rfl, h⟩, fun h => h.2.2⟩

omit [IsStrictOrderedRing K] in
/-- **C70**: problems of different horizons, whatever they hold, are declared different. -/
theorem C70_problem_isApprox_horizons (eps dummy : K) (p o : Problem K A) (h : p.stages.length ≠ o.stages.length) :
    p.isApprox eps dummy o = some false := by
  unfold Problem.isApprox
  rw [if_pos (by unfold Problem.horizon; omega)]

/-- **C70** (negative): two problems that differ in nothing but the terminal knot, in any way, are declared equal. -/
theorem C70_problem_isApprox_ignores_terminal (eps dummy : K) (G0 g0 : AMat K A) (ks : List (Knot K A)) (t t' : Knot K A)
    (a : A) (hp : PIntact ⟨G0, g0, ks ++ [t], a⟩) (ht' : Intact t') (hb : ks.length < 2 ^ 32) :
    Problem.isApprox eps dummy ⟨G0, g0, ks ++ [t], a⟩ ⟨G0, g0, ks ++ [t'], a⟩ = some true := by
  have hp' : PIntact (⟨G0, g0, ks ++ [t'], a⟩ : Problem K A) := by
    obtain ⟨h1, h2, h3, h4, h5⟩ := hp
    refine ⟨h1, h2, h3, h4, fun k hk => ?_⟩
    rcases List.mem_append.1 hk with hk | hk
    · exact h5 k (by simp [hk])
    · rw [List.mem_singleton.1 hk]; exact ht'
  obtain ⟨b, h1, h2⟩ := C70_problem_isApprox_iff eps dummy (⟨G0, g0, ks ++ [t], a⟩ : Problem K A)
    ⟨G0, g0, ks ++ [t'], a⟩ hp hp' (by simp) (by simp) (by simp; omega) ⟨rfl, rfl⟩
  rw [h1, h2.2 ⟨Near.refl _ _, Near.refl _ _, fun m ha hb hm => ?_⟩]
  have hm' : m < ks.length := by simpa using hm
  dsimp only
  rw [List.getElem_append_left hm', List.getElem_append_left hm']
  have hk : Intact ks[m] := hp.2.2.2.2 _ (by simp)
  exact (C70_isApprox_refl_symm eps ks[m] ks[m] hk hk).1

omit [Field K] [LinearOrder K] [IsStrictOrderedRing K] in
/-- **C70** A knot or a problem made from an allocator alone holds no memory, keeps the allocator in every member, and its vectors
have one column and no row, whatever the uninitialised dimensions are. -/
theorem C70_default_shapes (g0 g1 g2 g3 g4 : ℕ) (a : A) (k : Knot K A) (hk : k = Knot.onAlloc g0 g1 g2 g3 g4 a) (p : Problem K A)
    (hp : p = Problem.empty a) :
    (∀ m ∈ [k.q, k.r, k.f, k.d, k.gamma, p.g0], m.rows = 0 ∧ m.cols = 1) ∧
    (∀ m ∈ [k.Q, k.S, k.R, k.A', k.B, k.C, k.D, k.Gth, k.Gx, k.Gu, k.Gv, p.G0], m.rows = 0 ∧ m.cols = 0) ∧
    (∀ m ∈ [k.q, k.r, k.f, k.d, k.gamma, p.g0, k.Q, k.S, k.R, k.A', k.B, k.C, k.D, k.Gth, k.Gx, k.Gu, k.Gv, p.G0],
      m.cap = 0 ∧ m.data = none ∧ m.alloc = a) ∧ k.alloc = a ∧ p.stages = [] := by
  subst hk hp
  simp [Knot.onAlloc, Problem.empty, AMat.null, AMat.nullVec]

omit [IsStrictOrderedRing K] in
/-- **C70** (negative): comparing two problems without knots reads past the end of both vectors. -/
theorem C70_problem_isApprox_empty (eps dummy : K) (a : A) (p o : Problem K A) (hp : p = Problem.empty a)
    (ho : o = Problem.empty a) : p.isApprox eps dummy o = none := by
  subst hp ho
  have h1 : (AMat.null a : AMat K A).approx dummy (AMat.null a) = some true := by
    simp [AMat.approx, AMat.null, AMat.contents, sqNorm]
  have h2 : (AMat.nullVec a : AMat K A).approx dummy (AMat.nullVec a) = some true := by
    simp [AMat.approx, AMat.nullVec, AMat.contents, sqNorm]
  unfold Problem.isApprox
  rw [if_neg (by simp)]
  simp only [Problem.empty]
  rw [h1, h2]
  rfl

omit [IsStrictOrderedRing K] in
/-- **C70** (negative): comparing two problems of one horizon whose initial constraints have different sizes breaks an
Eigen size assertion instead of answering "different". -/
theorem C70_problem_isApprox_sizes (eps dummy : K) (p o : Problem K A) (hlen : p.stages.length = o.stages.length)
    (h : p.G0.rows ≠ o.G0.rows) : p.isApprox eps dummy o = none := by
  unfold Problem.isApprox
  rw [if_neg (by unfold Problem.horizon; rw [hlen]; simp)]
  have : p.G0.approx dummy o.G0 = none := by
    unfold AMat.approx
    rw [if_neg (fun e => h e.1)]
  rw [this]
  rfl

end approx

/-! ## Concrete cases -/

/-- An empty block of a given shape. -/
def none0 (r c : ℕ) : AMat ℚ ℕ := ⟨7, r, c, 0, some []⟩

/-- A knot without state and control and with one constraint `v = 0`, on allocator 7. -/
def oneCstr (v : ℚ) : Knot ℚ ℕ where
  nx := 0
  nu := 0
  nc := 1
  nx2 := 0
  nth := 0
  Q := none0 0 0
  S := none0 0 0
  R := none0 0 0
  q := none0 0 1
  r := none0 0 1
  A' := none0 0 0
  B := none0 0 0
  f := none0 0 1
  C := none0 1 0
  D := none0 1 0
  d := ⟨7, 1, 1, 1, some [v]⟩
  Gth := none0 0 0
  Gx := none0 0 0
  Gu := none0 0 0
  Gv := none0 1 0
  gamma := none0 0 1
  alloc := 7

theorem oneCstr_intact (v : ℚ) : Intact (oneCstr v) := by
  intro b
  cases b <;> first
    | exact ⟨⟨[], rfl, rfl, rfl⟩, rfl⟩
    | exact ⟨⟨[v], rfl, rfl, rfl⟩, rfl⟩

theorem oneCstr_approx (prec v w : ℚ) :
    (oneCstr v).isApprox prec (oneCstr w) = some true ↔ (v - w) ^ 2 ≤ prec ^ 2 * min (v ^ 2) (w ^ 2) := by
  obtain ⟨b, h1, h2⟩ := C70_isApprox_iff prec _ _ (oneCstr_intact v) (oneCstr_intact w)
  rw [h1, Option.some.injEq, h2]
  have hd : Near prec (oneCstr v).d (oneCstr w).d ↔ (v - w) ^ 2 ≤ prec ^ 2 * min (v ^ 2) (w ^ 2) := by
    simp [Near, coeff, oneCstr, AMat.contents]
  constructor
  · intro h; exact hd.1 (h.2 .d)
  · intro h
    refine ⟨⟨rfl, rfl, rfl, rfl, rfl⟩, fun b => ?_⟩
    have hn (r c : ℕ) : Near prec (none0 r c) (none0 r c) := Near.refl _ _
    cases b with
    | d => exact hd.2 h
    | Q => exact hn 0 0
    | S => exact hn 0 0
    | R => exact hn 0 0
    | q => exact hn 0 1
    | r => exact hn 0 1
    | A => exact hn 0 0
    | B => exact hn 0 0
    | f => exact hn 0 1
    | C => exact hn 1 0
    | D => exact hn 1 0
    | Gth => exact hn 0 0
    | Gx => exact hn 0 0
    | Gu => exact hn 0 0
    | Gv => exact hn 1 0
    | gamma => exact hn 0 1

/-- **C70** (negative): equality of knots is not transitive, at any precision. -/
theorem C70_isApprox_not_transitive (prec : ℚ) (hp : 0 < prec) :
    (oneCstr 1).isApprox prec (oneCstr (1 + prec)) = some true ∧
    (oneCstr (1 + prec)).isApprox prec (oneCstr ((1 + prec) ^ 2)) = some true ∧
    (oneCstr 1).isApprox prec (oneCstr ((1 + prec) ^ 2)) ≠ some true := by
  refine ⟨?_, ?_, ?_⟩
  · rw [oneCstr_approx, min_eq_left (by nlinarith)]
    nlinarith
  · rw [oneCstr_approx, min_eq_left (by nlinarith [sq_nonneg prec, pow_pos hp 3, pow_pos hp 4])]
    nlinarith [sq_nonneg prec, pow_pos hp 3, pow_pos hp 4]
  · rw [Ne, oneCstr_approx, min_eq_left (by nlinarith [sq_nonneg prec, pow_pos hp 3, pow_pos hp 4])]
    nlinarith [sq_nonneg prec, pow_pos hp 2, pow_pos hp 3, pow_pos hp 4]

/-- A knot that satisfies the hypotheses of the theorems on knots, with data: a new one, of any dimensions. -/
example : ∃ k, Knot.new (K := ℚ) (A := ℕ) (fun n => n) 3 2 1 4 2 7 = some k ∧ Intact k ∧ Assignable k ∧ k.nx ≠ 0 := by
  obtain ⟨k, h1, h2, -, h4, -⟩ := C70_new_knot (K := ℚ) (A := ℕ) (fun n => n) 3 2 1 4 2 7
  exact ⟨k, h1, h4, Intact.assignable h4, by rw [h2.1]; norm_num⟩

/-- The problem with terminal constraint `v = 0` and initial constraint of size one. -/
def prob (t : ℚ) : Problem ℚ ℕ := ⟨⟨7, 1, 0, 0, some []⟩, ⟨7, 1, 1, 1, some [5]⟩, [oneCstr 3] ++ [oneCstr t], 7⟩

theorem prob_intact (t : ℚ) : PIntact (prob t) := by
  refine ⟨⟨[], rfl, rfl, rfl⟩, ⟨[5], rfl, rfl, rfl⟩, rfl, rfl, fun k hk => ?_⟩
  simp only [prob, List.mem_append, List.mem_singleton] at hk
  rcases hk with rfl | rfl <;> exact oneCstr_intact _

/-- **C70**: the questions a problem answers about itself agree: it is initialised exactly when it has a knot, that is,
when its horizon is not negative; only then can the parameter dimension be read, which is that of the first knot; and it
is parameterised exactly when that dimension is positive. -/
theorem C70_problem_queries (p : Problem K A) :
    (p.isInitialized = true ↔ 0 ≤ p.horizon) ∧ (p.isInitialized = true ↔ p.ntheta ≠ none) ∧
      (∀ k, p.stages[0]? = some k → p.ntheta = some k.nth) ∧
      (p.isParameterized = true ↔ ∃ n, p.ntheta = some n ∧ 0 < n) := by
  unfold Problem.isInitialized Problem.horizon Problem.ntheta Problem.isParameterized
  cases p.stages with
  | nil => simp
  | cons k ks =>
    refine ⟨by simp, by simp, fun k' h => ?_, by simp⟩
    simp only [List.getElem?_cons_zero, Option.some.injEq] at h
    rw [h]

/-- **C70** (negative): the comparison of problems declares equal two problems with different terminal constraints, which
the comparison of knots tells apart. -/
theorem C70_problem_isApprox_wrong (eps dummy : ℚ) (he : eps ^ 2 < 1) :
    (prob 0).isApprox eps dummy (prob 1) = some true ∧ (oneCstr 0).isApprox eps (oneCstr 1) ≠ some true := by
  refine ⟨C70_problem_isApprox_ignores_terminal eps dummy _ _ _ _ _ _ (prob_intact 0) (oneCstr_intact 1)
    (by norm_num), ?_⟩
  rw [Ne, oneCstr_approx]
  norm_num

/-- Moves between problems on different allocators meet the hypotheses of `C70_move_assign_problem`, and the moved-from
problem those of `C70_moved_from_initial_constraint`. -/
example (t s : ℚ) : ∃ c p' o', (prob s).copy (fun _ => 9) 8 = some c ∧
    c.moveAssign (fun _ => 9) (prob t) = some (p', o') ∧ SameProblem p' (prob t) ∧ POnAlloc 8 p' ∧
    o'.g0.assign (fun _ => 9) (⟨3, 1, 1, 1, some [6]⟩ : AMat ℚ ℕ) = none := by
  obtain ⟨c, h1, -, h3, h4⟩ := C70_copy_problem (fun _ => 9) (prob s) 8 (prob_intact s)
  have ha : POnAlloc 7 (prob t) := by
    refine ⟨rfl, rfl, rfl, fun k hk => ?_⟩
    simp only [prob, List.mem_append, List.mem_singleton] at hk
    rcases hk with rfl | rfl <;> refine ⟨rfl, fun b => ?_⟩ <;> cases b <;> rfl
  obtain ⟨p', o', g1, g2, g3, -⟩ := C70_move_assign_problem (fun _ => 9) c (prob t) 8 7 h4 (prob_intact t) h3 ha
  exact ⟨c, p', o', h1, g1, g2, g3, C70_moved_from_initial_constraint (fun _ => 9) c (prob t) p' o' _ (prob_intact t) g1
    ⟨[6], rfl, rfl, rfl⟩ (by norm_num) rfl⟩

/-- **C70**: the check of allocators that the constructors assert passes exactly if the three are the same. -/
theorem C70_allocator_check_iff [DecidableEq A] (p : Problem K A) :
    p.checkAllocators = true ↔ ∃ a, p.G0.alloc = a ∧ p.g0.alloc = a ∧ p.valloc = a := by
  unfold Problem.checkAllocators Problem.alloc
  rw [Bool.and_eq_true, decide_eq_true_iff, decide_eq_true_iff]
  constructor
  · rintro ⟨h, k⟩; exact ⟨_, rfl, h.symm, k.symm⟩
  · rintro ⟨a, rfl, h, k⟩; exact ⟨h.symm, k.symm⟩

/-- **C70**: no constructor violates its assertion on allocators, and move assignment keeps it. -/
theorem C70_allocator_assertions_hold [DecidableEq A] (j : ℕ → K) (ks : List (Knot K A)) (nc0 : ℕ) (a b : A)
    (o q : Problem K A) (hk : ∀ k ∈ ks, Intact k) (ho : PIntact o) (hq : PIntact q) (hoa : POnAlloc a o)
    (hqb : POnAlloc b q) :
    (Problem.empty a : Problem K A).checkAllocators = true ∧
    (∃ p, Problem.ofKnots j ks nc0 a = some p ∧ p.checkAllocators = true) ∧
    (Problem.ofKnotsMove j ks a nc0).checkAllocators = true ∧
    (∃ p, o.copy j b = some p ∧ p.checkAllocators = true) ∧
    (∃ p o', o.move j = some (p, o') ∧ p.checkAllocators = true) ∧
    (∃ p o', q.moveAssign j o = some (p, o') ∧ p.checkAllocators = true) := by
  refine ⟨(C70_allocator_check_iff _).2 ⟨a, rfl, rfl, rfl⟩, ?_, (C70_allocator_check_iff _).2 ⟨a, rfl, rfl, rfl⟩,
    ?_, ?_, ?_⟩
  · obtain ⟨p, h, -, c, -⟩ := C70_problem_of_knots j ks nc0 a hk
    exact ⟨p, h, (C70_allocator_check_iff _).2 ⟨a, c.1, c.2.1, c.2.2.1⟩⟩
  · obtain ⟨p, h, -, c, -⟩ := C70_copy_problem j o b ho
    exact ⟨p, h, (C70_allocator_check_iff _).2 ⟨b, c.1, c.2.1, c.2.2.1⟩⟩
  · obtain ⟨p, o', h, -, -, c, -⟩ := C70_move_problem j o ho
    exact ⟨p, o', h, (C70_allocator_check_iff _).2 ⟨_, c⟩⟩
  · obtain ⟨p, o', h, -, c, -⟩ := C70_move_assign_problem j q o b a hq ho hqb hoa
    exact ⟨p, o', h, (C70_allocator_check_iff _).2 ⟨b, c.1, c.2.1, c.2.2.1⟩⟩

end Aligator.LqrObj
