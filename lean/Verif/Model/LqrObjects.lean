import Mathlib.Algebra.Order.Ring.Defs
import Mathlib.Algebra.Field.Defs
import Mathlib.Algebra.BigOperators.Group.List.Basic

/-!
# Model: LQ knots and problems as objects

`include/aligator/gar/lqr-problem.{hpp,hxx}` over `include/aligator/core/arena-matrix.hpp`: construction, copy,
move, assignment and comparison of `LqrKnotTpl` and `LqrProblemTpl`, with the allocator of every block.

Simplifications: a buffer is the list of its coefficients in storage order (addresses, double frees and leaks are
the subject of `Verif.Model.Arena`); coefficients are in an ordered field; `none` as a *result* is undefined
behaviour (reading or writing through a null pointer, an out-of-range element, an Eigen size assertion).  What
freshly allocated memory contains is the argument `j`.
-/

namespace Aligator.LqrObj

variable {K A : Type}

/-- `ArenaMatrix` (core/arena-matrix.hpp:25, 243-246): allocator, shape of the map, `m_alloc_size`, and the buffer
(`none`: `m_data` is null). -/
structure AMat (K A : Type) where
  alloc : A
  rows : ℕ
  cols : ℕ
  cap : ℕ
  data : Option (List K)

/-- `ArenaMatrix(allocator)` (core/arena-matrix.hpp:44-49) for a matrix type with dynamic sizes: null, `0 × 0`. -/
def AMat.null (a : A) : AMat K A := ⟨a, 0, 0, 0, none⟩

/-- `ArenaMatrix(const allocator_type &)` for a vector type (core/arena-matrix.hpp:44-49): `0 × 1`. -/
def AMat.nullVec (a : A) : AMat K A := ⟨a, 0, 1, 0, none⟩

/-- `_allocate` (core/arena-matrix.hpp:234-236): a buffer of `n` coefficients, with whatever the memory holds. -/
def fresh (j : ℕ → K) (n : ℕ) : List K := (List.range n).map j

/-- `ArenaMatrix(rows, cols, allocator)` (core/arena-matrix.hpp:55-58); the one-argument form of :60-63 is
`cols = 1`. -/
def AMat.new (j : ℕ → K) (rows cols : ℕ) (a : A) : AMat K A := ⟨a, rows, cols, rows * cols, some (fresh j (rows * cols))⟩

/-- The coefficients read by an Eigen expression: nothing is read from an empty map, and a null pointer is not
readable otherwise (the map of core/arena-matrix.hpp:25). -/
def AMat.contents (m : AMat K A) : Option (List K) := if m.rows * m.cols = 0 then some [] else m.data

/-- `Base::operator=` (core/arena-matrix.hpp:71, 78, 99, 108, 117, 133): writes every coefficient of the map. -/
def AMat.write (m : AMat K A) (l : List K) : Option (AMat K A) :=
  if m.rows * m.cols = 0 then some m
  else match m.data with
    | none => none
    | some _ => some { m with data := some l }

/-- `ArenaMatrix::resize` (core/arena-matrix.hpp:159-170): a new buffer unless the allocated size is the same. -/
def AMat.resize (j : ℕ → K) (m : AMat K A) (rows cols : ℕ) : AMat K A :=
  if m.cap ≠ rows * cols then ⟨m.alloc, rows, cols, rows * cols, some (fresh j (rows * cols))⟩
  else { m with rows := rows, cols := cols }

/-- Copy constructor with an allocator (core/arena-matrix.hpp:74-79). -/
def AMat.copy (j : ℕ → K) (o : AMat K A) (a : A) : Option (AMat K A) :=
  match o.contents with
  | none => none
  | some l => (AMat.new j o.rows o.cols a).write l

/-- What a move leaves behind (core/arena-matrix.hpp:85-86, 101-102): null buffer, size 0, shape unchanged. -/
def AMat.emptied (o : AMat K A) : AMat K A := { o with data := none, cap := 0 }

/-- Extended move constructor (core/arena-matrix.hpp:90-103), the new matrix. -/
def AMat.moveTo [DecidableEq A] (j : ℕ → K) (o : AMat K A) (a : A) : Option (AMat K A) :=
  if a = o.alloc then some { o with alloc := a }
  else match o.contents with
    | none => none
    | some l => (AMat.resize j ⟨a, 0, 0, 0, none⟩ o.rows o.cols).write l

/-- Copy assignment (core/arena-matrix.hpp:115-119). -/
def AMat.assign (j : ℕ → K) (m o : AMat K A) : Option (AMat K A) :=
  match o.contents with
  | none => none
  | some l => (m.resize j o.rows o.cols).write l

/-- Move assignment between distinct matrices (core/arena-matrix.hpp:123-137): the new value and what is left of
the source, whose allocated size is *not* reset. -/
def AMat.moveAssign [DecidableEq A] (j : ℕ → K) (m o : AMat K A) : Option (AMat K A × AMat K A) :=
  if m.alloc = o.alloc then some (⟨m.alloc, o.rows, o.cols, o.cap, o.data⟩, { o with data := none })
  else match m.assign j o with
    | none => none
    | some m' => some (m', { o with data := none })

section zero
variable [Zero K]

/-- `setZero()` right after construction (gar/lqr-problem.hxx:53-71). -/
def AMat.zeroed (m : AMat K A) : Option (AMat K A) := m.write (List.replicate (m.rows * m.cols) 0)

/-- `setZero(rows, cols)` (core/arena-matrix.hpp:204-212): assignment of `Zero(rows, cols)`. -/
def AMat.setZero (j : ℕ → K) (m : AMat K A) (rows cols : ℕ) : Option (AMat K A) :=
  (m.resize j rows cols).write (List.replicate (rows * cols) 0)

end zero

/-- `LqrKnotTpl` (gar/lqr-problem.hpp:39-56, 101-103). -/
structure Knot (K A : Type) where
  nx : ℕ
  nu : ℕ
  nc : ℕ
  nx2 : ℕ
  nth : ℕ
  Q : AMat K A
  S : AMat K A
  R : AMat K A
  q : AMat K A
  r : AMat K A
  A' : AMat K A
  B : AMat K A
  f : AMat K A
  C : AMat K A
  D : AMat K A
  d : AMat K A
  Gth : AMat K A
  Gx : AMat K A
  Gu : AMat K A
  Gv : AMat K A
  gamma : AMat K A
  alloc : A

/-- Constructor from the allocator alone (gar/lqr-problem.hxx:8-26; the defaulted one at gar/lqr-problem.hpp:58 with
the default allocator): no buffers, and the five dimensions are not initialised (`g0` … `g4`: what the memory
holds). -/
def Knot.onAlloc (g0 g1 g2 g3 g4 : ℕ) (a : A) : Knot K A where
  nx := g0
  nu := g1
  nc := g2
  nx2 := g3
  nth := g4
  Q := .null a
  S := .null a
  R := .null a
  q := .nullVec a
  r := .nullVec a
  A' := .null a
  B := .null a
  f := .nullVec a
  C := .null a
  D := .null a
  d := .nullVec a
  Gth := .null a
  Gx := .null a
  Gu := .null a
  Gv := .null a
  gamma := .nullVec a
  alloc := a

/-- `LqrKnotTpl(nx, nu, nc, nx2, nth, alloc)` (gar/lqr-problem.hxx:28-72). -/
def Knot.new [Zero K] (j : ℕ → K) (nx nu nc nx2 nth : ℕ) (a : A) : Option (Knot K A) := do
  let Q ← (AMat.new j nx nx a).zeroed
  let S ← (AMat.new j nx nu a).zeroed
  let R ← (AMat.new j nu nu a).zeroed
  let q ← (AMat.new j nx 1 a).zeroed
  let r ← (AMat.new j nu 1 a).zeroed
  let A' ← (AMat.new j nx2 nx a).zeroed
  let B ← (AMat.new j nx2 nu a).zeroed
  let f ← (AMat.new j nx2 1 a).zeroed
  let C ← (AMat.new j nc nx a).zeroed
  let D ← (AMat.new j nc nu a).zeroed
  let d ← (AMat.new j nc 1 a).zeroed
  let Gth ← (AMat.new j nth nth a).zeroed
  let Gx ← (AMat.new j nx nth a).zeroed
  let Gu ← (AMat.new j nu nth a).zeroed
  let Gv ← (AMat.new j nc nth a).zeroed
  let gamma ← (AMat.new j nth 1 a).zeroed
  some ⟨nx, nu, nc, nx2, nth, Q, S, R, q, r, A', B, f, C, D, d, Gth, Gx, Gu, Gv, gamma, a⟩

/-- The delegating constructors (gar/lqr-problem.hpp:64-70): without `nth`, and without `nx2`. -/
def Knot.new4 [Zero K] (j : ℕ → K) (nx nu nc nx2 : ℕ) (a : A) : Option (Knot K A) := Knot.new j nx nu nc nx2 0 a

@[inherit_doc Knot.new4]
def Knot.new3 [Zero K] (j : ℕ → K) (nx nu nc : ℕ) (a : A) : Option (Knot K A) := Knot.new j nx nu nc nx 0 a

/-- Copy constructor (gar/lqr-problem.hxx:103-128). -/
def Knot.copy (j : ℕ → K) (o : Knot K A) (a : A) : Option (Knot K A) := do
  let Q ← o.Q.copy j a
  let S ← o.S.copy j a
  let R ← o.R.copy j a
  let q ← o.q.copy j a
  let r ← o.r.copy j a
  let A' ← o.A'.copy j a
  let B ← o.B.copy j a
  let f ← o.f.copy j a
  let C ← o.C.copy j a
  let D ← o.D.copy j a
  let d ← o.d.copy j a
  let Gth ← o.Gth.copy j a
  let Gx ← o.Gx.copy j a
  let Gu ← o.Gu.copy j a
  let Gv ← o.Gv.copy j a
  let gamma ← o.gamma.copy j a
  some ⟨o.nx, o.nu, o.nc, o.nx2, o.nth, Q, S, R, q, r, A', B, f, C, D, d, Gth, Gx, Gu, Gv, gamma, a⟩

/-- What the move constructors leave of the source (gar/lqr-problem.hxx:130-182): dimensions and allocator are not
touched, every block has been moved from. -/
def Knot.emptied (o : Knot K A) : Knot K A :=
  { o with
    Q := o.Q.emptied
    S := o.S.emptied
    R := o.R.emptied
    q := o.q.emptied
    r := o.r.emptied
    A' := o.A'.emptied
    B := o.B.emptied
    f := o.f.emptied
    C := o.C.emptied
    D := o.D.emptied
    d := o.d.emptied
    Gth := o.Gth.emptied
    Gx := o.Gx.emptied
    Gu := o.Gu.emptied
    Gv := o.Gv.emptied
    gamma := o.gamma.emptied }

/-- Move constructor (gar/lqr-problem.hxx:130-155): every block takes the buffer and the allocator of the source
(core/arena-matrix.hpp:81-87).  The new knot and what is left of the source. -/
def Knot.move (o : Knot K A) : Knot K A × Knot K A := (o, o.emptied)

/-- Extended move constructor (gar/lqr-problem.hxx:157-182). -/
def Knot.moveTo [DecidableEq A] (j : ℕ → K) (o : Knot K A) (a : A) : Option (Knot K A × Knot K A) := do
  let Q ← o.Q.moveTo j a
  let S ← o.S.moveTo j a
  let R ← o.R.moveTo j a
  let q ← o.q.moveTo j a
  let r ← o.r.moveTo j a
  let A' ← o.A'.moveTo j a
  let B ← o.B.moveTo j a
  let f ← o.f.moveTo j a
  let C ← o.C.moveTo j a
  let D ← o.D.moveTo j a
  let d ← o.d.moveTo j a
  let Gth ← o.Gth.moveTo j a
  let Gx ← o.Gx.moveTo j a
  let Gu ← o.Gu.moveTo j a
  let Gv ← o.Gv.moveTo j a
  let gamma ← o.gamma.moveTo j a
  some (⟨o.nx, o.nu, o.nc, o.nx2, o.nth, Q, S, R, q, r, A', B, f, C, D, d, Gth, Gx, Gu, Gv, gamma, a⟩, o.emptied)

/-- `assign` and copy assignment (gar/lqr-problem.hxx:74-101, 184-188). -/
def Knot.assign (j : ℕ → K) (k o : Knot K A) : Option (Knot K A) := do
  let Q ← k.Q.assign j o.Q
  let S ← k.S.assign j o.S
  let R ← k.R.assign j o.R
  let q ← k.q.assign j o.q
  let r ← k.r.assign j o.r
  let A' ← k.A'.assign j o.A'
  let B ← k.B.assign j o.B
  let f ← k.f.assign j o.f
  let C ← k.C.assign j o.C
  let D ← k.D.assign j o.D
  let d ← k.d.assign j o.d
  let Gth ← k.Gth.assign j o.Gth
  let Gx ← k.Gx.assign j o.Gx
  let Gu ← k.Gu.assign j o.Gu
  let Gv ← k.Gv.assign j o.Gv
  let gamma ← k.gamma.assign j o.gamma
  some ⟨o.nx, o.nu, o.nc, o.nx2, o.nth, Q, S, R, q, r, A', B, f, C, D, d, Gth, Gx, Gu, Gv, gamma, k.alloc⟩

/-- Move assignment (gar/lqr-problem.hxx:190-229): `this->name = other.name` for an lvalue, that is, copies.  The
new value and what is left of the source. -/
def Knot.moveAssign (j : ℕ → K) (k o : Knot K A) : Option (Knot K A × Knot K A) :=
  match Knot.assign j k o with
  | none => none
  | some k' => some (k', o)

/-- `LqrKnotTpl::addParameterization` (gar/lqr-problem.hxx:231-240). -/
def Knot.addParam [Zero K] (j : ℕ → K) (k : Knot K A) (nth : ℕ) : Option (Knot K A) := do
  let Gth ← k.Gth.setZero j nth nth
  let Gx ← k.Gx.setZero j k.nx nth
  let Gu ← k.Gu.setZero j k.nu nth
  let Gv ← k.Gv.setZero j k.nc nth
  let gamma ← k.gamma.setZero j nth 1
  some { k with nth := nth, Gth := Gth, Gx := Gx, Gu := Gu, Gv := Gv, gamma := gamma }

section approx
variable [Field K] [LinearOrder K]

/-- `squaredNorm()` of the coefficients (used by Eigen's `isApprox`). -/
def sqNorm (l : List K) : K := (l.map fun x => x * x).sum

/-- Eigen's `isApprox(other, prec)` (called at gar/lqr-problem.hxx:246-261):
`‖a - b‖² ≤ prec² min(‖a‖², ‖b‖²)`; shapes that differ break an Eigen assertion (undefined without it). -/
def AMat.approx (prec : K) (m o : AMat K A) : Option Bool :=
  if m.rows = o.rows ∧ m.cols = o.cols then
    match m.contents, o.contents with
    | some a, some b => some (decide (sqNorm (List.zipWith (· - ·) a b) ≤ prec * prec * min (sqNorm a) (sqNorm b)))
    | _, _ => none
  else none

/-- `&&` of C++, from left to right, over operands that may be undefined. -/
def allSC : List (Option Bool) → Option Bool
  | [] => some true
  | none :: _ => none
  | some false :: _ => some false
  | some true :: l => allSC l

/-- `lqrKnotsSameDim` (gar/lqr-problem.hpp:197-202). -/
def sameDim (k o : Knot K A) : Bool :=
  decide (k.nx = o.nx) && decide (k.nu = o.nu) && decide (k.nc = o.nc) && decide (k.nx2 = o.nx2) && decide (k.nth = o.nth)

/-- `LqrKnotTpl::isApprox` (gar/lqr-problem.hxx:242-262); `operator==` (gar/lqr-problem.hpp:95-97) is the case of
`prec` the machine epsilon. -/
def Knot.isApprox (prec : K) (k o : Knot K A) : Option Bool :=
  if sameDim k o then
    allSC [k.Q.approx prec o.Q, k.S.approx prec o.S, k.R.approx prec o.R, k.q.approx prec o.q, k.r.approx prec o.r,
      k.A'.approx prec o.A', k.B.approx prec o.B, k.f.approx prec o.f,
      k.C.approx prec o.C, k.D.approx prec o.D, k.d.approx prec o.d,
      k.Gth.approx prec o.Gth, k.Gx.approx prec o.Gx, k.Gu.approx prec o.Gu, k.Gv.approx prec o.Gv,
      k.gamma.approx prec o.gamma]
  else some false

end approx

/-- `LqrProblemTpl` (gar/lqr-problem.hpp:111-113); `valloc` is the allocator of the vector of knots. -/
structure Problem (K A : Type) where
  G0 : AMat K A
  g0 : AMat K A
  stages : List (Knot K A)
  valloc : A

/-- `get_allocator` (gar/lqr-problem.hpp:187). -/
def Problem.alloc (p : Problem K A) : A := p.G0.alloc

/-- `check_allocators` (gar/lqr-problem.hpp:191-194). -/
def Problem.checkAllocators [DecidableEq A] (p : Problem K A) : Bool :=
  decide (p.alloc = p.g0.alloc) && decide (p.alloc = p.valloc)

/-- `horizon()` (gar/lqr-problem.hpp:115): `-1` without knots. -/
def Problem.horizon (p : Problem K A) : ℤ := (p.stages.length : ℤ) - 1

/-- `nc0()` (gar/lqr-problem.hpp:117). -/
def Problem.nc0 (p : Problem K A) : ℕ := p.g0.rows

/-- Default constructor (gar/lqr-problem.hpp:119-124). -/
def Problem.empty (a : A) : Problem K A := ⟨.null a, .nullVec a, [], a⟩

/-- The number of columns of `G0` (gar/lqr-problem.hxx:267, 275). -/
def firstNx (knots : List (Knot K A)) : ℕ :=
  match knots with
  | [] => 0
  | k :: _ => k.nx

/-- Copies of a vector of knots in a vector with another allocator: the allocator is handed to the copy constructor
of each knot (gar/lqr-problem.hxx:269; uses-allocator construction of `std::pmr::vector`). -/
def copyKnots (j : ℕ → K) (knots : List (Knot K A)) (a : A) : Option (List (Knot K A)) :=
  match knots with
  | [] => some []
  | k :: ks => match k.copy j a, copyKnots j ks a with
    | some k', some ks' => some (k' :: ks')
    | _, _ => none

/-- Constructor from knots (gar/lqr-problem.hxx:264-271): `G0` and `g0` are allocated and not initialised. -/
def Problem.ofKnots (j : ℕ → K) (knots : List (Knot K A)) (nc0 : ℕ) (a : A) : Option (Problem K A) :=
  match copyKnots j knots a with
  | none => none
  | some ks => some ⟨.new j nc0 (firstNx knots) a, .new j nc0 1 a, ks, a⟩

/-- Constructor that takes a vector of knots with allocator `va` (gar/lqr-problem.hxx:273-279): the elements stay
where they are. -/
def Problem.ofKnotsMove (j : ℕ → K) (knots : List (Knot K A)) (va : A) (nc0 : ℕ) : Problem K A :=
  ⟨.new j nc0 (firstNx knots) va, .new j nc0 1 va, knots, va⟩

/-- Copy constructor (gar/lqr-problem.hpp:132-137). -/
def Problem.copy (j : ℕ → K) (o : Problem K A) (a : A) : Option (Problem K A) :=
  match Problem.ofKnots j o.stages o.nc0 a with
  | none => none
  | some p => match p.G0.assign j o.G0, p.g0.assign j o.g0 with
    | some G0, some g0 => some { p with G0 := G0, g0 := g0 }
    | _, _ => none

/-- The copy constructor called without an allocator (`alloc = {}`, gar/lqr-problem.hpp:133): `dflt` is the default
allocator (core/allocator.hpp:19-20). -/
def Problem.copyDefault (j : ℕ → K) (dflt : A) (o : Problem K A) : Option (Problem K A) := Problem.copy j o dflt

/-- Move constructor (gar/lqr-problem.hpp:139-144): the knots are moved, `G0` and `g0` are copied.  The new problem
and what is left of the source. -/
def Problem.move (j : ℕ → K) (o : Problem K A) : Option (Problem K A × Problem K A) :=
  match (Problem.ofKnotsMove j o.stages o.valloc o.nc0).G0.assign j o.G0,
      (Problem.ofKnotsMove j o.stages o.valloc o.nc0).g0.assign j o.g0 with
  | some G0, some g0 =>
    some ({ Problem.ofKnotsMove j o.stages o.valloc o.nc0 with G0 := G0, g0 := g0 }, { o with stages := [] })
  | _, _ => none

/-- Element-wise assignment of a vector of knots to one with another allocator (gar/lqr-problem.hpp:149, move assignment
of `std::pmr::vector` with unequal allocators): assigned over the knots that exist, constructed with the vector's
allocator beyond them; the extra ones are destroyed.  Simplification: the library constructs all of them anew when
the capacity does not suffice. -/
def assignKnots [DecidableEq A] (j : ℕ → K) (ks os : List (Knot K A)) (a : A) : Option (List (Knot K A)) :=
  match ks, os with
  | _, [] => some []
  | [], o :: os => match o.moveTo j a, assignKnots j [] os a with
    | some (k', _), some ks' => some (k' :: ks')
    | _, _ => none
  | k :: ks, o :: os => match k.moveAssign j o, assignKnots j ks os a with
    | some (k', _), some ks' => some (k' :: ks')
    | _, _ => none

/-- Move assignment (gar/lqr-problem.hpp:146-151).  A `std::pmr::vector` takes the elements of one with the same
allocator and assigns them one by one otherwise; the source ends empty in both cases (libstdc++). -/
def Problem.moveAssign [DecidableEq A] (j : ℕ → K) (p o : Problem K A) : Option (Problem K A × Problem K A) :=
  match p.G0.moveAssign j o.G0, p.g0.moveAssign j o.g0,
      (if p.valloc = o.valloc then some o.stages else assignKnots j p.stages o.stages p.valloc) with
  | some (G0, oG0), some (g0, og0), some ks => some (⟨G0, g0, ks, p.valloc⟩, ⟨oG0, og0, [], o.valloc⟩)
  | _, _, _ => none

/-- `LqrProblemTpl::addParameterization` (gar/lqr-problem.hpp:155-161), knot after knot. -/
def addParams [Zero K] (j : ℕ → K) (ks : List (Knot K A)) (nth : ℕ) : Option (List (Knot K A)) :=
  match ks with
  | [] => some []
  | k :: ks => match k.addParam j nth, addParams j ks nth with
    | some k', some ks' => some (k' :: ks')
    | _, _ => none

@[inherit_doc addParams]
def Problem.addParam [Zero K] (j : ℕ → K) (p : Problem K A) (nth : ℕ) : Option (Problem K A) :=
  match addParams j p.stages nth with
  | none => none
  | some ks => some { p with stages := ks }

/-- `isParameterized` (gar/lqr-problem.hpp:163-165). -/
def Problem.isParameterized (p : Problem K A) : Bool :=
  match p.stages with
  | [] => false
  | k :: _ => decide (0 < k.nth)

/-- `isInitialized` (gar/lqr-problem.hpp:167). -/
def Problem.isInitialized (p : Problem K A) : Bool := !p.stages.isEmpty

/-- `ntheta()` (gar/lqr-problem.hpp:169): reads `stages[0]`. -/
def Problem.ntheta (p : Problem K A) : Option ℕ :=
  match p.stages with
  | [] => none
  | k :: _ => some k.nth

section approx
variable [Field K] [LinearOrder K]

/-- The loop of `LqrProblemTpl::isApprox` (gar/lqr-problem.hpp:175-178) from index `i`, with `n` turns to go. -/
def approxLoop (prec : K) (ks os : List (Knot K A)) : ℕ → ℕ → Option Bool
  | 0, _ => some true
  | n + 1, i => match ks[i]?, os[i]? with
    | some k, some o => match k.isApprox prec o with
      | some true => approxLoop prec ks os n (i + 1)
      | r => r
    | _, _ => none

/-- `LqrProblemTpl::isApprox` (gar/lqr-problem.hpp:171-180); `eps` is the precision of `operator==` on knots and `dummy`
Eigen's default precision, used for `G0` and `g0`.  The bound `uint(horizon())` is taken modulo `2 ^ 32`. -/
def Problem.isApprox (eps dummy : K) (p o : Problem K A) : Option Bool :=
  if p.horizon ≠ o.horizon then some false
  else match allSC [p.G0.approx dummy o.G0, p.g0.approx dummy o.g0] with
    | some true => approxLoop eps p.stages o.stages (p.horizon % (2 ^ 32 : ℤ)).toNat 0
    | r => r

end approx

end Aligator.LqrObj
