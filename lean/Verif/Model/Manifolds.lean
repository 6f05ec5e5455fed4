import Mathlib.Algebra.Field.Defs
import Mathlib.Algebra.BigOperators.Group.List.Basic

/-!
# Model: manifolds, vector spaces, Cartesian products and tangent bundles

Exact arithmetic in a field.  A vector is a list, a matrix the list of its rows.  A method that fills an output buffer
takes the previous content of the buffer and returns the new one.  The size assertions of Eigen are preconditions of the
theorems.
-/

namespace Aligator.Mani

/-- `VectorXs`. -/
abbrev Vec (K : Type) := List K

/-- A matrix as the list of its rows. -/
abbrev Mat (K : Type) := List (List K)

/-- The dimensions and the virtual methods of a manifold (core/manifold-base.hpp:18-162); the inputs of a method come
first, then the argument number, then the output buffer.  `none` is a thrown exception.  `rand` is not modelled. -/
structure Manifold (K : Type) where
  nx : ℕ
  ndx : ℕ
  integrate : Vec K → Vec K → Vec K → Vec K
  difference : Vec K → Vec K → Vec K → Vec K
  interpolate : Vec K → Vec K → K → Vec K → Vec K
  neutral : Vec K → Vec K
  isNormalized : Vec K → Bool
  Jintegrate : Vec K → Vec K → ℕ → Mat K → Option (Mat K)
  Jdifference : Vec K → Vec K → ℕ → Mat K → Option (Mat K)
  JintegrateTransport : Vec K → Vec K → ℕ → Mat K → Option (Mat K)

variable {K : Type} [Field K]

/-- The matrix of size `r × c` that `setIdentity` writes, scaled. -/
def identity (r c : ℕ) (a : K) : Mat K :=
  (List.range r).map fun i => (List.range c).map fun j => if i = j then a else 0

/-- Number of columns of a matrix. -/
def cols (J : Mat K) : ℕ := (J.headD []).length

/-- `VectorSpaceTpl` (core/vector-space.hpp:22-90). -/
def vectorSpace (n : ℕ) : Manifold K where
  nx := n
  ndx := n
  integrate x v _ := List.zipWith (· + ·) x v
  difference x0 x1 _ := List.zipWith (· - ·) x1 x0
  interpolate x0 x1 u _ := List.zipWith (fun b a => u * b + (1 - u) * a) x1 x0
  neutral out := out.map fun _ => 0
  isNormalized _ := true
  Jintegrate _ _ _ J := some (identity J.length (cols J) 1)
  Jdifference _ _ arg J :=
    if arg = 0 then some (identity J.length (cols J) (-1))
    else if arg = 1 then some (identity J.length (cols J) 1)
    else none
  JintegrateTransport _ _ _ J := some J

/-- The default `interpolate_impl` (core/manifold-base.hpp:147-152); the buffer of the inner call is a new vector, whose
content is unspecified (zeros here). -/
def defaultInterpolate (integrate difference : Vec K → Vec K → Vec K → Vec K) (ndx : ℕ) (x0 x1 : Vec K) (u : K)
    (out : Vec K) : Vec K :=
  integrate x0 ((difference x0 x1 (List.replicate ndx 0)).map (u * ·)) out

/-! ### Cartesian products -/

/-- `segment(start, n)` / `middleRows(start, n)`. -/
def seg {α : Type} (v : List α) (s n : ℕ) : List α := (v.drop s).take n

/-- Writing through a segment view. -/
def writeSeg {α : Type} (v : List α) (s : ℕ) (new : List α) : List α :=
  v.take s ++ new ++ v.drop (s + new.length)

/-- `block(r, c, m, n)`. -/
def block (J : Mat K) (r c m n : ℕ) : Mat K := (seg J r m).map fun row => seg row c n

/-- Writing through a block view. -/
def writeBlock (J : Mat K) (r c : ℕ) (B : Mat K) : Mat K :=
  writeSeg J r (List.zipWith (fun row b => writeSeg row c b) (seg J r B.length) B)

/-- `setZero`. -/
def setZero (J : Mat K) : Mat K := J.map fun r => r.map fun _ => 0

/-- The loop of `neutral_impl` (modelling/spaces/cartesian-product.hxx:14-19). -/
def neutralLoop : ℕ → List (Manifold K) → Vec K → Vec K
  | _, [], out => out
  | c, m :: ms, out => neutralLoop (c + m.nx) ms (writeSeg out c (m.neutral (seg out c m.nx)))

/-- The loop of `isNormalized` over the parts of `split` (modelling/spaces/cartesian-product.hxx:34-39). -/
def normalizedLoop : ℕ → List (Manifold K) → Vec K → Bool → Bool
  | _, [], _, res => res
  | c, m :: ms, x, res => normalizedLoop (c + m.nx) ms x (res || m.isNormalized (seg x c m.nx))

/-- The loop of `split_impl` and `split_vector_impl` (modelling/spaces/cartesian-product.hxx:46-52, :61-67), with the
dimensions of the components. -/
def splitLoop : ℕ → List ℕ → Vec K → List (Vec K)
  | _, [], _ => []
  | c, n :: ns, x => seg x c n :: splitLoop (c + n) ns x

/-- The loop of `merge` and `merge_vector` (modelling/spaces/cartesian-product.hxx:74-80, :87-93); `none`: the vector of
parts is too short, or a part has another size (both undefined). -/
def mergeLoop : ℕ → List ℕ → List (Vec K) → Vec K → Option (Vec K)
  | _, [], _, out => some out
  | _, _ :: _, [], _ => none
  | c, n :: ns, x :: xs, out => if x.length = n then mergeLoop (c + n) ns xs (writeSeg out c x) else none

/-- The loop of `integrate_impl` (modelling/spaces/cartesian-product.hxx:102-114). -/
def integrateLoop : ℕ → ℕ → List (Manifold K) → Vec K → Vec K → Vec K → Vec K
  | _, _, [], _, _, out => out
  | cq, cv, m :: ms, x, v, out =>
    integrateLoop (cq + m.nx) (cv + m.ndx) ms x v
      (writeSeg out cq (m.integrate (seg x cq m.nx) (seg v cv m.ndx) (seg out cq m.nx)))

/-- The loop of `difference_impl` (modelling/spaces/cartesian-product.hxx:122-134). -/
def differenceLoop : ℕ → ℕ → List (Manifold K) → Vec K → Vec K → Vec K → Vec K
  | _, _, [], _, _, out => out
  | cq, cv, m :: ms, x0, x1, out =>
    differenceLoop (cq + m.nx) (cv + m.ndx) ms x0 x1
      (writeSeg out cv (m.difference (seg x0 cq m.nx) (seg x1 cq m.nx) (seg out cv m.ndx)))

/-- The loop of `Jintegrate_impl` (modelling/spaces/cartesian-product.hxx:144-156). -/
def JintegrateLoop : ℕ → ℕ → List (Manifold K) → Vec K → Vec K → ℕ → Mat K → Option (Mat K)
  | _, _, [], _, _, _, J => some J
  | cq, cv, m :: ms, x, v, arg, J =>
    match m.Jintegrate (seg x cq m.nx) (seg v cv m.ndx) arg (block J cv cv m.ndx m.ndx) with
    | none => none
    | some B => JintegrateLoop (cq + m.nx) (cv + m.ndx) ms x v arg (writeBlock J cv cv B)

/-- The loop of `Jdifference_impl` (modelling/spaces/cartesian-product.hxx:185-197). -/
def JdifferenceLoop : ℕ → ℕ → List (Manifold K) → Vec K → Vec K → ℕ → Mat K → Option (Mat K)
  | _, _, [], _, _, _, J => some J
  | cq, cv, m :: ms, x0, x1, arg, J =>
    match m.Jdifference (seg x0 cq m.nx) (seg x1 cq m.nx) arg (block J cv cv m.ndx m.ndx) with
    | none => none
    | some B => JdifferenceLoop (cq + m.nx) (cv + m.ndx) ms x0 x1 arg (writeBlock J cv cv B)

/-- The loop of `JintegrateTransport_impl` (modelling/spaces/cartesian-product.hxx:163-175). -/
def transportLoop : ℕ → ℕ → List (Manifold K) → Vec K → Vec K → ℕ → Mat K → Option (Mat K)
  | _, _, [], _, _, _, J => some J
  | cq, cv, m :: ms, x, v, arg, J =>
    match m.JintegrateTransport (seg x cq m.nx) (seg v cv m.ndx) arg (seg J cv m.ndx) with
    | none => none
    | some B => transportLoop (cq + m.nx) (cv + m.ndx) ms x v arg (writeSeg J cv B)

/-- The fields of a Cartesian product (modelling/spaces/cartesian-product.hpp:116; dimensions in the base class). -/
structure Product (K : Type) where
  nx : ℕ
  ndx : ℕ
  comps : List (Manifold K)

/-- The constructor without arguments (modelling/spaces/cartesian-product.hpp:54-56). -/
def Product.empty : Product K := ⟨0, 0, []⟩

/-- The constructors from a list (modelling/spaces/cartesian-product.hpp:62-78, :118-125). -/
def Product.ofList (ms : List (Manifold K)) : Product K :=
  ms.foldl (fun p m => { p with nx := p.nx + m.nx, ndx := p.ndx + m.ndx }) ⟨0, 0, ms⟩

/-- The constructor from two components, and `operator*` of two manifolds
(modelling/spaces/cartesian-product.hpp:80-83, :157-161). -/
def Product.pair (l r : Manifold K) : Product K := ⟨l.nx + r.nx, l.ndx + r.ndx, [l, r]⟩

/-- `addComponent` of a manifold (modelling/spaces/cartesian-product.hpp:26-46), and `operator*` with a component on the
right (:163-169). -/
def Product.addComponent (p : Product K) (m : Manifold K) : Product K :=
  ⟨p.nx + m.nx, p.ndx + m.ndx, p.comps ++ [m]⟩

/-- `addComponent` of a product (modelling/spaces/cartesian-product.hpp:48-52), and `operator*` of two products
(:177-183). -/
def Product.append (p q : Product K) : Product K := q.comps.foldl Product.addComponent p

/-- `operator*` with a component on the left (modelling/spaces/cartesian-product.hpp:171-175): `right * left`. -/
def Product.leftMul (l : Manifold K) (p : Product K) : Product K := p.addComponent l

/-- `split` (modelling/spaces/cartesian-product.hxx:42-54); `none` is the thrown exception. -/
def Product.split (p : Product K) (x : Vec K) : Option (List (Vec K)) :=
  if x.length ≠ p.nx then none else some (splitLoop 0 (p.comps.map (·.nx)) x)

/-- `split_vector` (modelling/spaces/cartesian-product.hxx:56-69). -/
def Product.splitVector (p : Product K) (v : Vec K) : Option (List (Vec K)) :=
  if v.length ≠ p.ndx then none else some (splitLoop 0 (p.comps.map (·.ndx)) v)

/-- `merge` (modelling/spaces/cartesian-product.hxx:71-82); the new vector is unspecified (zeros here). -/
def Product.merge (p : Product K) (xs : List (Vec K)) : Option (Vec K) :=
  mergeLoop 0 (p.comps.map (·.nx)) xs (List.replicate p.nx 0)

/-- `merge_vector` (modelling/spaces/cartesian-product.hxx:84-95). -/
def Product.mergeVector (p : Product K) (vs : List (Vec K)) : Option (Vec K) :=
  mergeLoop 0 (p.comps.map (·.ndx)) vs (List.replicate p.ndx 0)

/-- `isNormalized` (modelling/spaces/cartesian-product.hxx:32-40); `none` is the exception of `split`. -/
def Product.isNormalized (p : Product K) (x : Vec K) : Option Bool :=
  if x.length ≠ p.nx then none else some (normalizedLoop 0 p.comps x true)

/-- The product as a manifold (modelling/spaces/cartesian-product.hxx:12-198).  `interpolate_impl` is the default one. -/
def Product.toManifold (p : Product K) : Manifold K where
  nx := p.nx
  ndx := p.ndx
  integrate := integrateLoop 0 0 p.comps
  difference := differenceLoop 0 0 p.comps
  interpolate := defaultInterpolate (integrateLoop 0 0 p.comps) (differenceLoop 0 0 p.comps) p.ndx
  neutral := neutralLoop 0 p.comps
  isNormalized x := (p.isNormalized x).getD false
  Jintegrate x v arg J := JintegrateLoop 0 0 p.comps x v arg (setZero J)
  Jdifference x0 x1 arg J := JdifferenceLoop 0 0 p.comps x0 x1 arg (setZero J)
  JintegrateTransport := transportLoop 0 0 p.comps

/-! ### Tangent bundles -/

/-- `head(n)`. -/
def head {α : Type} (v : List α) (n : ℕ) : List α := v.take n

/-- `tail(n)`. -/
def tail {α : Type} (v : List α) (n : ℕ) : List α := v.drop (v.length - n)

/-- Writing through `head`. -/
def writeHead {α : Type} (v new : List α) : List α := writeSeg v 0 new

/-- Writing through `tail`. -/
def writeTail {α : Type} (v new : List α) : List α := writeSeg v (v.length - new.length) new

/-- `TangentBundleTpl` (modelling/spaces/tangent-bundle.hpp:23-73, modelling/spaces/tangent-bundle.hxx:7-86).
`out.resize(ndx())` (tangent-bundle.hxx:34) has no effect on a buffer of the right size. -/
def tangentBundle (b : Manifold K) : Manifold K where
  nx := b.nx + b.ndx
  ndx := 2 * b.ndx
  integrate x dx out :=
    let out := writeHead out (b.integrate (head x b.nx) (head dx b.ndx) (head out b.nx))
    writeTail out (List.zipWith (· + ·) (tail x b.ndx) (tail dx b.ndx))
  difference x0 x1 out :=
    let out := writeHead out (b.difference (head x0 b.nx) (head x1 b.nx) (head out b.ndx))
    writeTail out (List.zipWith (· - ·) (tail x1 b.ndx) (tail x0 b.ndx))
  interpolate x0 x1 u out :=
    let out := writeHead out (b.interpolate (head x0 b.nx) (head x1 b.nx) u (head out b.nx))
    writeTail out (List.zipWith (fun a c => (1 - u) * a + u * c) (head x0 b.ndx) (head x1 b.ndx))
  neutral out := writeHead (out.map fun _ => 0) (b.neutral (List.replicate b.nx 0))
  isNormalized x := b.isNormalized (head x b.nx)
  Jintegrate x dx arg J :=
    let J := setZero J
    (b.Jintegrate (head x b.nx) (head dx b.ndx) arg (block J 0 0 b.ndx b.ndx)).map fun B =>
      writeBlock (writeBlock J 0 0 B) b.ndx b.ndx (identity b.ndx b.ndx 1)
  Jdifference x0 x1 arg J :=
    let J := setZero J
    (b.Jdifference (head x0 b.nx) (head x1 b.nx) arg (block J 0 0 b.ndx b.ndx)).map fun B =>
      let J := writeBlock J 0 0 B
      if arg = 0 then writeBlock J b.ndx b.ndx (identity b.ndx b.ndx (-1))
      else if arg = 1 then writeBlock J b.ndx b.ndx (identity b.ndx b.ndx 1)
      else J
  JintegrateTransport x v arg J :=
    (b.JintegrateTransport (head x b.nx) (head v b.ndx) arg (head J b.ndx)).map (writeHead J)

end Aligator.Mani
