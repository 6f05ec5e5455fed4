import Mathlib.Data.Matrix.Mul
import Mathlib.LinearAlgebra.Matrix.Notation
import Mathlib.Data.List.FinRange
import Mathlib.Analysis.SpecialFunctions.Trigonometric.Deriv

/-!
# Model: centroidal dynamics and residuals, wheeled inverted pendulum

Real arithmetic.  The scratch matrices `Jtemp_`, overwritten before each use, are not part of the data.  The contact maps
are taken as they are at the time of the call, with as many contacts as at construction.
-/

namespace Aligator.Centroidal

open Matrix

/-- A vector. -/
abbrev Vec (n : ℕ) := Fin n → ℝ

/-- A matrix. -/
abbrev Mat (m n : ℕ) := Matrix (Fin m) (Fin n) ℝ

variable {n m r p q nk : ℕ}

/-- The value (or time derivative) and Jacobian buffers of a function's (core/function-abstract.hpp:73-110) or an ODE's
data (modelling/dynamics/continuous-dynamics-abstract.hpp:64-89). -/
structure FData (n m r : ℕ) where
  value : Vec r
  Jx : Mat r n
  Ju : Mat r m

/-- New data (core/function-abstract.hxx:29-47, modelling/dynamics/continuous-dynamics-abstract.hxx:20-31). -/
def FData.new : FData n m r := ⟨0, 0, 0⟩

/-- A function or ODE: methods acting on a data object. -/
structure Fun (n m r : ℕ) where
  Data : Type
  base : Data → FData n m r
  new : Data
  evaluate : Vec n → Vec m → Data → Data
  computeJacobians : Vec n → Vec m → Data → Data

/-- Calls of a client. -/
inductive Call (n m : ℕ)
  | value (x : Vec n) (u : Vec m)
  | jac (x : Vec n) (u : Vec m)

/-- One call. -/
def Fun.call (f : Fun n m r) (d : f.Data) : Call n m → f.Data
  | .value x u => f.evaluate x u d
  | .jac x u => f.computeJacobians x u d

/-! ### Writing through blocks -/

/-- `M.block<a, b>(r0, c0) = B`. -/
def setBlock {a b : ℕ} (M : Mat p q) (r0 c0 : ℕ) (B : Mat a b) : Mat p q := fun i j =>
  if h : (r0 ≤ i.val ∧ i.val < r0 + a) ∧ (c0 ≤ j.val ∧ j.val < c0 + b) then B ⟨i - r0, by omega⟩ ⟨j - c0, by omega⟩
  else M i j

/-- `v.segment<3>(k) = w`. -/
def setSeg {a : ℕ} (v : Vec p) (k : ℕ) (w : Vec a) : Vec p := fun i =>
  if h : k ≤ i.val ∧ i.val < k + a then w ⟨i - k, by omega⟩ else v i

/-- `v.segment<3>(k) += w`. -/
def addSeg {a : ℕ} (v : Vec p) (k : ℕ) (w : Vec a) : Vec p := fun i =>
  if h : k ≤ i.val ∧ i.val < k + a then v i + w ⟨i - k, by omega⟩ else v i

/-- `M(i, j) += y`. -/
def addAt (M : Mat p q) (i j : ℕ) (y : ℝ) : Mat p q := fun a b => if a.val = i ∧ b.val = j then M a b + y else M a b

/-- `M(i, j) = y`. -/
def setAt (M : Mat p q) (i j : ℕ) (y : ℝ) : Mat p q := fun a b => if a.val = i ∧ b.val = j then y else M a b

/-! ### Contacts -/

/-- The contacts (modelling/contact-map.hpp:8-26): states and poses, of the same number. -/
structure Contacts (nk : ℕ) where
  active : Fin nk → Bool
  pose : Fin nk → Vec 3

/-- The forces in the control (modelling/centroidal/angular-acceleration.hpp:32-47): `nk` forces of size `fs` fit in `m`
coordinates.  Sizes below three, not rejected by the constructor, make the code read and write across forces and out of
range; they are not modelled. -/
structure Layout (nk m : ℕ) where
  fs : ℕ
  h3 : 3 ≤ fs
  hm : nk * fs ≤ m

/-- The index `i * force_size_ + c`. -/
def Layout.ix (L : Layout nk m) (i : Fin nk) (c : ℕ) (hc : c < L.fs) : Fin m :=
  ⟨i * L.fs + c, by
    have h1 : (i.val + 1) * L.fs ≤ nk * L.fs := Nat.mul_le_mul_right _ i.isLt
    have h2 := L.hm
    rw [Nat.add_mul, Nat.one_mul] at h1
    omega⟩

/-- `u.segment<3>(i * force_size_)`. -/
def Layout.force (L : Layout nk m) (u : Vec m) (i : Fin nk) : Vec 3 := fun c => u (L.ix i c (by have := L.h3; omega))

/-- `u.segment<3>(i * force_size_ + 3)`, for forces of size six. -/
def Layout.moment (L : Layout nk m) (h : L.fs = 6) (u : Vec m) (i : Fin nk) : Vec 3 := fun c =>
  u (L.ix i (3 + c) (by omega))

/-- The first three coordinates. -/
def com (hn : 3 ≤ n) (x : Vec n) : Vec 3 := fun c => x (Fin.castLE hn c)

/-- The matrix `Jtemp_` (modelling/centroidal/angular-acceleration.hxx:51-56). -/
def jtemp (pose c : Vec 3) : Mat 3 3 :=
  !![0, -(pose 2 - c 2), pose 1 - c 1;
     pose 2 - c 2, 0, -(pose 0 - c 0);
     -(pose 1 - c 1), pose 0 - c 0, 0]

/-- The six scalar updates of the state Jacobian (modelling/centroidal/angular-acceleration.hxx:44-49, and
modelling/dynamics/centroidal-fwd.hxx:63-68 with `r0 = 6`). -/
def addCross (J : Mat p q) (r0 : ℕ) (f : Vec 3) : Mat p q :=
  let J := addAt J r0 1 (-f 2)
  let J := addAt J r0 2 (f 1)
  let J := addAt J (r0 + 1) 0 (f 2)
  let J := addAt J (r0 + 1) 2 (-f 0)
  let J := addAt J (r0 + 2) 0 (-f 1)
  addAt J (r0 + 2) 1 (f 0)

/-- The three scalar values of one contact (modelling/centroidal/angular-acceleration.hxx:17-25). -/
def crossTerm (pose c f : Vec 3) : Vec 3 :=
  ![(pose 1 - c 1) * f 2 - (pose 2 - c 2) * f 1,
    (pose 2 - c 2) * f 0 - (pose 0 - c 0) * f 2,
    (pose 0 - c 0) * f 1 - (pose 1 - c 1) * f 0]

/-! ### Residuals -/

/-- `AngularAccelerationResidualTpl` (modelling/centroidal/angular-acceleration.hxx:8-64). -/
def angularAcceleration (C : Contacts nk) (L : Layout nk m) (hn : 3 ≤ n) : Fun n m 3 where
  Data := FData n m 3
  base d := d
  new := FData.new
  evaluate x u d :=
    let d := { d with value := 0 }
    (List.finRange nk).foldl (fun d i =>
      if C.active i then
        let d := { d with value := d.value + crossTerm (C.pose i) (com hn x) (L.force u i) }
        if h : L.fs = 6 then { d with value := d.value + L.moment h u i } else d
      else d) d
  computeJacobians x u d :=
    let d := { d with Jx := 0, Ju := 0 }
    (List.finRange nk).foldl (fun d i =>
      if C.active i then
        let d := { d with Jx := addCross d.Jx 0 (L.force u i) }
        let d := { d with Ju := setBlock d.Ju 0 (L.fs * i) (jtemp (C.pose i) (com hn x)) }
        if L.fs = 6 then { d with Ju := setBlock d.Ju 0 (L.fs * i + 3) (1 : Mat 3 3) } else d
      else d) d

/-- `CentroidalAccelerationResidualTpl` (modelling/centroidal/centroidal-acceleration.hxx:7-35): `Jx` is never written. -/
noncomputable def centroidalAcceleration (C : Contacts nk) (L : Layout nk m) (mass : ℝ) (gravity : Vec 3) : Fun n m 3 where
  Data := FData n m 3
  base d := d
  new := FData.new
  evaluate _ u d :=
    let d := { d with value := 0 }
    let d := (List.finRange nk).foldl (fun d i =>
      if C.active i then { d with value := d.value + L.force u i } else d) d
    let d := { d with value := fun c => d.value c / mass }
    { d with value := d.value + gravity }
  computeJacobians _ _ d :=
    let d := { d with Ju := 0 }
    (List.finRange nk).foldl (fun d i =>
      if C.active i then { d with Ju := setBlock d.Ju 0 (i * L.fs) ((1 / mass) • (1 : Mat 3 3)) } else d) d

/-- `CentroidalCoMResidualTpl` (modelling/centroidal/centroidal-translation.hxx:7-21). -/
def comResidual (hn : 3 ≤ n) (pref : Vec 3) : Fun n m 3 where
  Data := FData n m 3
  base d := d
  new := FData.new
  evaluate x _ d := { d with value := com hn x - pref }
  computeJacobians _ _ d := { d with Jx := setBlock d.Jx 0 0 (1 : Mat 3 3) }

/-- `LinearMomentumResidualTpl` (modelling/centroidal/linear-momentum.hxx:7-21). -/
def linearMomentum (hn : 6 ≤ n) (href : Vec 3) : Fun n m 3 where
  Data := FData n m 3
  base d := d
  new := FData.new
  evaluate x _ d := { d with value := fun c => x ⟨3 + c, by omega⟩ - href c }
  computeJacobians _ _ d := { d with Jx := setBlock d.Jx 0 3 (1 : Mat 3 3) }

/-- `AngularMomentumResidualTpl` (modelling/centroidal/angular-momentum.hxx:7-21): the Jacobian is written to the last three
columns. -/
def angularMomentum (hn : 9 ≤ n) (Lref : Vec 3) : Fun n m 3 where
  Data := FData n m 3
  base d := d
  new := FData.new
  evaluate x _ d := { d with value := fun c => x ⟨6 + c, by omega⟩ - Lref c }
  computeJacobians _ _ d := { d with Jx := setBlock d.Jx 0 (n - 3) (1 : Mat 3 3) }

/-- `CentroidalFrictionConeResidualTpl` (modelling/centroidal/centroidal-friction-cone.hxx:7-25,
centroidal-friction-cone.hpp:31-36) for a contact in range. -/
def frictionCone (k : ℕ) (hk : k * 3 + 3 ≤ m) (mu eps : ℝ) : Fun n m 2 where
  Data := FData n m 2
  base d := d
  new := FData.new
  evaluate _ u d :=
    { d with value := ![-u ⟨k * 3 + 2, by omega⟩ + eps,
      -(mu * mu) * u ⟨k * 3 + 2, by omega⟩ ^ 2 + u ⟨k * 3, by omega⟩ ^ 2 + u ⟨k * 3 + 1, by omega⟩ ^ 2] }
  computeJacobians _ u d :=
    let J : Mat 2 3 :=
      !![0, 0, -1;
         2 * u ⟨k * 3, by omega⟩, 2 * u ⟨k * 3 + 1, by omega⟩, -2 * (mu * mu) * u ⟨k * 3 + 2, by omega⟩]
    { d with Ju := setBlock d.Ju 0 (k * 3) J }

/-- `CentroidalWrenchConeResidualTpl` (modelling/centroidal/centroidal-wrench-cone.hxx:7-73) for a contact in range. -/
def wrenchCone (k : ℕ) (hk : k * 6 + 6 ≤ m) (mu hL hW : ℝ) : Fun n m 17 where
  Data := FData n m 17
  base d := d
  new := FData.new
  evaluate _ u d :=
    let u0 := u ⟨k * 6, by omega⟩
    let u1 := u ⟨k * 6 + 1, by omega⟩
    let u2 := u ⟨k * 6 + 2, by omega⟩
    let u3 := u ⟨k * 6 + 3, by omega⟩
    let u4 := u ⟨k * 6 + 4, by omega⟩
    let u5 := u ⟨k * 6 + 5, by omega⟩
    { d with value := ![-u2,
      -u0 - mu * u2, u0 - mu * u2, -u1 - mu * u2, u1 - mu * u2,
      -hW * u2 - u3, -hW * u2 + u3, -hL * u2 - u4, -hL * u2 + u4,
      -hW * u0 - hL * u1 - (hW + hL) * mu * u2 + mu * u3 + mu * u4 - u5,
      -hW * u0 + hL * u1 - (hW + hL) * mu * u2 + mu * u3 - mu * u4 - u5,
      hW * u0 - hL * u1 - (hW + hL) * mu * u2 - mu * u3 + mu * u4 - u5,
      hW * u0 + hL * u1 - (hW + hL) * mu * u2 - mu * u3 - mu * u4 - u5,
      hW * u0 + hL * u1 - (hW + hL) * mu * u2 + mu * u3 + mu * u4 + u5,
      hW * u0 - hL * u1 - (hW + hL) * mu * u2 + mu * u3 - mu * u4 + u5,
      -hW * u0 + hL * u1 - (hW + hL) * mu * u2 - mu * u3 + mu * u4 + u5,
      -hW * u0 - hL * u1 - (hW + hL) * mu * u2 - mu * u3 - mu * u4 + u5] }
  computeJacobians _ _ d :=
    let J : Mat 17 6 :=
      !![0, 0, -1, 0, 0, 0;
         -1, 0, -mu, 0, 0, 0;
         1, 0, -mu, 0, 0, 0;
         0, -1, -mu, 0, 0, 0;
         0, 1, -mu, 0, 0, 0;
         0, 0, -hW, -1, 0, 0;
         0, 0, -hW, 1, 0, 0;
         0, 0, -hL, 0, -1, 0;
         0, 0, -hL, 0, 1, 0;
         -hW, -hL, -(hL + hW) * mu, mu, mu, -1;
         -hW, hL, -(hL + hW) * mu, mu, -mu, -1;
         hW, -hL, -(hL + hW) * mu, -mu, mu, -1;
         hW, hL, -(hL + hW) * mu, -mu, -mu, -1;
         hW, hL, -(hL + hW) * mu, mu, mu, 1;
         hW, -hL, -(hL + hW) * mu, mu, -mu, 1;
         -hW, hL, -(hL + hW) * mu, -mu, mu, 1;
         -hW, -hL, -(hL + hW) * mu, -mu, -mu, 1]
    { d with Ju := setBlock d.Ju 0 (k * 6) J }

/-- The data of the wrapper (modelling/centroidal/centroidal-wrapper.hpp:42-50). -/
structure WData (f : Fun n m r) extends FData (n + m) m r where
  sub : f.Data

/-- `CentroidalWrapperResidualTpl` (modelling/centroidal/centroidal-wrapper.hxx:7-38,
modelling/centroidal/centroidal-wrapper.hpp:26-29). -/
def wrapper (f : Fun n m r) : Fun (n + m) m r where
  Data := WData f
  base d := d.toFData
  new := { (FData.new : FData (n + m) m r) with sub := f.new }
  evaluate x _ d :=
    let d := { d with sub := f.evaluate (fun i => x (Fin.castAdd m i)) (fun j => x (Fin.natAdd n j)) d.sub }
    { d with value := (f.base d.sub).value }
  computeJacobians x _ d :=
    let d := { d with sub := f.computeJacobians (fun i => x (Fin.castAdd m i)) (fun j => x (Fin.natAdd n j)) d.sub }
    let d := { d with Jx := 0 }
    let d := { d with Jx := setBlock d.Jx 0 0 (f.base d.sub).Jx }
    let d := { d with Jx := setBlock d.Jx 0 n (f.base d.sub).Ju }
    { d with Ju := 0 }

/-! ### Dynamics -/

/-- `CentroidalFwdDynamicsTpl` (modelling/dynamics/centroidal-fwd.hxx:21-84). -/
noncomputable def centroidalFwd (C : Contacts nk) (L : Layout nk m) (mass : ℝ) (gravity : Vec 3) : Fun 9 m 9 where
  Data := FData 9 m 9
  base d := d
  new := FData.new
  evaluate x u d :=
    let d := { d with value := setSeg d.value 0 (fun c : Fin 3 => 1 / mass * x ⟨3 + c, by omega⟩) }
    let d := { d with value := setSeg d.value 3 (mass • gravity) }
    let d := { d with value := setSeg d.value 6 (0 : Vec 3) }
    (List.finRange nk).foldl (fun d i =>
      if C.active i then
        let d := { d with value := addSeg d.value 3 (L.force u i) }
        let d := { d with value := addSeg d.value 6 (crossTerm (C.pose i) (com (by omega) x) (L.force u i)) }
        if h : L.fs = 6 then { d with value := addSeg d.value 6 (L.moment h u i) } else d
      else d) d
  computeJacobians x u d :=
    let d := { d with Jx := 0, Ju := 0 }
    let d := { d with Jx := setBlock d.Jx 0 3 ((1 / mass) • (1 : Mat 3 3)) }
    (List.finRange nk).foldl (fun d i =>
      if C.active i then
        let d := { d with Jx := addCross d.Jx 6 (L.force u i) }
        let d := { d with Ju := setBlock d.Ju 6 (L.fs * i) (jtemp (C.pose i) (com (by omega) x)) }
        let d := { d with Ju := setBlock d.Ju 3 (L.fs * i) (1 : Mat 3 3) }
        if L.fs = 6 then { d with Ju := setBlock d.Ju 6 (L.fs * i + 3) (1 : Mat 3 3) } else d
      else d) d

/-- `ContinuousCentroidalFwdDynamicsTpl` (modelling/dynamics/continuous-centroidal-fwd.hxx:27-97): the forces are in the
state; the constructor checks that the state has dimension `9 + nu` (:20-24). -/
noncomputable def continuousCentroidalFwd (C : Contacts nk) (L : Layout nk m) (mass : ℝ) (gravity : Vec 3) :
    Fun (9 + m) m (9 + m) where
  Data := FData (9 + m) m (9 + m)
  base d := d
  new := FData.new
  evaluate x u d :=
    let forces : Vec m := fun j => x (Fin.natAdd 9 j)
    let d := { d with value := setSeg d.value 0 (fun c : Fin 3 => 1 / mass * x ⟨3 + c, by omega⟩) }
    let d := { d with value := setSeg d.value 3 (mass • gravity) }
    let d := { d with value := setSeg d.value 6 (0 : Vec 3) }
    let d := (List.finRange nk).foldl (fun d i =>
      if C.active i then
        let d := { d with value := addSeg d.value 3 (L.force forces i) }
        let d := { d with value := addSeg d.value 6 (crossTerm (C.pose i) (com (by omega) x) (L.force forces i)) }
        if h : L.fs = 6 then { d with value := addSeg d.value 6 (L.moment h forces i) } else d
      else d) d
    { d with value := setSeg d.value 9 u }
  computeJacobians x _ d :=
    let forces : Vec m := fun j => x (Fin.natAdd 9 j)
    let d := { d with Jx := 0 }
    let d := { d with Jx := setBlock d.Jx 0 3 ((1 / mass) • (1 : Mat 3 3)) }
    let d := (List.finRange nk).foldl (fun d i =>
      if C.active i then
        let d := { d with Jx := addCross d.Jx 6 (L.force forces i) }
        let d := { d with Jx := setBlock d.Jx 6 (9 + L.fs * i) (jtemp (C.pose i) (com (by omega) x)) }
        let d := { d with Jx := setBlock d.Jx 3 (9 + L.fs * i) (1 : Mat 3 3) }
        if L.fs = 6 then { d with Jx := setBlock d.Jx 6 (9 + L.fs * i + 3) (1 : Mat 3 3) } else d
      else d) d
    let d := { d with Ju := 0 }
    { d with Ju := setBlock d.Ju 9 0 (1 : Mat m m) }

/-- `WheeledInvertedPendulumDynamicsTpl` (modelling/dynamics/wheeled-inverted-pendulum.hpp:22-58). -/
noncomputable def pendulum (gravity length : ℝ) : Fun 7 2 7 where
  Data := FData 7 2 7
  base d := d
  new := FData.new
  evaluate x u d :=
    let xdot : Vec 7 :=
      ![u 0, u 1, x 3, Real.sin (x 2) * gravity / length - Real.cos (x 2) * u 0 / length,
        x 1, x 0 * Real.cos (x 4), x 0 * Real.sin (x 4)]
    { d with value := xdot }
  computeJacobians x u d :=
    let J : Mat 7 7 := 0
    let J := setAt J 2 3 1
    let J := setAt J 3 2 (Real.cos (x 2) * gravity / length + Real.sin (x 2) * u 0 / length)
    let J := setAt J 4 1 1
    let J := setAt J 5 0 (Real.cos (x 4))
    let J := setAt J 5 4 (-x 0 * Real.sin (x 4))
    let J := setAt J 6 0 (Real.sin (x 4))
    let J := setAt J 6 4 (x 0 * Real.cos (x 4))
    let K : Mat 7 2 := 0
    let K := setAt K 0 0 1
    let K := setAt K 1 1 1
    let K := setAt K 3 0 (-1 * Real.cos (x 2) / length)
    { d with Jx := J, Ju := K }

end Aligator.Centroidal
