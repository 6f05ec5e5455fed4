import Verif.Model.Riccati

/-!
# Model: the memory of the serial Riccati solver

`include/aligator/gar/riccati-kernel.hpp/.hxx` and `proximal-riccati.hpp/.hxx` again, now with the buffers that
`Model/Riccati` leaves out: every assignment writes what it writes in the code and nothing else, on top of whatever
earlier calls left.  What a failed factorisation leaves is arbitrary (`junk`), the code goes on with it where it does not
look at the status.
-/

namespace Aligator.GarMem

open Matrix Gar

variable {𝕜 : Type*} [Field 𝕜] [DecidableEq 𝕜] {nth : ℕ}

/-- `BunchKaufman` with the operator that `solveInPlace` applies after a failed `compute` (core/bunchkaufman.hpp:650-674).
Simplification: also then it is linear and does not depend on earlier factorisations. -/
structure LDLMem (𝕜 : Type*) extends LDL 𝕜 where
  junk : (n : ℕ) → Mat 𝕜 n n → Mat 𝕜 n n

/-- `compute`: the operator of `solveInPlace`, and `info() == Success`. -/
def LDLMem.factor (L : LDLMem 𝕜) {n : ℕ} (M : Mat 𝕜 n n) : Mat 𝕜 n n × Bool :=
  match L.inv? n M with
  | some X => (X, true)
  | none => (L.junk n M, false)

/-- All members of `StageFactor` (gar/riccati-kernel.hpp:86-101); `F` holds the blocks of `ff`, `fb`, `fth` and `vm`. -/
structure Buf (𝕜 : Type*) (nth nx nu nc nx2 : ℕ) where
  Qhat : Mat 𝕜 nx nx
  Rhat : Mat 𝕜 nu nu
  Shat : Mat 𝕜 nx nu
  qhat : Vec 𝕜 nx
  rhat : Vec 𝕜 nu
  AtV : Mat 𝕜 nx nx2
  BtV : Mat 𝕜 nu nx2
  Gxhat : Mat 𝕜 nx nth
  Guhat : Mat 𝕜 nu nth
  F : Factor 𝕜 nth nx nu nc nx2
  kktMat : Mat 𝕜 (nu + nc) (nu + nc)
  kktChol : Mat 𝕜 (nu + nc) (nu + nc)
  info : Bool

/-- The constructor (gar/riccati-kernel.hxx:11-50) on memory `u`: everything is set to zero except `Vxx` and `vx` of the cost
to go (gar/riccati-kernel.hpp:43-53) and the factorisation. -/
def Buf.new {nx nu nc nx2 : ℕ} (u : Buf 𝕜 nth nx nu nc nx2) : Buf 𝕜 nth nx nu nc nx2 :=
  { Qhat := 0, Rhat := 0, Shat := 0, qhat := 0, rhat := 0, AtV := 0, BtV := 0, Gxhat := 0, Guhat := 0
    F := { kff := 0, zff := 0, yff := 0, K := 0, Z := 0, Aff := 0, Kth := 0, Zth := 0, Yth := 0
           vm := { Vxx := u.F.vm.Vxx, vx := u.F.vm.vx, Vxt := 0, Vtt := 0, vt := 0 } }
    kktMat := 0, kktChol := u.kktChol, info := false }

/-- The four assignments to the blocks of `kktMat` (gar/riccati-kernel.hxx:151-154, :232-235); of the last block only the diagonal
is written. -/
def writeKkt {nu nc : ℕ} (M : Mat 𝕜 (nu + nc) (nu + nc)) (R : Mat 𝕜 nu nu) (D : Mat 𝕜 nc nu) (mueq : 𝕜) :
    Mat 𝕜 (nu + nc) (nu + nc) :=
  blk2 R Dᵀ D fun a b => if a = b then -mueq else M (finSumFinEquiv (Sum.inr a)) (finSumFinEquiv (Sum.inr b))

/-- The gains of `terminalSolve` (gar/riccati-kernel.hxx:146-173); the second component: a division by zero, or a factorisation
failed and nobody looked. -/
def terminalGains (L : LDLMem 𝕜) {nx nu nc nx2 : ℕ} (m : Knot 𝕜 nth nx nu nc nx2) (mueq : 𝕜) (d : Buf 𝕜 nth nx nu nc nx2) :
    Buf 𝕜 nth nx nu nc nx2 × Bool :=
  if nu = 0 then
    ({ d with F := { d.F with Z := mueq⁻¹ • m.C, zff := mueq⁻¹ • m.d, Zth := 0 } }, decide (mueq = 0 ∧ nc ≠ 0))
  else
    let d := { d with kktMat := writeKkt d.kktMat m.R m.D mueq }
    let c := L.factor d.kktMat
    let d := { d with kktChol := c.1, info := c.2 }
    let ff := solveVec d.kktChol (-m.r) (-m.d)
    let fb := solveMat d.kktChol (-m.Sᵀ) (-m.C)
    let d := { d with F := { d.F with kff := ff.1, zff := ff.2, K := fb.1, Z := fb.2 } }
    let fth := solveMat d.kktChol (-m.Gu) (0 : Mat 𝕜 nc nth)
    let d := if 0 < nth then { d with F := { d.F with Kth := fth.1, Zth := fth.2 } } else d
    (d, !d.info)

/-- The cost to go of `terminalSolve` (gar/riccati-kernel.hxx:175-192). -/
def terminalVm {nx nu nc nx2 : ℕ} (m : Knot 𝕜 nth nx nu nc nx2) (d : Buf 𝕜 nth nx nu nc nx2) : Buf 𝕜 nth nx nu nc nx2 :=
  let F := d.F
  let Vxx := m.Q + m.Cᵀ * F.Z
  let vx := m.q + m.Cᵀ *ᵥ F.zff
  let Vxx := if 0 < nu then Vxx + m.S * F.K else Vxx
  let vx := if 0 < nu then vx + m.S *ᵥ F.kff else vx
  let vm := { F.vm with Vxx := Vxx, vx := vx }
  let vm := if 0 < nth then
      { vm with Vxt := m.Gx + F.Kᵀ * m.Gu, Vtt := m.Gth + m.Guᵀ * F.Kth, vt := m.gamma + m.Guᵀ *ᵥ F.kff }
    else vm
  { d with F := { F with vm := vm } }

/-- `terminalSolve` (gar/riccati-kernel.hxx:130-193). -/
def terminalM (L : LDLMem 𝕜) {nx nu nc nx2 : ℕ} (m : Knot 𝕜 nth nx nu nc nx2) (mueq : 𝕜) (d : Buf 𝕜 nth nx nu nc nx2) :
    Buf 𝕜 nth nx nu nc nx2 × Bool :=
  ((terminalVm m (terminalGains L m mueq d).1), (terminalGains L m mueq d).2)

/-- `stageKernelSolve` up to the test of the factorisation (gar/riccati-kernel.hxx:217-241); `vn` is the next cost to go after the
symmetrisation of line 216. -/
def stageFactorM (L : LDLMem 𝕜) {nx nu nc nx2 : ℕ} (m : Knot 𝕜 nth nx nu nc nx2) (vn : CostToGo 𝕜 nth nx2) (mueq : 𝕜)
    (d : Buf 𝕜 nth nx nu nc nx2) : Buf 𝕜 nth nx nu nc nx2 :=
  let vplus := vn.vx + vn.Vxx *ᵥ m.f
  let d := { d with AtV := m.Aᵀ * vn.Vxx, BtV := m.Bᵀ * vn.Vxx }
  let d := { d with Qhat := m.Q + d.AtV * m.A, Rhat := m.R + d.BtV * m.B, Shat := m.S + d.AtV * m.B,
                    qhat := m.q + m.Aᵀ *ᵥ vplus, rhat := m.r + m.Bᵀ *ᵥ vplus }
  let d := { d with kktMat := writeKkt d.kktMat d.Rhat m.D mueq }
  let d := { d with kktMat := symLower d.kktMat }
  let c := L.factor d.kktMat
  { d with kktChol := c.1, info := c.2 }

/-- The rest of `stageKernelSolve` (gar/riccati-kernel.hxx:243-311). -/
def stageGainsM {nx nu nc nx2 : ℕ} (m : Knot 𝕜 nth nx nu nc nx2) (vn : CostToGo 𝕜 nth nx2)
    (d : Buf 𝕜 nth nx nu nc nx2) : Buf 𝕜 nth nx nu nc nx2 :=
  let ff := solveVec d.kktChol (-d.rhat) (-m.d)
  let fb := solveMat d.kktChol (-d.Shatᵀ) (-m.C)
  let d := { d with F := { d.F with kff := ff.1, zff := ff.2, K := fb.1, Z := fb.2 } }
  let d := { d with F := { d.F with yff := m.f + m.B *ᵥ d.F.kff, Aff := m.A + m.B * d.F.K } }
  let d := { d with F := { d.F with vm := { d.F.vm with
    Vxx := d.Qhat + d.Shat * d.F.K + m.Cᵀ * d.F.Z
    vx := d.qhat + d.Shat *ᵥ d.F.kff + m.Cᵀ *ᵥ d.F.zff } } }
  if 0 < nth then
    let d := { d with Gxhat := m.Gx + m.Aᵀ * vn.Vxt, Guhat := m.Gu + m.Bᵀ * vn.Vxt }
    let fth := solveMat d.kktChol (-d.Guhat) (-m.Gv)
    let d := { d with F := { d.F with Kth := fth.1, Zth := fth.2 } }
    let d := { d with F := { d.F with Yth := m.B * d.F.Kth } }
    { d with F := { d.F with vm := { d.F.vm with
      vt := m.gamma + vn.vt + m.Guᵀ *ᵥ d.F.kff + vn.Vxtᵀ *ᵥ d.F.yff
      Vxt := m.Gx + d.F.Kᵀ * m.Gu + d.F.Affᵀ * vn.Vxt
      Vtt := m.Gth + vn.Vtt + m.Guᵀ * d.F.Kth + vn.Vxtᵀ * d.F.Yth } } }
  else d

/-- Dimensions of a chain of knots, starting with the state dimension of its index. -/
inductive Dims : ℕ → Type
  | last {nx : ℕ} (nu nc nx2 : ℕ) : Dims nx
  | cons {nx nx2 : ℕ} (nu nc : ℕ) (tl : Dims nx2) : Dims nx

/-- Knots of given dimensions: what the client may change between two calls. -/
def Knots (𝕜 : Type*) (nth : ℕ) : {nx : ℕ} → Dims nx → Type _
  | nx, .last nu nc nx2 => Knot 𝕜 nth nx nu nc nx2
  | nx, .cons (nx2 := nx2) nu nc tl => Knot 𝕜 nth nx nu nc nx2 × Knots 𝕜 nth tl

/-- As a chain of `Model/Lqr`. -/
def Knots.chain : {nx : ℕ} → {D : Dims nx} → Knots 𝕜 nth D → Chain 𝕜 nth nx
  | _, .last _ _ _, k => .last (show Knot _ _ _ _ _ _ from k)
  | _, .cons _ _ _, k => .cons k.1 (Knots.chain k.2)

/-- The vector `datas` (gar/proximal-riccati.hpp:40). -/
def Bufs (𝕜 : Type*) (nth : ℕ) : {nx : ℕ} → Dims nx → Type _
  | nx, .last nu nc nx2 => Buf 𝕜 nth nx nu nc nx2
  | nx, .cons (nx2 := nx2) nu nc tl => Buf 𝕜 nth nx nu nc nx2 × Bufs 𝕜 nth tl

/-- The constructor for every factor (gar/proximal-riccati.hxx:22-26). -/
def Bufs.new : {nx : ℕ} → {D : Dims nx} → Bufs 𝕜 nth D → Bufs 𝕜 nth D
  | _, .last _ _ _, u => Buf.new (show Buf _ _ _ _ _ _ from u)
  | _, .cons _ _ _, u => (u.1.new, Bufs.new u.2)

/-- `datas[0].vm`. -/
def Bufs.vm : {nx : ℕ} → {D : Dims nx} → Bufs 𝕜 nth D → CostToGo 𝕜 nth nx
  | _, .last _ _ _, b => (show Buf _ _ _ _ _ _ from b).F.vm
  | _, .cons _ _ _, b => b.1.F.vm

/-- `vn.Vxx = vn.Vxx.selfadjointView<Lower>()` (gar/riccati-kernel.hxx:216) on the first factor, in place. -/
def Bufs.symHead : {nx : ℕ} → {D : Dims nx} → Bufs 𝕜 nth D → Bufs 𝕜 nth D
  | _, .last _ _ _, b => let b : Buf _ _ _ _ _ _ := b; { b with F := b.F.symVxx }
  | _, .cons _ _ _, b => ({ b.1 with F := b.1.F.symVxx }, b.2)

/-- How a backward pass ended: by the exception of line 240; `bad`: it went on with the result of a failed factorisation or
of a division by zero. -/
structure Flags where
  threw : Bool
  bad : Bool
  deriving DecidableEq

/-- `backwardImpl` (gar/riccati-kernel.hxx:104-129). -/
def backwardImplM (L : LDLMem 𝕜) (mueq : 𝕜) : {nx : ℕ} → {D : Dims nx} → Knots 𝕜 nth D → Bufs 𝕜 nth D → Bufs 𝕜 nth D × Flags
  | _, .last _ _ _, k, b => ((terminalM L k mueq b).1, ⟨false, (terminalM L k mueq b).2⟩)
  | _, .cons _ _ _, k, b =>
    let r := backwardImplM L mueq k.2 b.2
    if r.2.threw then ((b.1, r.1), r.2)
    else
      let bt := r.1.symHead
      let d := stageFactorM L k.1 bt.vm mueq b.1
      if d.info then ((stageGainsM k.1 bt.vm d, bt), r.2) else ((d, bt), ⟨true, r.2.bad⟩)

/-- The members of `ProximalRiccatiSolver` (gar/proximal-riccati.hpp:40-43) and of its `kkt0` (gar/riccati-kernel.hpp:112-121). -/
structure St (𝕜 : Type*) (nth nc0 : ℕ) {nx : ℕ} (D : Dims nx) where
  datas : Bufs 𝕜 nth D
  mat : Mat 𝕜 (nx + nc0) (nx + nc0)
  chol : Mat 𝕜 (nx + nc0) (nx + nc0)
  info : Bool
  x0ff : Vec 𝕜 nx
  lam0ff : Vec 𝕜 nc0
  x0fth : Mat 𝕜 nx nth
  lam0fth : Mat 𝕜 nc0 nth
  thGrad : Vec 𝕜 nth
  thHess : Mat 𝕜 nth nth

/-- The constructor (gar/proximal-riccati.hxx:12-31) on memory `u`. -/
def St.new {nc0 nx : ℕ} {D : Dims nx} (u : St 𝕜 nth nc0 D) : St 𝕜 nth nc0 D :=
  { u with datas := u.datas.new, mat := 0, info := false, thGrad := 0, thHess := 0 }

/-- `backward` (gar/proximal-riccati.hxx:33-62). -/
def backwardM (L : LDLMem 𝕜) {nc0 nx : ℕ} {D : Dims nx} (G0 : Mat 𝕜 nc0 nx) (g0 : Vec 𝕜 nc0) (k : Knots 𝕜 nth D) (mueq : 𝕜)
    (s : St 𝕜 nth nc0 D) : St 𝕜 nth nc0 D × Flags :=
  let r := backwardImplM L mueq k s.datas
  let s := { s with datas := r.1 }
  if r.2.threw then (s, r.2)
  else
    let v := s.datas.vm
    let s := { s with mat := blk2 v.Vxx G0ᵀ G0 0 }
    let c := L.factor s.mat
    let s := { s with chol := c.1, info := c.2 }
    let ff := solveVec s.chol (-v.vx) (-g0)
    let s := { s with x0ff := ff.1, lam0ff := ff.2 }
    let fth := solveMat s.chol (-v.Vxt) (0 : Mat 𝕜 nc0 nth)
    let s := { s with x0fth := fth.1, lam0fth := fth.2 }
    let s := { s with thGrad := v.vt + v.Vxtᵀ *ᵥ s.x0ff, thHess := v.Vtt + v.Vxtᵀ * s.x0fth }
    (s, ⟨false, r.2.bad || !s.info⟩)

/-- `us[t]` of `forwardImpl` (gar/riccati-kernel.hxx:332-336, :348-349); without controls it keeps its contents `u`. -/
def uM {nx nu nc nx2 : ℕ} (θ : Option (Vec 𝕜 nth)) (F : Factor 𝕜 nth nx nu nc nx2) (x : Vec 𝕜 nx) (u : Vec 𝕜 nu) : Vec 𝕜 nu :=
  let u := if 0 < nu then F.kff + F.K *ᵥ x else u
  match θ with
  | none => u
  | some θ => if 0 < nth then (if 0 < nu then u + F.Kth *ᵥ θ else u) else u

/-- `vs[t]` (gar/riccati-kernel.hxx:338-341, :350). -/
def vM {nx nu nc nx2 : ℕ} (θ : Option (Vec 𝕜 nth)) (F : Factor 𝕜 nth nx nu nc nx2) (x : Vec 𝕜 nx) : Vec 𝕜 nc :=
  let v := F.zff + F.Z *ᵥ x
  match θ with
  | none => v
  | some θ => if 0 < nth then v + F.Zth *ᵥ θ else v

/-- `xs[t + 1]` (gar/riccati-kernel.hxx:358-367). -/
def xM {nx nu nc nx2 : ℕ} (θ : Option (Vec 𝕜 nth)) (F : Factor 𝕜 nth nx nu nc nx2) (x : Vec 𝕜 nx) : Vec 𝕜 nx2 :=
  let x' := F.yff + F.Aff *ᵥ x
  match θ with
  | none => x'
  | some θ => if 0 < nth then x' + F.Yth *ᵥ θ else x'

/-- `lbdas[t + 1]` (gar/riccati-kernel.hxx:369-374). -/
def lM {nx : ℕ} (θ : Option (Vec 𝕜 nth)) (vn : CostToGo 𝕜 nth nx) (x : Vec 𝕜 nx) : Vec 𝕜 nx :=
  let l := vn.vx + vn.Vxx *ᵥ x
  match θ with
  | none => l
  | some θ => if 0 < nth then l + vn.Vxt *ᵥ θ else l

/-- Controls at the last knot of a trajectory of one knot. -/
def lastU {nx nu nc nx2 : ℕ} {k : Knot 𝕜 nth nx nu nc nx2} : Traj (.last k) → Vec 𝕜 nu
  | .last n => n.u

/-- Controls at the first knot. -/
def headU {nx nu nc nx2 : ℕ} {k : Knot 𝕜 nth nx nu nc nx2} {tl : Chain 𝕜 nth nx2} : Traj (.cons k tl) → Vec 𝕜 nu
  | .cons n _ _ => n.u

/-- The other knots. -/
def tailT {nx nu nc nx2 : ℕ} {k : Knot 𝕜 nth nx nu nc nx2} {tl : Chain 𝕜 nth nx2} : Traj (.cons k tl) → Traj tl
  | .cons _ _ t => t

/-- What `forwardImpl` (gar/riccati-kernel.hxx:314-377) leaves in the vectors of the caller, which held the trajectory `t`
before; `xs[0]` is `x`. -/
def forwardImplM (θ : Option (Vec 𝕜 nth)) : {nx : ℕ} → {D : Dims nx} → (k : Knots 𝕜 nth D) → Bufs 𝕜 nth D → Vec 𝕜 nx →
    Traj k.chain → Traj k.chain
  | _, .last _ _ _, _, b, x, t =>
    let F := (show Buf _ _ _ _ _ _ from b).F
    .last ⟨x, uM θ F x (lastU t), vM θ F x⟩
  | _, .cons _ _ _, k, b, x, t =>
    .cons ⟨x, uM θ b.1.F x (headU t), vM θ b.1.F x⟩ (lM θ (Bufs.vm b.2) (xM θ b.1.F x))
      (forwardImplM θ k.2 b.2 (xM θ b.1.F x) (tailT t))

/-- `forward` (gar/proximal-riccati.hxx:64-76) with `computeInitial` (gar/riccati-kernel.hxx:195-207). -/
def forwardM {nc0 nx : ℕ} {D : Dims nx} (k : Knots 𝕜 nth D) (s : St 𝕜 nth nc0 D) (θ : Option (Vec 𝕜 nth)) (t : Traj k.chain) :
    Vec 𝕜 nc0 × Traj k.chain :=
  match θ with
  | none => (s.lam0ff, forwardImplM none k s.datas s.x0ff t)
  | some θ => (s.lam0ff + s.lam0fth *ᵥ θ, forwardImplM (some θ) k s.datas (s.x0ff + s.x0fth *ᵥ θ) t)

/-- The dimensions after a shift: the first knot is gone, a knot is new before the last (its next state is the last one). -/
def Dims.insert (nu nc : ℕ) : {nx : ℕ} → Dims nx → Dims nx
  | nx, .last a b c => .cons nu nc (.last (nx := nx) a b c)
  | _, .cons a b tl => .cons a b (tl.insert nu nc)

/-- State dimension of the last knot. -/
def Dims.lastNx : {nx : ℕ} → Dims nx → ℕ
  | nx, .last _ _ _ => nx
  | _, .cons _ _ tl => tl.lastNx

/-- A new factor before the last one. -/
def Bufs.insert {nu nc : ℕ} : {nx : ℕ} → (D : Dims nx) → Buf 𝕜 nth D.lastNx nu nc D.lastNx → Bufs 𝕜 nth D →
    Bufs 𝕜 nth (D.insert nu nc)
  | _, .last _ _ _, n, b => (n, b)
  | _, .cons _ _ tl, n, b => (b.1, Bufs.insert tl n b.2)

/-- `cycleAppend` (gar/proximal-riccati.hxx:78-86) with a knot of `nu` controls and `nc` constraints.  Simplification: the state
dimension stays (`kkt0` keeps its size), as does the parameter dimension. -/
def St.shift {nc0 nx a b nu nc : ℕ} {tl : Dims nx} (s : St 𝕜 nth nc0 (.cons (nx := nx) a b tl))
    (u : Buf 𝕜 nth tl.lastNx nu nc tl.lastNx) : St 𝕜 nth nc0 (tl.insert nu nc) :=
  { datas := Bufs.insert tl u.new (show Buf 𝕜 nth nx a b nx × Bufs 𝕜 nth tl from s.datas).2
    mat := 0, chol := s.chol, info := s.info, x0ff := s.x0ff, lam0ff := s.lam0ff, x0fth := s.x0fth, lam0fth := s.lam0fth
    thGrad := 0, thHess := 0 }

/-- States of a solver after any calls: construction, backward passes on any data (also failed ones), shifts. -/
inductive Reach (L : LDLMem 𝕜) (nc0 : ℕ) : {nx : ℕ} → (D : Dims nx) → St 𝕜 nth nc0 D → Prop
  | new {nx : ℕ} {D : Dims nx} (u : St 𝕜 nth nc0 D) : Reach L nc0 D u.new
  | backward {nx : ℕ} {D : Dims nx} (G0 : Mat 𝕜 nc0 nx) (g0 : Vec 𝕜 nc0) (k : Knots 𝕜 nth D) (mueq : 𝕜) (s : St 𝕜 nth nc0 D) :
      Reach L nc0 D s → Reach L nc0 D (backwardM L G0 g0 k mueq s).1
  | shift {nx a b nu nc : ℕ} {tl : Dims nx} (s : St 𝕜 nth nc0 (.cons (nx := nx) a b tl))
      (u : Buf 𝕜 nth tl.lastNx nu nc tl.lastNx) : Reach L nc0 _ s → Reach L nc0 (tl.insert nu nc) (s.shift u)

/-- The factors as `Model/Riccati` has them. -/
def Bufs.facs : {nx : ℕ} → {D : Dims nx} → (k : Knots 𝕜 nth D) → Bufs 𝕜 nth D → Facs k.chain
  | _, .last _ _ _, _, b => .last (show Buf _ _ _ _ _ _ from b).F
  | _, .cons _ _ _, k, b => .cons b.1.F (Bufs.facs k.2 b.2)

/-- The solver as `Model/Riccati` has it. -/
def St.solver {nc0 nx : ℕ} {D : Dims nx} (G0 : Mat 𝕜 nc0 nx) (g0 : Vec 𝕜 nc0) (k : Knots 𝕜 nth D) (s : St 𝕜 nth nc0 D) :
    Solver (⟨G0, g0, k.chain⟩ : Problem 𝕜 nth nc0 nx) :=
  ⟨s.datas.facs k, s.x0ff, s.lam0ff, s.x0fth, s.lam0fth, s.thGrad, s.thHess⟩

end Aligator.GarMem
