import Verif.Model.DenseRiccati
import Verif.Model.RiccatiMem

/-!
# Model: the memory of the stagewise-dense solver

`include/aligator/gar/dense-kernel.hpp` and `dense-riccati.hpp/.hxx` again, with the buffers: every assignment writes what it
writes in the code on top of whatever earlier calls left.  The solver never looks at the status of a factorisation; what a
failed one leaves is arbitrary (`GarMem.LDLMem.junk`), and the code goes on with it.
-/

namespace Aligator.DenseMem

open Matrix Gar Gar.Dense GarMem

variable {𝕜 : Type*} [Field 𝕜] [DecidableEq 𝕜] {nth : ℕ}

/-- `DenseKernel::Data` (gar/dense-kernel.hpp:18-44) and the members `Pxx[i]`, ..., `pt[i]` of the solver
(gar/dense-riccati.hpp:28-33). -/
structure DBuf (𝕜 : Type*) (nth nx nu nc nx2 : ℕ) where
  kktMat : Mat 𝕜 ((nu + nc) + (nx2 + nx2)) ((nu + nc) + (nx2 + nx2))
  fb : Mat 𝕜 ((nu + nc) + (nx2 + nx2)) nx
  ft : Mat 𝕜 ((nu + nc) + (nx2 + nx2)) nth
  ff : Vec 𝕜 ((nu + nc) + (nx2 + nx2))
  ldl : Mat 𝕜 ((nu + nc) + (nx2 + nx2)) ((nu + nc) + (nx2 + nx2))
  v : Value 𝕜 nth nx

/-- The constructor of `Data` and the `setZero` of the value (gar/dense-kernel.hpp:29-36, gar/dense-riccati.hxx:24-34) on memory
`u`; the factorisation is not initialised. -/
def DBuf.new {nx nu nc nx2 : ℕ} (u : DBuf 𝕜 nth nx nu nc nx2) : DBuf 𝕜 nth nx nu nc nx2 :=
  { kktMat := 0, fb := 0, ft := 0, ff := 0, ldl := u.ldl, v := ⟨0, 0, 0, 0, 0⟩ }

/-- Assignment to the blocks 0 and 1 of a column; the blocks 2 and 3 stay. -/
def writeTopV {a b c : ℕ} (w : Vec 𝕜 ((a + b) + c)) (y : Vec 𝕜 a) (z : Vec 𝕜 b) : Vec 𝕜 ((a + b) + c) :=
  stackV (stackV y z) (botV w)

/-- The same for the block rows of a matrix. -/
def writeTopM {a b c m : ℕ} (W : Mat 𝕜 ((a + b) + c) m) (Y : Mat 𝕜 a m) (Z : Mat 𝕜 b m) : Mat 𝕜 ((a + b) + c) m :=
  stackM (stackM Y Z) (botM W)

/-- Assignment to the blocks 2 and 3 of a column; the blocks 0 and 1 stay. -/
def writeBotV {a b c : ℕ} (w : Vec 𝕜 (a + (b + c))) (y : Vec 𝕜 b) (z : Vec 𝕜 c) : Vec 𝕜 (a + (b + c)) :=
  stackV (topV w) (stackV y z)

/-- The same for the block rows of a matrix. -/
def writeBotM {a b c m : ℕ} (W : Mat 𝕜 (a + (b + c)) m) (Y : Mat 𝕜 b m) (Z : Mat 𝕜 c m) : Mat 𝕜 (a + (b + c)) m :=
  stackM (topM W) (stackM Y Z)

/-- `terminalSolve` (gar/dense-kernel.hpp:55-94); the flag: a factorisation failed whose result is read (with `nu = nc = 0` the
blocks read are empty).  `kktMat` is set to zero first and its blocks written then (lines 57-63). -/
def terminalD (L : LDLMem 𝕜) {nx nu nc nx2 : ℕ} (m : Knot 𝕜 nth nx nu nc nx2) (mueq : 𝕜) (d : DBuf 𝕜 nth nx nu nc nx2) :
    DBuf 𝕜 nth nx nu nc nx2 × Bool :=
  let d := { d with kktMat := kktMatTerm nx2 m.R m.D mueq }
  let d := { d with ff := writeTopV d.ff (-m.r) (-m.d), fb := writeTopM d.fb (-m.Sᵀ) (-m.C) }
  let c := L.factor d.kktMat
  let d := { d with ldl := c.1 }
  let d := { d with ff := d.ldl *ᵥ d.ff, fb := d.ldl * d.fb }
  let d := { d with ft := writeTopM d.ft (-m.Gu) (-m.Gv) }
  let d := { d with ft := d.ldl * d.ft }
  let kff := topV (topV d.ff)
  let zff := botV (topV d.ff)
  let K := topM (topM d.fb)
  let Z := botM (topM d.fb)
  let Kth := topM (topM d.ft)
  let Zth := botM (topM d.ft)
  ({ d with v := { Pxx := m.Q + m.S * K + m.Cᵀ * Z
                   Pxt := m.Gx + Kᵀ * m.Gu + Zᵀ * m.Gv
                   Ptt := m.Gth + m.Guᵀ * Kth + m.Gvᵀ * Zth
                   px := m.q + m.S *ᵥ kff + m.Cᵀ *ᵥ zff
                   pt := m.gamma + m.Guᵀ *ᵥ kff + m.Gvᵀ *ᵥ zff } },
    !c.2 && !decide (nu = 0 ∧ nc = 0))

/-- `stageKernelSolve` (gar/dense-kernel.hpp:96-170) with `vn != nullptr`; the flag: the factorisation failed. -/
def stageD (L : LDLMem 𝕜) {nx nu nc nx2 : ℕ} (m : Knot 𝕜 nth nx nu nc nx2) (vn : Value 𝕜 nth nx2) (mueq : 𝕜)
    (d : DBuf 𝕜 nth nx nu nc nx2) : DBuf 𝕜 nth nx nu nc nx2 × Bool :=
  let d := { d with kktMat := kktMat m.R m.D m.B mueq vn.Pxx }
  let c := L.factor d.kktMat
  let d := { d with ldl := c.1 }
  let d := { d with ff := writeTopV d.ff (-m.r) (-m.d) }
  let d := { d with ff := writeBotV d.ff (-m.f) (-vn.px) }
  let d := { d with fb := writeTopM d.fb (-m.Sᵀ) (-m.C) }
  let d := { d with fb := writeBotM d.fb (-m.A) 0 }
  let d := { d with ft := writeTopM d.ft (-m.Gu) (-m.Gv) }
  let d := { d with ft := writeBotM d.ft 0 (-vn.Pxt) }
  let d := { d with ff := d.ldl *ᵥ d.ff, fb := d.ldl * d.fb, ft := d.ldl * d.ft }
  let kff := topV (topV d.ff)
  let zff := botV (topV d.ff)
  let lff := topV (botV d.ff)
  let yff := botV (botV d.ff)
  let K := topM (topM d.fb)
  let Z := botM (topM d.fb)
  let Lf := topM (botM d.fb)
  let Y := botM (botM d.fb)
  let Kth := topM (topM d.ft)
  let Zth := botM (topM d.ft)
  let Yth := botM (botM d.ft)
  ({ d with v := { Pxx := m.Q + m.S * K + m.Cᵀ * Z + m.Aᵀ * Lf
                   Pxt := m.Gx + Kᵀ * m.Gu + Zᵀ * m.Gv + Yᵀ * vn.Pxt
                   Ptt := m.Gth + Kthᵀ * m.Gu + Zthᵀ * m.Gv + Ythᵀ * vn.Pxt
                   px := m.q + m.S *ᵥ kff + m.Cᵀ *ᵥ zff + m.Aᵀ *ᵥ lff
                   pt := m.gamma + m.Guᵀ *ᵥ kff + m.Gvᵀ *ᵥ zff + vn.Pxtᵀ *ᵥ yff } },
    !c.2)

/-- `stage_factors` and the vectors `Pxx`, ..., `pt` (gar/dense-riccati.hpp:28-33). -/
def DBufs (𝕜 : Type*) (nth : ℕ) : {nx : ℕ} → Dims nx → Type _
  | nx, .last nu nc nx2 => DBuf 𝕜 nth nx nu nc nx2
  | nx, .cons (nx2 := nx2) nu nc tl => DBuf 𝕜 nth nx nu nc nx2 × DBufs 𝕜 nth tl

/-- The constructor for every knot (gar/dense-riccati.hxx:24-34). -/
def DBufs.new : {nx : ℕ} → {D : Dims nx} → DBufs 𝕜 nth D → DBufs 𝕜 nth D
  | _, .last _ _ _, u => DBuf.new (show DBuf _ _ _ _ _ _ from u)
  | _, .cons _ _ _, u => (u.1.new, DBufs.new u.2)

/-- `Pxx[0]`, ..., `pt[0]`. -/
def DBufs.v : {nx : ℕ} → {D : Dims nx} → DBufs 𝕜 nth D → Value 𝕜 nth nx
  | _, .last _ _ _, b => (show DBuf _ _ _ _ _ _ from b).v
  | _, .cons _ _ _, b => b.1.v

/-- The terminal knot and the loop of `backward` (gar/dense-riccati.hxx:51-65); the flag: some factorisation failed. -/
def stagesD (L : LDLMem 𝕜) (mueq : 𝕜) : {nx : ℕ} → {D : Dims nx} → Knots 𝕜 nth D → DBufs 𝕜 nth D → DBufs 𝕜 nth D × Bool
  | _, .last _ _ _, k, b => terminalD L k mueq b
  | _, .cons _ _ _, k, b =>
    let r := stagesD L mueq k.2 b.2
    let d := stageD L k.1 r.1.v mueq b.1
    ((d.1, r.1), r.2 || d.2)

/-- The members of `RiccatiSolverDense` (gar/dense-riccati.hpp:28-41). -/
structure DSt (𝕜 : Type*) (nth nc0 : ℕ) {nx : ℕ} (D : Dims nx) where
  datas : DBufs 𝕜 nth D
  mat : Mat 𝕜 (nx + nc0) (nx + nc0)
  ldl : Mat 𝕜 (nx + nc0) (nx + nc0)
  x0ff : Vec 𝕜 nx
  lam0ff : Vec 𝕜 nc0
  x0fth : Mat 𝕜 nx nth
  lam0fth : Mat 𝕜 nc0 nth
  thGrad : Vec 𝕜 nth
  thHess : Mat 𝕜 nth nth

/-- The constructor (gar/dense-riccati.hxx:12-44) on memory `u`; `kkt0` is only sized. -/
def DSt.new {nc0 nx : ℕ} {D : Dims nx} (u : DSt 𝕜 nth nc0 D) : DSt 𝕜 nth nc0 D :=
  { u with datas := u.datas.new, thGrad := 0, thHess := 0 }

/-- `backward` (gar/dense-riccati.hxx:46-90) for a positive horizon (for horizon 0 the loop reads out of bounds,
`Dense.DErr.outOfBounds`); it always returns true; the flag: some factorisation failed. -/
def backwardD (L : LDLMem 𝕜) {nc0 nx : ℕ} {D : Dims nx} (G0 : Mat 𝕜 nc0 nx) (g0 : Vec 𝕜 nc0) (k : Knots 𝕜 nth D) (mueq : 𝕜)
    (s : DSt 𝕜 nth nc0 D) : DSt 𝕜 nth nc0 D × Bool :=
  let r := stagesD L mueq k s.datas
  let s := { s with datas := r.1 }
  let v := s.datas.v
  let s := { s with mat := blk2 v.Pxx G0ᵀ G0 0 }
  let c := L.factor s.mat
  let s := { s with ldl := c.1 }
  let ff := solveVec s.ldl (-v.px) (-g0)
  let fth := solveMat s.ldl (-v.Pxt) (0 : Mat 𝕜 nc0 nth)
  let s := { s with x0ff := ff.1, lam0ff := ff.2, x0fth := fth.1, lam0fth := fth.2 }
  let s := { s with thGrad := v.pt + v.Pxtᵀ *ᵥ s.x0ff, thHess := v.Ptt + v.Pxtᵀ * s.x0fth }
  (s, r.2 || !c.2)

/-- A block of a vector of the caller that is assigned and then, with a parameter, increased (gar/dense-kernel.hpp:194-208). -/
def addTh {n : ℕ} (θ : Option (Vec 𝕜 nth)) (w : Vec 𝕜 n) (T : Mat 𝕜 n nth) : Vec 𝕜 n :=
  match θ with
  | none => w
  | some θ => w + T *ᵥ θ

/-- `us[i]` (gar/dense-kernel.hpp:192-198); without controls it keeps its contents `u`. -/
def uD {nx nu nc nx2 : ℕ} (θ : Option (Vec 𝕜 nth)) (d : DBuf 𝕜 nth nx nu nc nx2) (x : Vec 𝕜 nx) (u : Vec 𝕜 nu) : Vec 𝕜 nu :=
  let u := if 0 < nu then topV (topV d.ff) + topM (topM d.fb) *ᵥ x else u
  if 0 < nu then addTh θ u (topM (topM d.ft)) else u

/-- `vs[i]` (gar/dense-kernel.hpp:194-199). -/
def vD {nx nu nc nx2 : ℕ} (θ : Option (Vec 𝕜 nth)) (d : DBuf 𝕜 nth nx nu nc nx2) (x : Vec 𝕜 nx) : Vec 𝕜 nc :=
  addTh θ (botV (topV d.ff) + botM (topM d.fb) *ᵥ x) (botM (topM d.ft))

/-- `lbdas[i + 1]` (gar/dense-kernel.hpp:203-206). -/
def lD {nx nu nc nx2 : ℕ} (θ : Option (Vec 𝕜 nth)) (d : DBuf 𝕜 nth nx nu nc nx2) (x : Vec 𝕜 nx) : Vec 𝕜 nx2 :=
  addTh θ (topV (botV d.ff) + topM (botM d.fb) *ᵥ x) (topM (botM d.ft))

/-- `xs[i + 1]` (gar/dense-kernel.hpp:204-207). -/
def xD {nx nu nc nx2 : ℕ} (θ : Option (Vec 𝕜 nth)) (d : DBuf 𝕜 nth nx nu nc nx2) (x : Vec 𝕜 nx) : Vec 𝕜 nx2 :=
  addTh θ (botV (botV d.ff) + botM (botM d.fb) *ᵥ x) (botM (botM d.ft))

/-- What the loop of `forward` (gar/dense-riccati.hxx:110-114) leaves in the vectors of the caller, which held `t`. -/
def forwardStagesD (θ : Option (Vec 𝕜 nth)) : {nx : ℕ} → {D : Dims nx} → (k : Knots 𝕜 nth D) → DBufs 𝕜 nth D → Vec 𝕜 nx →
    Traj k.chain → Traj k.chain
  | _, .last _ _ _, _, b, x, t =>
    let d : DBuf _ _ _ _ _ _ := b
    .last ⟨x, uD θ d x (lastU t), vD θ d x⟩
  | _, .cons _ _ _, k, b, x, t =>
    .cons ⟨x, uD θ b.1 x (headU t), vD θ b.1 x⟩ (lD θ b.1 x) (forwardStagesD θ k.2 b.2 (xD θ b.1 x) (tailT t))

/-- `forward` (gar/dense-riccati.hxx:92-116). -/
def forwardD {nc0 nx : ℕ} {D : Dims nx} (k : Knots 𝕜 nth D) (s : DSt 𝕜 nth nc0 D) (θ : Option (Vec 𝕜 nth)) (t : Traj k.chain) :
    Vec 𝕜 nc0 × Traj k.chain :=
  (addTh θ s.lam0ff s.lam0fth, forwardStagesD θ k s.datas (addTh θ s.x0ff s.x0fth) t)

/-- The blocks read by users and by `forward`, as `Model/DenseRiccati` has them. -/
def DBuf.fac {nx nu nc nx2 : ℕ} (d : DBuf 𝕜 nth nx nu nc nx2) : DFactor 𝕜 nth nx nu nc nx2 :=
  { kff := topV (topV d.ff), zff := botV (topV d.ff), lff := topV (botV d.ff), yff := botV (botV d.ff)
    K := topM (topM d.fb), Z := botM (topM d.fb), L := topM (botM d.fb), Y := botM (botM d.fb)
    Kth := topM (topM d.ft), Zth := botM (topM d.ft), Lth := topM (botM d.ft), Yth := botM (botM d.ft)
    v := d.v }

/-- The same at the last knot, where the blocks 2 and 3 are not read (`Model/DenseRiccati` has zero there). -/
def DBuf.facLast {nx nu nc nx2 : ℕ} (d : DBuf 𝕜 nth nx nu nc nx2) : DFactor 𝕜 nth nx nu nc nx2 :=
  { d.fac with lff := 0, yff := 0, L := 0, Y := 0, Lth := 0, Yth := 0 }

/-- The factors as `Model/DenseRiccati` has them. -/
def DBufs.facs : {nx : ℕ} → {D : Dims nx} → (k : Knots 𝕜 nth D) → DBufs 𝕜 nth D → DFacs k.chain
  | _, .last _ _ _, _, b => .last (show DBuf _ _ _ _ _ _ from b).facLast
  | _, .cons _ _ _, k, b => .cons b.1.fac (DBufs.facs k.2 b.2)

/-- The solver as `Model/DenseRiccati` has it. -/
def DSt.solver {nc0 nx : ℕ} {D : Dims nx} (G0 : Mat 𝕜 nc0 nx) (g0 : Vec 𝕜 nc0) (k : Knots 𝕜 nth D) (s : DSt 𝕜 nth nc0 D) :
    DSolver (⟨G0, g0, k.chain⟩ : Problem 𝕜 nth nc0 nx) :=
  ⟨s.datas.facs k, s.x0ff, s.lam0ff, s.x0fth, s.lam0fth, s.thGrad, s.thHess⟩

/-- A new factor before the last one. -/
def DBufs.insert {nu nc : ℕ} : {nx : ℕ} → (D : Dims nx) → DBuf 𝕜 nth D.lastNx nu nc D.lastNx → DBufs 𝕜 nth D →
    DBufs 𝕜 nth (D.insert nu nc)
  | _, .last _ _ _, n, b => (n, b)
  | _, .cons _ _ tl, n, b => (b.1, DBufs.insert tl n b.2)

/-- `cycleAppend` (gar/dense-riccati.hxx:118-146): the factor that leaves at the front comes back, set to zero, before the last
one.  `h`: it is not resized, so the knot has the sizes of the one that leaves (`C31` has what happens otherwise); its
factorisation is a new one with uninitialised memory `u`.  The initial stage and the parameter derivatives are not touched. -/
def DSt.shift {nc0 nx nu nc : ℕ} {tl : Dims nx} (s : DSt 𝕜 nth nc0 (.cons (nx := nx) nu nc tl)) (h : tl.lastNx = nx)
    (u : Mat 𝕜 ((nu + nc) + (nx + nx)) ((nu + nc) + (nx + nx))) : DSt 𝕜 nth nc0 (tl.insert nu nc) :=
  let b : DBuf 𝕜 nth nx nu nc nx × DBufs 𝕜 nth tl := s.datas
  { datas := DBufs.insert tl (h.symm ▸ { b.1 with kktMat := 0, fb := 0, ft := 0, ff := 0, ldl := u, v := ⟨0, 0, 0, 0, 0⟩ }) b.2
    mat := s.mat, ldl := s.ldl, x0ff := s.x0ff, lam0ff := s.lam0ff, x0fth := s.x0fth, lam0fth := s.lam0fth
    thGrad := s.thGrad, thHess := s.thHess }

end Aligator.DenseMem
