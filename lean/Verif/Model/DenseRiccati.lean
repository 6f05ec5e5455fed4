import Verif.Model.Riccati

/-!
# Model of the stagewise-dense LQ solver

Models `include/aligator/gar/dense-kernel.hpp` and `dense-riccati.hpp/.hxx`.
-/

namespace Aligator.Gar.Dense

open Matrix

variable {𝕜 : Type*} [Field 𝕜] [DecidableEq 𝕜] {nth : ℕ}

/-- Two stacked blocks of a column (core/blk-matrix.hpp). -/
def stackV {a b : ℕ} (y : Vec 𝕜 a) (z : Vec 𝕜 b) : Vec 𝕜 (a + b) := Sum.elim y z ∘ finSumFinEquiv.symm

/-- Upper block of a stacked column. -/
def topV {a b : ℕ} (w : Vec 𝕜 (a + b)) : Vec 𝕜 a := fun i => w (finSumFinEquiv (Sum.inl i))

/-- Lower block of a stacked column. -/
def botV {a b : ℕ} (w : Vec 𝕜 (a + b)) : Vec 𝕜 b := fun i => w (finSumFinEquiv (Sum.inr i))

/-- Two stacked row blocks of a matrix. -/
def stackM {a b m : ℕ} (Y : Mat 𝕜 a m) (Z : Mat 𝕜 b m) : Mat 𝕜 (a + b) m :=
  (fromRows Y Z).submatrix finSumFinEquiv.symm id

/-- Upper row block. -/
def topM {a b m : ℕ} (W : Mat 𝕜 (a + b) m) : Mat 𝕜 a m := fun i j => W (finSumFinEquiv (Sum.inl i)) j

/-- Lower row block. -/
def botM {a b m : ℕ} (W : Mat 𝕜 (a + b) m) : Mat 𝕜 b m := fun i j => W (finSumFinEquiv (Sum.inr i)) j

/-- Rectangular 2x2 block matrix. -/
def blkRect {a b c d : ℕ} (M11 : Mat 𝕜 a c) (M12 : Mat 𝕜 a d) (M21 : Mat 𝕜 b c) (M22 : Mat 𝕜 b d) :
    Mat 𝕜 (a + b) (c + d) :=
  (fromBlocks M11 M12 M21 M22).submatrix finSumFinEquiv.symm finSumFinEquiv.symm

/-- `kktMat` of a stage: block dimensions `{nu, nc, nx2, nx2}` (dense-kernel.hpp:30, 98-110), written as
two nested levels of 2x2 blocks (the same scalar matrix). -/
def kktMat {nu nc nx2 : ℕ} (R : Mat 𝕜 nu nu) (D : Mat 𝕜 nc nu) (B : Mat 𝕜 nx2 nu) (mueq : 𝕜)
    (P : Mat 𝕜 nx2 nx2) : Mat 𝕜 ((nu + nc) + (nx2 + nx2)) ((nu + nc) + (nx2 + nx2)) :=
  blk2 (blk2 R Dᵀ D (-mueq • (1 : Mat 𝕜 nc nc)))
    (blkRect B 0 0 (0 : Mat 𝕜 nx2 nc))ᵀ (blkRect B 0 0 0)
    (blk2 0 (-(1 : Mat 𝕜 nx2 nx2)) (-1) P)

/-- `kktMat` of the terminal knot (dense-kernel.hpp:57-63): the last two block rows stay zero. -/
def kktMatTerm {nu nc : ℕ} (nx2 : ℕ) (R : Mat 𝕜 nu nu) (D : Mat 𝕜 nc nu) (mueq : 𝕜) :
    Mat 𝕜 ((nu + nc) + (nx2 + nx2)) ((nu + nc) + (nx2 + nx2)) :=
  blk2 (blk2 R Dᵀ D (-mueq • (1 : Mat 𝕜 nc nc))) 0 0 0

/-- `DenseKernel::value` (dense-kernel.hpp:47-53). -/
structure Value (𝕜 : Type*) (nth nx : ℕ) where
  Pxx : Mat 𝕜 nx nx
  Pxt : Mat 𝕜 nx nth
  Ptt : Mat 𝕜 nth nth
  px : Vec 𝕜 nx
  pt : Vec 𝕜 nth

/-- The blocks of `ff`, `fb`, `ft` of `DenseKernel::Data` (dense-kernel.hpp:18-44), and the value function
of the stage (`Pxx[i]` ... of the solver). The blocks 2 and 3 are never read at the last knot. -/
structure DFactor (𝕜 : Type*) (nth nx nu nc nx2 : ℕ) where
  kff : Vec 𝕜 nu
  zff : Vec 𝕜 nc
  lff : Vec 𝕜 nx2
  yff : Vec 𝕜 nx2
  K : Mat 𝕜 nu nx
  Z : Mat 𝕜 nc nx
  L : Mat 𝕜 nx2 nx
  Y : Mat 𝕜 nx2 nx
  Kth : Mat 𝕜 nu nth
  Zth : Mat 𝕜 nc nth
  Lth : Mat 𝕜 nx2 nth
  Yth : Mat 𝕜 nx2 nth
  v : Value 𝕜 nth nx

/-- `DenseKernel::terminalSolve` (dense-kernel.hpp:55-94). The status of the factorisation is not examined;
a failure is the outcome `unchecked`. When `nu = nc = 0` the solved blocks that are read are empty and the
outcome does not depend on the factorisation. Blocks 2, 3 of the solution are not read at this knot. -/
def terminalSolve (ldl : LDL 𝕜) {nx nu nc nx2 : ℕ} (m : Knot 𝕜 nth nx nu nc nx2) (mueq : 𝕜) :
    Except Err (DFactor 𝕜 nth nx nu nc nx2) :=
  let fin (kff : Vec 𝕜 nu) (zff : Vec 𝕜 nc) (K : Mat 𝕜 nu nx) (Z : Mat 𝕜 nc nx) (Kth : Mat 𝕜 nu nth)
      (Zth : Mat 𝕜 nc nth) : DFactor 𝕜 nth nx nu nc nx2 :=
    { kff, zff, lff := 0, yff := 0, K, Z, L := 0, Y := 0, Kth, Zth, Lth := 0, Yth := 0
      v := { Pxx := m.Q + m.S * K + m.Cᵀ * Z
             Pxt := m.Gx + Kᵀ * m.Gu + Zᵀ * m.Gv
             Ptt := m.Gth + m.Guᵀ * Kth + m.Gvᵀ * Zth
             px := m.q + m.S *ᵥ kff + m.Cᵀ *ᵥ zff
             pt := m.gamma + m.Guᵀ *ᵥ kff + m.Gvᵀ *ᵥ zff } }
  if nu = 0 ∧ nc = 0 then .ok (fin 0 0 0 0 0 0)
  else match ldl.inv? _ (kktMatTerm nx2 m.R m.D mueq) with
  | none => .error .unchecked
  | some X =>
    let ff := X *ᵥ stackV (stackV (-m.r) (-m.d)) 0
    let fb := X * stackM (stackM (-m.Sᵀ) (-m.C)) 0
    let ft := X * stackM (stackM (-m.Gu) (-m.Gv)) 0
    .ok (fin (topV (topV ff)) (botV (topV ff)) (topM (topM fb)) (botM (topM fb)) (topM (topM ft))
      (botM (topM ft)))

/-- `DenseKernel::stageKernelSolve` (dense-kernel.hpp:96-170) with `vn != nullptr` (the only way the solver
calls it). The status of the factorisation is not examined. -/
def stageKernelSolve (ldl : LDL 𝕜) {nx nu nc nx2 : ℕ} (m : Knot 𝕜 nth nx nu nc nx2)
    (vn : Value 𝕜 nth nx2) (mueq : 𝕜) : Except Err (DFactor 𝕜 nth nx nu nc nx2) :=
  match ldl.inv? _ (kktMat m.R m.D m.B mueq vn.Pxx) with
  | none => .error .unchecked
  | some X =>
    let ff := X *ᵥ stackV (stackV (-m.r) (-m.d)) (stackV (-m.f) (-vn.px))
    let fb := X * stackM (stackM (-m.Sᵀ) (-m.C)) (stackM (-m.A) 0)
    let ft := X * stackM (stackM (-m.Gu) (-m.Gv)) (stackM 0 (-vn.Pxt))
    let kff := topV (topV ff)
    let zff := botV (topV ff)
    let lff := topV (botV ff)
    let yff := botV (botV ff)
    let K := topM (topM fb)
    let Z := botM (topM fb)
    let L := topM (botM fb)
    let Y := botM (botM fb)
    let Kth := topM (topM ft)
    let Zth := botM (topM ft)
    let Lth := topM (botM ft)
    let Yth := botM (botM ft)
    .ok { kff, zff, lff, yff, K, Z, L, Y, Kth, Zth, Lth, Yth
          v := { Pxx := m.Q + m.S * K + m.Cᵀ * Z + m.Aᵀ * L
                 Pxt := m.Gx + Kᵀ * m.Gu + Zᵀ * m.Gv + Yᵀ * vn.Pxt
                 Ptt := m.Gth + Kthᵀ * m.Gu + Zthᵀ * m.Gv + Ythᵀ * vn.Pxt
                 px := m.q + m.S *ᵥ kff + m.Cᵀ *ᵥ zff + m.Aᵀ *ᵥ lff
                 pt := m.gamma + m.Guᵀ *ᵥ kff + m.Gvᵀ *ᵥ zff + vn.Pxtᵀ *ᵥ yff } }

/-- `stage_factors`, `Pxx`, `Pxt`, `Ptt`, `px`, `pt` of `RiccatiSolverDense` (dense-riccati.hpp:28-33). -/
inductive DFacs {𝕜 : Type*} {nth : ℕ} : {nx : ℕ} → Chain 𝕜 nth nx → Type _
  | last {nx nu nc nx2 : ℕ} {k : Knot 𝕜 nth nx nu nc nx2} (F : DFactor 𝕜 nth nx nu nc nx2) :
      DFacs (.last k)
  | cons {nx nu nc nx2 : ℕ} {k : Knot 𝕜 nth nx nu nc nx2} {tl : Chain 𝕜 nth nx2}
      (F : DFactor 𝕜 nth nx nu nc nx2) (Ft : DFacs tl) : DFacs (.cons k tl)

/-- Value function of the first knot. -/
def DFacs.v : {nx : ℕ} → {ch : Chain 𝕜 nth nx} → DFacs ch → Value 𝕜 nth nx
  | _, _, .last F => F.v
  | _, _, .cons F _ => F.v

/-- Terminal knot and loop over the stages in `backward` (dense-riccati.hxx:51-65). -/
def backwardStages (ldl : LDL 𝕜) (mueq : 𝕜) : {nx : ℕ} → (ch : Chain 𝕜 nth nx) → Except Err (DFacs ch)
  | _, .last k =>
    match terminalSolve ldl k mueq with
    | .error e => .error e
    | .ok F => .ok (.last F)
  | _, .cons k tl =>
    match backwardStages ldl mueq tl with
    | .error e => .error e
    | .ok Ft =>
      match stageKernelSolve ldl k Ft.v mueq with
      | .error e => .error e
      | .ok F => .ok (.cons F Ft)

/-- State of `RiccatiSolverDense` after `backward` (dense-riccati.hpp:28-41). -/
structure DSolver {nc0 nx : ℕ} (P : Problem 𝕜 nth nc0 nx) where
  facs : DFacs P.stages
  x0ff : Vec 𝕜 nx
  lam0ff : Vec 𝕜 nc0
  x0fth : Mat 𝕜 nx nth
  lam0fth : Mat 𝕜 nc0 nth
  thGrad : Vec 𝕜 nth
  thHess : Mat 𝕜 nth nth

/-- How `backward` can go wrong. -/
inductive DErr
  /-- horizon 0: `N - 1` wraps around and the loop reads out of bounds (dense-riccati.hxx:55-60) -/
  | outOfBounds
  /-- a factorisation failed; the code carries on with meaningless numbers -/
  | failed (e : Err)
  deriving DecidableEq

/-- `RiccatiSolverDense::backward` (dense-riccati.hxx:46-90). -/
def backward (ldl : LDL 𝕜) {nc0 nx : ℕ} (P : Problem 𝕜 nth nc0 nx) (mueq : 𝕜) :
    Except DErr (DSolver P) :=
  if P.stages.horizon = 0 then .error .outOfBounds
  else match backwardStages ldl mueq P.stages with
  | .error e => .error (.failed e)
  | .ok F =>
    match ldl.inv? (nx + nc0) (blk2 F.v.Pxx P.G0ᵀ P.G0 0) with
    | none => .error (.failed .unchecked)
    | some X =>
      let ff := solveVec X (-F.v.px) (-P.g0)
      let fth := solveMat X (-F.v.Pxt) (0 : Mat 𝕜 nc0 nth)
      .ok { facs := F, x0ff := ff.1, lam0ff := ff.2, x0fth := fth.1, lam0fth := fth.2
            thGrad := F.v.pt + F.v.Pxtᵀ *ᵥ ff.1
            thHess := F.v.Ptt + F.v.Pxtᵀ * fth.1 }

/-- The loop of `forward` over `DenseKernel::forwardStep` (dense-riccati.hxx:110-114,
dense-kernel.hpp:172-210); no parameter is the case `θ = 0`. -/
def forwardStages (θ : Vec 𝕜 nth) : {nx : ℕ} → {ch : Chain 𝕜 nth nx} → DFacs ch → Vec 𝕜 nx → Traj ch
  | _, _, .last F, x =>
    .last { x := x, u := F.kff + F.K *ᵥ x + F.Kth *ᵥ θ, v := F.zff + F.Z *ᵥ x + F.Zth *ᵥ θ }
  | _, _, .cons F Ft, x =>
    .cons { x := x, u := F.kff + F.K *ᵥ x + F.Kth *ᵥ θ, v := F.zff + F.Z *ᵥ x + F.Zth *ᵥ θ }
      (F.lff + F.L *ᵥ x + F.Lth *ᵥ θ) (forwardStages θ Ft (F.yff + F.Y *ᵥ x + F.Yth *ᵥ θ))

/-- `RiccatiSolverDense::forward` (dense-riccati.hxx:92-116): `lbdas[0]` and the trajectory. -/
def forward {nc0 nx : ℕ} {P : Problem 𝕜 nth nc0 nx} (s : DSolver P) (θ : Vec 𝕜 nth) :
    Vec 𝕜 nc0 × Traj P.stages :=
  (s.lam0ff + s.lam0fth *ᵥ θ, forwardStages θ s.facs (s.x0ff + s.x0fth *ᵥ θ))

end Aligator.Gar.Dense
