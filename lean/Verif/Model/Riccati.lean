import Verif.Model.Lqr

/-!
# Model of the serial proximal Riccati solver

Models `include/aligator/gar/riccati-kernel.hpp/.hxx` and `proximal-riccati.hpp/.hxx`.
-/

namespace Aligator.Gar

open Matrix

variable {𝕜 : Type*} [Field 𝕜] [DecidableEq 𝕜] {nth : ℕ}

/-- Ways in which the code fails to produce a solution.
* `ldlFailed`: `ALIGATOR_RUNTIME_ERROR("Failed stage LDL factorization")` (riccati-kernel.hxx:239-241);
* `unchecked`: a factorisation failed and its status is not examined, the buffers hold meaningless
  numbers (terminal knot riccati-kernel.hxx:155, initial stage proximal-riccati.hxx:48; the latter
  trips an `assert` in debug builds, riccati-kernel.hxx:200);
* `divByZero`: division by `mueq = 0` at a terminal knot without controls (riccati-kernel.hxx:147-148). -/
inductive Err
  | ldlFailed
  | unchecked
  | divByZero
  deriving DecidableEq

/-- Eigen's `M.selfadjointView<Lower>()`: the symmetric matrix with the lower triangle of `M`. -/
def symLower {n : ℕ} (M : Mat 𝕜 n n) : Mat 𝕜 n n :=
  fun i j => if j ≤ i then M i j else M j i

/-- The symmetric indefinite solver `BunchKaufman` (core/bunchkaufman.hpp) as the Riccati code sees it:
`inv? n M` is `none` when `info() != Success` and otherwise the linear operator (matrix) which
`solveInPlace` applies to a right-hand side.  The Riccati model is parametric in it; see
`Verif/Model/BunchKaufman.lean` for the model of the solver itself. -/
structure LDL (𝕜 : Type*) where
  inv? : (n : ℕ) → Mat 𝕜 n n → Option (Mat 𝕜 n n)

/-- A 2x2 block matrix `BlkMatrix<MatrixXs,2,2>({a,b},{a,b})` as one matrix (core/blk-matrix.hpp). -/
def blk2 {a b : ℕ} (M11 : Mat 𝕜 a a) (M12 : Mat 𝕜 a b) (M21 : Mat 𝕜 b a) (M22 : Mat 𝕜 b b) :
    Mat 𝕜 (a + b) (a + b) :=
  (fromBlocks M11 M12 M21 M22).submatrix finSumFinEquiv.symm finSumFinEquiv.symm

/-- `solveInPlace` on a column made of two stacked blocks. -/
def solveVec {a b : ℕ} (X : Mat 𝕜 (a + b) (a + b)) (y : Vec 𝕜 a) (z : Vec 𝕜 b) : Vec 𝕜 a × Vec 𝕜 b :=
  let w := X *ᵥ (Sum.elim y z ∘ finSumFinEquiv.symm)
  (fun i => w (finSumFinEquiv (Sum.inl i)), fun i => w (finSumFinEquiv (Sum.inr i)))

/-- `solveInPlace` on a matrix made of two stacked row blocks (`topBlkRows<2>()`). -/
def solveMat {a b m : ℕ} (X : Mat 𝕜 (a + b) (a + b)) (Y : Mat 𝕜 a m) (Z : Mat 𝕜 b m) :
    Mat 𝕜 a m × Mat 𝕜 b m :=
  let W := X * (fromRows Y Z).submatrix finSumFinEquiv.symm id
  (fun i j => W (finSumFinEquiv (Sum.inl i)) j, fun i j => W (finSumFinEquiv (Sum.inr i)) j)

/-- `StageFactor::CostToGo` (riccati-kernel.hpp:35-71). -/
structure CostToGo (𝕜 : Type*) (nth nx : ℕ) where
  Vxx : Mat 𝕜 nx nx
  vx : Vec 𝕜 nx
  Vxt : Mat 𝕜 nx nth
  Vtt : Mat 𝕜 nth nth
  vt : Vec 𝕜 nth

/-- The part of `StageFactor` read by the forward pass and by the user (riccati-kernel.hpp:86-101):
the gain blocks of `ff`, `fb`, `fth` and the cost-to-go. The third gain block (`yff`, `Aff`, `Yth`) is
left untouched by `terminalSolve`; the forward pass never reads it at the last knot. -/
structure Factor (𝕜 : Type*) (nth nx nu nc nx2 : ℕ) where
  kff : Vec 𝕜 nu
  zff : Vec 𝕜 nc
  yff : Vec 𝕜 nx2
  K : Mat 𝕜 nu nx
  Z : Mat 𝕜 nc nx
  Aff : Mat 𝕜 nx2 nx
  Kth : Mat 𝕜 nu nth
  Zth : Mat 𝕜 nc nth
  Yth : Mat 𝕜 nx2 nth
  vm : CostToGo 𝕜 nth nx

/-- `ProximalRiccatiKernel::terminalSolve` (riccati-kernel.hxx:130-193).
The factorisation status is not examined by the code; a failure is the outcome `unchecked`.
Simplification: the parametric part is computed also when `nth = 0` (all its blocks are then empty). -/
def terminalSolve (ldl : LDL 𝕜) {nx nu nc nx2 : ℕ} (m : Knot 𝕜 nth nx nu nc nx2) (mueq : 𝕜) :
    Except Err (Factor 𝕜 nth nx nu nc nx2) :=
  if nu = 0 then
    -- riccati-kernel.hxx:146-149
    if mueq = 0 ∧ nc ≠ 0 then .error .divByZero
    else
      let Z : Mat 𝕜 nc nx := mueq⁻¹ • m.C
      let zff : Vec 𝕜 nc := mueq⁻¹ • m.d
      let K : Mat 𝕜 nu nx := 0          -- zero-row blocks
      let kff : Vec 𝕜 nu := 0
      let Kth : Mat 𝕜 nu nth := 0
      .ok { kff, zff, yff := 0, K, Z, Aff := 0, Kth, Zth := 0, Yth := 0
            vm := { Vxx := m.Q + m.Cᵀ * Z
                    vx := m.q + m.Cᵀ *ᵥ zff
                    Vxt := m.Gx + Kᵀ * m.Gu
                    Vtt := m.Gth + m.Guᵀ * Kth
                    vt := m.gamma + m.Guᵀ *ᵥ kff } }
  else
    -- riccati-kernel.hxx:150-173
    match ldl.inv? (nu + nc) (blk2 m.R m.Dᵀ m.D (-mueq • (1 : Mat 𝕜 nc nc))) with
    | none => .error .unchecked
    | some X =>
      let ff := solveVec X (-m.r) (-m.d)
      let fb := solveMat X (-m.Sᵀ) (-m.C)
      let fth := solveMat X (-m.Gu) (0 : Mat 𝕜 nc nth)
      .ok { kff := ff.1, zff := ff.2, yff := 0, K := fb.1, Z := fb.2, Aff := 0
            Kth := fth.1, Zth := fth.2, Yth := 0
            vm := { Vxx := m.Q + m.Cᵀ * fb.2 + m.S * fb.1
                    vx := m.q + m.Cᵀ *ᵥ ff.2 + m.S *ᵥ ff.1
                    Vxt := m.Gx + fb.1ᵀ * m.Gu
                    Vtt := m.Gth + m.Guᵀ * fth.1
                    vt := m.gamma + m.Guᵀ *ᵥ ff.1 } }

/-- `ProximalRiccatiKernel::stageKernelSolve` (riccati-kernel.hxx:209-312); `vn` is the next cost-to-go
after its symmetrisation in line 216 (done by the caller `backward`, which stores it back).
Line numbers of the pieces: `vplus` 217-218, hats 220-229, KKT matrix 232-241, gains 243-267,
cost-to-go 270-277, parametric part 278-311. -/
def stageKernelSolve (ldl : LDL 𝕜) {nx nu nc nx2 : ℕ} (m : Knot 𝕜 nth nx nu nc nx2)
    (vn : CostToGo 𝕜 nth nx2) (mueq : 𝕜) : Except Err (Factor 𝕜 nth nx nu nc nx2) :=
  let vplus := vn.vx + vn.Vxx *ᵥ m.f
  let AtV := m.Aᵀ * vn.Vxx
  let BtV := m.Bᵀ * vn.Vxx
  let Qhat := m.Q + AtV * m.A
  let Rhat := m.R + BtV * m.B
  let Shat := m.S + AtV * m.B
  let qhat := m.q + m.Aᵀ *ᵥ vplus
  let rhat := m.r + m.Bᵀ *ᵥ vplus
  match ldl.inv? (nu + nc) (symLower (blk2 Rhat m.Dᵀ m.D (-mueq • (1 : Mat 𝕜 nc nc)))) with
  | none => .error .ldlFailed
  | some X =>
    let ff := solveVec X (-rhat) (-m.d)
    let fb := solveMat X (-Shatᵀ) (-m.C)
    let kff := ff.1
    let zff := ff.2
    let K := fb.1
    let Z := fb.2
    let yff := m.f + m.B *ᵥ kff
    let Aff := m.A + m.B * K
    let Guhat := m.Gu + m.Bᵀ * vn.Vxt
    let fth := solveMat X (-Guhat) (-m.Gv)
    let Kth := fth.1
    let Zth := fth.2
    let Yth := m.B * Kth
    .ok { kff, zff, yff, K, Z, Aff, Kth, Zth, Yth
          vm := { Vxx := Qhat + Shat * K + m.Cᵀ * Z
                  vx := qhat + Shat *ᵥ kff + m.Cᵀ *ᵥ zff
                  vt := m.gamma + vn.vt + m.Guᵀ *ᵥ kff + vn.Vxtᵀ *ᵥ yff
                  Vxt := m.Gx + Kᵀ * m.Gu + Affᵀ * vn.Vxt
                  Vtt := m.Gth + vn.Vtt + m.Guᵀ * Kth + vn.Vxtᵀ * Yth } }

/-- The vector `datas` of stage factors of a chain. -/
inductive Facs {𝕜 : Type*} {nth : ℕ} : {nx : ℕ} → Chain 𝕜 nth nx → Type _
  | last {nx nu nc nx2 : ℕ} {k : Knot 𝕜 nth nx nu nc nx2} (F : Factor 𝕜 nth nx nu nc nx2) :
      Facs (.last k)
  | cons {nx nu nc nx2 : ℕ} {k : Knot 𝕜 nth nx nu nc nx2} {tl : Chain 𝕜 nth nx2}
      (F : Factor 𝕜 nth nx nu nc nx2) (Ft : Facs tl) : Facs (.cons k tl)

/-- `datas[0].vm`. -/
def Facs.vm : {nx : ℕ} → {ch : Chain 𝕜 nth nx} → Facs ch → CostToGo 𝕜 nth nx
  | _, _, .last F => F.vm
  | _, _, .cons F _ => F.vm

/-- `vn.Vxx = vn.Vxx.selfadjointView<Lower>()` on one factor (riccati-kernel.hxx:216). -/
def Factor.symVxx {nx nu nc nx2 : ℕ} (F : Factor 𝕜 nth nx nu nc nx2) : Factor 𝕜 nth nx nu nc nx2 :=
  { F with vm := { F.vm with Vxx := symLower F.vm.Vxx } }

/-- The same on the first factor of a span, in place. -/
def Facs.symHead : {nx : ℕ} → {ch : Chain 𝕜 nth nx} → Facs ch → Facs ch
  | _, _, .last F => .last F.symVxx
  | _, _, .cons F Ft => .cons F.symVxx Ft

/-- `ProximalRiccatiKernel::backwardImpl` (riccati-kernel.hxx:104-129) on a non-empty span: terminal
knot, then the stages from last to first. (On an empty span the code returns `true` immediately.) -/
def backwardImpl (ldl : LDL 𝕜) (mueq : 𝕜) : {nx : ℕ} → (ch : Chain 𝕜 nth nx) → Except Err (Facs ch)
  | _, .last k =>
    match terminalSolve ldl k mueq with
    | .error e => .error e
    | .ok F => .ok (.last F)
  | _, .cons k tl =>
    match backwardImpl ldl mueq tl with
    | .error e => .error e
    | .ok Ft =>
      let Ft' := Ft.symHead
      match stageKernelSolve ldl k Ft'.vm mueq with
      | .error e => .error e
      | .ok F => .ok (.cons F Ft')

/-- `ProximalRiccatiKernel::forwardImpl` (riccati-kernel.hxx:314-377) started at `x` with parameter `θ`.
Calling it without a parameter (`std::nullopt`) skips the `θ` terms, which is the case `θ = 0`.
For `nu = 0` the code does not touch `us[t]`, an empty vector here. -/
def forwardImpl (θ : Vec 𝕜 nth) : {nx : ℕ} → {ch : Chain 𝕜 nth nx} → Facs ch → Vec 𝕜 nx → Traj ch
  | _, _, .last F, x =>
    .last { x := x, u := F.kff + F.K *ᵥ x + F.Kth *ᵥ θ, v := F.zff + F.Z *ᵥ x + F.Zth *ᵥ θ }
  | _, _, .cons F Ft, x =>
    let u := F.kff + F.K *ᵥ x + F.Kth *ᵥ θ
    let v := F.zff + F.Z *ᵥ x + F.Zth *ᵥ θ
    let x' := F.yff + F.Aff *ᵥ x + F.Yth *ᵥ θ
    let lam' := Ft.vm.vx + Ft.vm.Vxx *ᵥ x' + Ft.vm.Vxt *ᵥ θ
    .cons { x, u, v } lam' (forwardImpl θ Ft x')

/-- State of `ProximalRiccatiSolver` after `backward` (proximal-riccati.hpp:40-43): factors, initial
stage solution `kkt0.ff`, `kkt0.fth`, and `thGrad`, `thHess`. -/
structure Solver {nc0 nx : ℕ} (P : Problem 𝕜 nth nc0 nx) where
  datas : Facs P.stages
  x0ff : Vec 𝕜 nx
  lam0ff : Vec 𝕜 nc0
  x0fth : Mat 𝕜 nx nth
  lam0fth : Mat 𝕜 nc0 nth
  thGrad : Vec 𝕜 nth
  thHess : Mat 𝕜 nth nth

/-- `ProximalRiccatiSolver::backward` (proximal-riccati.hxx:34-62). The status of the initial-stage
factorisation is not examined here (only by an `assert` in `computeInitial`): outcome `unchecked`. -/
def backward (ldl : LDL 𝕜) {nc0 nx : ℕ} (P : Problem 𝕜 nth nc0 nx) (mueq : 𝕜) :
    Except Err (Solver P) :=
  match backwardImpl ldl mueq P.stages with
  | .error e => .error e
  | .ok F =>
    match ldl.inv? (nx + nc0) (blk2 F.vm.Vxx P.G0ᵀ P.G0 0) with
    | none => .error .unchecked
    | some X =>
      let ff := solveVec X (-F.vm.vx) (-P.g0)
      let fth := solveMat X (-F.vm.Vxt) (0 : Mat 𝕜 nc0 nth)
      .ok { datas := F, x0ff := ff.1, lam0ff := ff.2, x0fth := fth.1, lam0fth := fth.2
            thGrad := F.vm.vt + F.vm.Vxtᵀ *ᵥ ff.1
            thHess := F.vm.Vtt + F.vm.Vxtᵀ * fth.1 }

/-- `ProximalRiccatiSolver::forward` (proximal-riccati.hxx:64-76, `computeInitial`
riccati-kernel.hxx:195-207): returns `lbdas[0]` and the trajectory. -/
def forward {nc0 nx : ℕ} {P : Problem 𝕜 nth nc0 nx} (s : Solver P) (θ : Vec 𝕜 nth) :
    Vec 𝕜 nc0 × Traj P.stages :=
  (s.lam0ff + s.lam0fth *ᵥ θ, forwardImpl θ s.datas (s.x0ff + s.x0fth *ᵥ θ))

end Aligator.Gar
