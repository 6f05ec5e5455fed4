import Mathlib.Data.Real.Basic

/-!
# Model: Newton-Raphson, forward dynamics and rollouts

Real arithmetic.  The function, its linear solver, the manifold and the norm are arbitrary functions.
-/

namespace Aligator.Roll

/-! ## `NewtonRaphson` -/

/-- What the procedure calls: the function, `Jf0.lu().solve(-f0)` after `jac_fun(xout, Jf0)` as a function of `xout` and
`f0`, `space.integrate` of a scaled step, and the norm (utils/newton-raphson.hpp:29, :35, :45-46, :51-54). -/
structure Env (X V D : Type) where
  fn : X → V
  solve : X → V → D
  integrate : X → ℝ → D → X
  norm : V → ℝ

/-- `Options` (utils/newton-raphson.hpp:15-19). -/
structure Options where
  alphaMin : ℝ
  lsBeta : ℝ
  armijoC1 : ℝ

/-- The default options (utils/newton-raphson.hpp:15-19). -/
noncomputable def Options.default : Options := ⟨1 / 10000, 7071 / 10000, 1 / 100⟩

/-- The buffers `xout`, `f0` and the variable `err`. -/
structure St (X V : Type) where
  x : X
  f0 : V
  err : ℝ

variable {X V D : Type}

/-- The line search (utils/newton-raphson.hpp:49-61).  `none` means that it is still running after `fuel` rounds. -/
noncomputable def lineSearch (e : Env X V D) (o : Options) (d : D) : ℕ → ℝ → St X V → Option (St X V)
  | 0, _, _ => none
  | fuel + 1, alpha, s =>
    if alpha > o.alphaMin then
      let xcand := e.integrate s.x alpha d
      let f := e.fn xcand
      if e.norm f ≤ (1 - o.armijoC1) * s.err then some ⟨xcand, f, e.norm f⟩
      else lineSearch e o d fuel (alpha * o.lsBeta) { s with f0 := f }
    else some s

/-- The outer loop (utils/newton-raphson.hpp:37-64) with `left = max_iters - iter`.  The result is the returned boolean,
the buffers and `iter`. -/
noncomputable def newtonLoop (e : Env X V D) (o : Options) (eps : ℝ) (fuel : ℕ) :
    ℕ → ℕ → St X V → Option (Bool × St X V × ℕ)
  | left, iter, s =>
    if s.err ≤ eps then some (true, s, iter)
    else match left with
      | 0 => some (false, s, iter)
      | left + 1 =>
        match lineSearch e o (e.solve s.x s.f0) fuel 1 s with
        | none => none
        | some s' => newtonLoop e o eps fuel left (iter + 1) s'
termination_by left => left

/-- `NewtonRaphson::run` (utils/newton-raphson.hpp:22-65). -/
noncomputable def newton (e : Env X V D) (o : Options) (eps : ℝ) (maxIters fuel : ℕ) (xinit : X) :
    Option (Bool × St X V × ℕ) :=
  newtonLoop e o eps fuel maxIters 0 ⟨xinit, e.fn xinit, e.norm (e.fn xinit)⟩

/-! ## Rollouts -/

variable {U : Type}

/-- The outcome of a call; `threw` carries the output argument that is left behind. -/
inductive Res (α : Type)
  | ok (a : α)
  | threw (left : α)
  | undefined
  | diverges

/-- An implicit dynamical model (core/dynamics.hpp:15-75): residual, linear solver at (x, u, xnext), step on the next
space, and the neutral element of `space()` (not of `space_next()`). -/
structure Implicit (X U V D : Type) where
  residual : X → U → X → V
  solve : X → U → X → V → D
  integrate : X → ℝ → D → X
  norm : V → ℝ
  neutral : X

/-- The functions that the forward dynamics passes to Newton's method, without gap (utils/forward-dyn.hpp:31-43). -/
def Implicit.env (m : Implicit X U V D) (x : X) (u : U) : Env X V D :=
  ⟨m.residual x u, fun y f => m.solve x u y f, m.integrate, m.norm⟩

/-- `forwardDynamics` of an implicit model without gap, with the default options (utils/forward-dyn.hpp:11-14, :24-44,
:65-73): the procedure starts at `x`, writes to `xout`, and its boolean is dropped.  `size` is the length of a vector:
writing to a reference of another length is undefined.  28 rounds are enough for the default line search
(`C49_default_terminates`). -/
noncomputable def forwardImplicit (size : X → ℕ) (m : Implicit X U V D) (x : X) (u : U) (xout : X) : Res X :=
  if size xout ≠ size x then .undefined
  else match newton (m.env x u) Options.default (1 / 1000000) 1000 28 x with
    | none => .diverges
    | some r => .ok r.2.1.x

/-- `std::vector::resize`: cut, or append default-constructed (empty) vectors. -/
def resize (empty : X) (l : List X) (n : ℕ) : List X := l.take n ++ List.replicate (n - l.length) empty

/-- The loop of the rollout of a list of implicit models (utils/rollout.hpp:25-30). -/
noncomputable def implicitListLoop (size : X → ℕ) : ℕ → List (Implicit X U V D) → List U → List X → Res (List X)
  | i, m :: ms, u :: us, xout =>
    let xout := xout ++ [m.neutral]
    match xout[i]?, xout[i + 1]? with
    | some x, some y =>
      match forwardImplicit size m x u y with
      | .ok y' => implicitListLoop size (i + 1) ms us (xout.set (i + 1) y')
      | .threw _ => .threw xout
      | .undefined => .undefined
      | .diverges => .diverges
    | _, _ => .undefined
  | _, _, _, xout => .ok xout

/-- Rollout of a list of implicit models into `xout` (utils/rollout.hpp:11-32; :116-125 calls it with an empty
vector). -/
noncomputable def rolloutImplicitList (size : X → ℕ) (empty : X) (ms : List (Implicit X U V D)) (x0 : X) (us : List U)
    (xout : List X) : Res (List X) :=
  if ms.length ≠ us.length then .threw xout
  else implicitListLoop size 0 ms us ((resize empty xout (us.length + 1)).set 0 x0)

/-- The loop of the rollout of one implicit model (utils/rollout.hpp:47-51). -/
noncomputable def implicitLoop (size : X → ℕ) (m : Implicit X U V D) : ℕ → List U → List X → Res (List X)
  | i, u :: us, xs =>
    let xs := xs ++ [m.neutral]
    match xs[i]?, xs[i + 1]? with
    | some x, some y =>
      match forwardImplicit size m x u y with
      | .ok y' => implicitLoop size m (i + 1) us (xs.set (i + 1) y')
      | .threw _ => .threw xs
      | .undefined => .undefined
      | .diverges => .diverges
    | _, _ => .undefined
  | _, [], xs => .ok xs

/-- Rollout of one implicit model (utils/rollout.hpp:36-53). -/
noncomputable def rolloutImplicit (size : X → ℕ) (m : Implicit X U V D) (x0 : X) (us : List U) : Res (List X) :=
  implicitLoop size m 0 us [x0]

/-- An explicit dynamical model (core/explicit-dynamics.hpp:21-60): `forward` transforms the data, `xnext` reads the next
state from them (`E` is the type of data). -/
structure Explicit (X U E : Type) where
  forward : X → U → E → E
  xnext : E → X
  createData : E

variable {E : Type}

/-- The loop of the rollout of a list of explicit models (utils/rollout.hpp:74-79). -/
def explicitListLoop : ℕ → List (Explicit X U E) → List U → List X → Res (List X)
  | i, m :: ms, u :: us, xout =>
    match xout[i]? with
    | some x => explicitListLoop (i + 1) ms us (xout.set (i + 1) (m.xnext (m.forward x u m.createData)))
    | none => .undefined
  | _, _, _, xout => .ok xout

/-- Rollout of a list of explicit models into `xout` (utils/rollout.hpp:57-80; :116-125 calls it with an empty
vector): the output is written before the check. -/
def rolloutExplicitList (empty : X) (ms : List (Explicit X U E)) (x0 : X) (us : List U) (xout : List X) :
    Res (List X) :=
  let xout := (resize empty xout (us.length + 1)).set 0 x0
  if ms.length ≠ us.length then .threw xout else explicitListLoop 0 ms us xout

/-- The loop of the rollout of one explicit model (utils/rollout.hpp:95-98): the data object is reused. -/
def explicitLoop (m : Explicit X U E) : ℕ → E → List U → List X → Res (List X)
  | i, d, u :: us, xout =>
    match xout[i]? with
    | some x => explicitLoop m (i + 1) (m.forward x u d) us (xout.set (i + 1) (m.xnext (m.forward x u d)))
    | none => .undefined
  | _, _, [], xout => .ok xout

/-- Rollout of one explicit model into `xout` (utils/rollout.hpp:83-99; :102-112 calls it with an empty vector). -/
def rolloutExplicit (empty : X) (m : Explicit X U E) (x0 : X) (us : List U) (xout : List X) : Res (List X) :=
  explicitLoop m 0 m.createData us ((resize empty xout (us.length + 1)).set 0 x0)

end Aligator.Roll
