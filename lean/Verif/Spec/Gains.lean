import Verif.Spec.Lqr
import Verif.Model.Gains

/-!
# Specification: feedback gains of a linear-quadratic problem

The gains of a stage are right when, at *every* state, the optimal control (multiplier, next state) of the
problem that starts there is the affine function they encode.
-/

namespace Aligator.Gains

open Matrix Aligator.Gar

variable {𝕜 : Type*} [Field 𝕜] {nth : ℕ}

/-- The problem starting at the first knot of `ch` has a solution from every state. -/
def Solvable (mu : 𝕜) {nx : ℕ} (ch : Chain 𝕜 nth nx) : Prop :=
  ∀ x, ∃ p t, TailKKT mu 0 ch p t ∧ t.x0 = x

/-- The affine function stored in a matrix `[a | K]`. -/
def affine {r c : ℕ} (e : Matrix (Fin r) (Fin (c + 1)) 𝕜) (x : Vec 𝕜 c) : Vec 𝕜 r :=
  fun i => e i 0 + ∑ j, e i j.succ * x j

/-- The list of gains is the primal-dual feedback of the problem: at each stage the control, the path
multiplier and a third quantity `sel λ' x'` (made of the next costate and the next state) of every solution
of the remaining problem; at the terminal knot its multiplier. -/
def GainsFor (mu : 𝕜) (sel : ∀ {n : ℕ}, Vec 𝕜 n → Vec 𝕜 n → Vec 𝕜 n) :
    {nx : ℕ} → (ch : Chain 𝕜 nth nx) → List (Gain 𝕜) → Prop
  | nx, .last (nu := nu) (nc := nc) k, gs =>
      ∃ e : Matrix (Fin nc) (Fin (nx + 1)) 𝕜, gs = [⟨nc, nx, e⟩] ∧ Solvable mu (.last k) ∧
        ∀ p (n : Node 𝕜 nx nu nc), TailKKT mu 0 (.last k) p (.last n) → n.v = affine e n.x
  | nx, .cons (nu := nu) (nc := nc) (nx2 := nx2) k tl, gs =>
      ∃ (e : Matrix (Fin (nu + nc + nx2)) (Fin (nx + 1)) 𝕜) (gs' : List (Gain 𝕜)),
        gs = ⟨nu + nc + nx2, nx, e⟩ :: gs' ∧ Solvable mu (.cons k tl) ∧
        (∀ p (n : Node 𝕜 nx nu nc) lam t, TailKKT mu 0 (.cons k tl) p (.cons n lam t) →
          Fin.append (Fin.append n.u n.v) (sel lam t.x0) = affine e n.x) ∧
        GainsFor mu sel tl gs'

/-- The control policy: at each stage every solution of the remaining problem has `u = a + K x`. -/
def Policies (mu : 𝕜) : {nx : ℕ} → (ch : Chain 𝕜 nth nx) → List (Σ r, Vec 𝕜 r) →
    List (Σ r c, Mat 𝕜 r c) → Prop
  | _, .last _, as, Ks => as = [] ∧ Ks = []
  | nx, .cons (nu := nu) (nc := nc) k tl, as, Ks =>
      ∃ (a : Vec 𝕜 nu) (K : Mat 𝕜 nu nx) (as' : List (Σ r, Vec 𝕜 r)) (Ks' : List (Σ r c, Mat 𝕜 r c)),
        as = ⟨nu, a⟩ :: as' ∧ Ks = ⟨nu, nx, K⟩ :: Ks' ∧ Solvable mu (.cons k tl) ∧
        (∀ p (n : Node 𝕜 nx nu nc) lam t, TailKKT mu 0 (.cons k tl) p (.cons n lam t) →
          n.u = a + K *ᵥ n.x) ∧
        Policies mu tl as' Ks'

/-- The gains of the knots of a chain, the last one included: at each knot the control and multiplier of
every solution of the problem made of the knots from there to the end *of this chain*. -/
def ChainGains (mu : 𝕜) : {nx : ℕ} → (ch : Chain 𝕜 nth nx) → List (Gain 𝕜) → Prop
  | nx, .last (nu := nu) (nc := nc) (nx2 := nx2) k, gs =>
      ∃ e : Matrix (Fin (nu + nc + nx2)) (Fin (nx + 1)) 𝕜,
        gs = [⟨nu + nc + nx2, nx, e⟩] ∧ Solvable mu (.last k) ∧
        ∀ p (n : Node 𝕜 nx nu nc), TailKKT mu 0 (.last k) p (.last n) →
          Fin.append n.u n.v = fun i => affine e n.x (Fin.castAdd nx2 i)
  | nx, .cons (nu := nu) (nc := nc) (nx2 := nx2) k tl, gs =>
      ∃ (e : Matrix (Fin (nu + nc + nx2)) (Fin (nx + 1)) 𝕜) (gs' : List (Gain 𝕜)),
        gs = ⟨nu + nc + nx2, nx, e⟩ :: gs' ∧ Solvable mu (.cons k tl) ∧
        (∀ p (n : Node 𝕜 nx nu nc) lam t, TailKKT mu 0 (.cons k tl) p (.cons n lam t) →
          Fin.append n.u n.v = fun i => affine e n.x (Fin.castAdd nx2 i)) ∧
        ChainGains mu tl gs'

/-- The terminal knot has no control and no next state, as in the LQ subproblem of the solver. -/
def PlainTerminal : {nx : ℕ} → Chain 𝕜 nth nx → Prop
  | _, .last (nu := nu) (nx2 := nx2) _ => nu = 0 ∧ nx2 = 0
  | _, .cons _ tl => PlainTerminal tl

/-- Some stage has a non-empty next state. -/
def HasState : {nx : ℕ} → Chain 𝕜 nth nx → Prop
  | _, .last _ => False
  | _, .cons (nx2 := nx2) _ tl => nx2 ≠ 0 ∨ HasState tl

/-- The gains by legs: each leg but the last has the gains of the problem that stops at its end (last knot
kept, nothing after it), the last one those of the rest of the problem. -/
def LegGains (mu : 𝕜) : {nx : ℕ} → (L : Legs 𝕜 nth nx) → List (Gain 𝕜) → Prop
  | _, .last ch, gs => GainsFor mu (fun _ x' => x') ch gs
  | _, .cons s L, gs => ∃ a b, gs = a ++ b ∧ ChainGains mu s.leg a ∧ LegGains mu L b

end Aligator.Gains
