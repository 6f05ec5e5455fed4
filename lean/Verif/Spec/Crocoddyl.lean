import Verif.Model.Crocoddyl
import Verif.Spec.Derivatives

/-!
# Specification: what Crocoddyl promises about its models (C65)

`calcDiff` is only meaningful at the point of the last `calc` on the same data; `ready` names the data on which this is so.
-/

namespace Aligator.Croc.Spec

open Aligator.Deriv Aligator.Croc

variable {a n m : ℕ} {σ : Type}

/-- An action model with running cost `l`, next state `f` and Hessian blocks `H` (possibly approximate). -/
structure ActionLaw (S : State a n) (A : Action a n m σ) (l : Vec a → Vec m → ℝ) (f : Vec a → Vec m → Vec a)
    (H : Vec a → Vec m → Mat n n × Mat n m × Mat m m) (ready : σ → Vec a → Vec m → Prop) : Prop where
  cost : ∀ s x u, A.cost (A.calcU s x u) = l x u
  next : ∀ s x u, A.xnext (A.calcU s x u) = f x u
  ready_calc : ∀ s x u, ready (A.calcU s x u) x u
  ready_diff : ∀ s x u, ready s x u → ready (A.calcDiffU s x u) x u
  grad : ∀ s x u, ready s x u → IsGradient (fun z : Vec (n + m) => l (S.integrate x (fst z)) (u + snd z))
    (Fin.append (A.Lx (A.calcDiffU s x u)) (A.Lu (A.calcDiffU s x u))) 0
  jac : ∀ s x u, ready s x u →
    IsJacobian (fun z : Vec (n + m) => S.diff (f x u) (f (S.integrate x (fst z)) (u + snd z)))
      (fun i => Fin.append (A.Fx (A.calcDiffU s x u) i) (A.Fu (A.calcDiffU s x u) i)) 0
  hess : ∀ s x u, ready s x u →
    (A.Lxx (A.calcDiffU s x u), A.Lxu (A.calcDiffU s x u), A.Luu (A.calcDiffU s x u)) = H x u

/-- An action model used without control, with cost `l` and Hessian `H`. -/
structure TerminalLaw (S : State a n) (A : Action a n m σ) (l : Vec a → ℝ) (H : Vec a → Mat n n)
    (ready : σ → Vec a → Prop) : Prop where
  cost : ∀ s x, A.cost (A.calcX s x) = l x
  ready_calc : ∀ s x, ready (A.calcX s x) x
  ready_diff : ∀ s x, ready s x → ready (A.calcDiffX s x) x
  grad : ∀ s x, ready s x → IsGradient (fun z : Vec n => l (S.integrate x z)) (A.Lx (A.calcDiffX s x)) 0
  hess : ∀ s x, ready s x → A.Lxx (A.calcDiffX s x) = H x

end Aligator.Croc.Spec
