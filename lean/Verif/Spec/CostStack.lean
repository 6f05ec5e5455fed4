import Verif.Model.CostStack

/-!
# Specification: weighted sums of costs

A ledger of everything that was added: the functions, their weights, and the name under which the user may address
them.  Nothing is ever dropped from it.
-/

namespace Aligator.Costs.Spec

open Matrix

/-- One summand. -/
structure Entry (K Z : Type) (n : ℕ) where
  key : Key
  f : Z → K
  g : Z → Fin n → K
  h : Z → Matrix (Fin n) (Fin n) K
  w : K

variable {K Z : Type} {n : ℕ}

/-- What the user asks for. -/
inductive Req (K Z : Type) (n : ℕ)
  /-- Add a summand without a name: it is addressed by the number of summands before it. -/
  | add (f : Z → K) (g : Z → Fin n → K) (h : Z → Matrix (Fin n) (Fin n) K) (w : K)
  | addKey (key : Key) (f : Z → K) (g : Z → Fin n → K) (h : Z → Matrix (Fin n) (Fin n) K) (w : K)
  | setWeight (key : Key) (w : K)
  | scale (c : K)

/-- The effect of a request on the ledger. -/
def step [Mul K] (l : List (Entry K Z n)) : Req K Z n → List (Entry K Z n)
  | .add f g h w => l ++ [⟨.inl l.length, f, g, h, w⟩]
  | .addKey k f g h w => l ++ [⟨k, f, g, h, w⟩]
  | .setWeight k w => l.map fun e => if e.key = k then { e with w := w } else e
  | .scale c => l.map fun e => { e with w := e.w * c }

/-- The ledger after a sequence of requests. -/
def ledger [Mul K] (rs : List (Req K Z n)) : List (Entry K Z n) := rs.foldl step []

/-- The value of the sum. -/
def value [Field K] (l : List (Entry K Z n)) (z : Z) : K := (l.map fun e => e.w * e.f z).sum

/-- The gradient of the sum. -/
def grad [Field K] (l : List (Entry K Z n)) (z : Z) : Fin n → K := (l.map fun e => e.w • e.g z).sum

/-- The Hessian of the sum. -/
def hess [Field K] (l : List (Entry K Z n)) (z : Z) : Matrix (Fin n) (Fin n) K := (l.map fun e => e.w • e.h z).sum

end Aligator.Costs.Spec
