import Verif.Model.ProblemObj

/-!
# Specification: problems as values
-/

namespace Aligator.PObj.Spec

open Aligator.PObj

variable {K : Type}

/-- An initial condition: a fixed initial state, or another function. -/
inductive SInit (K : Type)
  | state (sp : Space K) (nu : ℕ) (x0 : List K)
  | other (ndx1 nr : ℕ)

/-- Tangent dimension of the states it takes. -/
def SInit.ndx1 : SInit K → ℕ
  | .state sp _ _ => sp.ndx
  | .other n _ => n

/-- A problem. -/
structure SProb (K : Type) where
  init : SInit K
  stages : List (Stage K)
  term : TermCost
  cstrs : List TermFun

/-- What a name stands for. -/
inductive SObj (K : Type)
  | absent
  | moved
  | live (s : SProb K)

/-- Consecutive stages fit, the first one fits the initial condition, the last one the terminal cost. -/
def Consistent (s : SProb K) : Prop :=
  ∀ k a, s.stages[k]? = some a →
    (k = 0 → a.xspace.ndx = s.init.ndx1) ∧
    (∀ b, s.stages[k + 1]? = some b → a.next.nx = b.xspace.nx ∧ a.next.ndx = b.xspace.ndx) ∧
    (k + 1 = s.stages.length → a.next.nx = s.term.nx ∧ a.next.ndx = s.term.ndx)

/-- Results. -/
inductive SRet (K : Type)
  | unit
  | throws
  | state (x : List K)
  | flag (p : Prop)
  | stage (s : Stage K)

/-- The operations on values.  No claim is made about objects moved from, values moved from in arguments, an initial
condition replaced by one of the other kind, and a terminal cost replaced by one with another control dimension. -/
inductive SStep : (ℕ → SObj K) → Op K → (ℕ → SObj K) → SRet K → Prop
  | create {σ n sp nu x0 vs t} : σ n = .absent →
      SStep σ (.create n (.stateError sp nu x0) (vs.map some) (some t)) (Function.update σ n (.live ⟨.state sp nu x0, vs, t, []⟩)) .unit
  | createOther {σ n a b vs t} : σ n = .absent →
      SStep σ (.create n (.other a b) (vs.map some) (some t)) (Function.update σ n (.live ⟨.other a b, vs, t, []⟩)) .unit
  | createAt {σ n x0 s vs t} : σ n = .absent → s.xspace.isNormalized x0 = true →
      SStep σ (.createAt n x0 ((s :: vs).map some) (some t))
        (Function.update σ n (.live ⟨.state s.xspace s.nu x0, s :: vs, t, []⟩)) .unit
  | createAtBad {σ n x0 s vs t} : σ n = .absent → s.xspace.isNormalized x0 = false →
      SStep σ (.createAt n x0 ((s :: vs).map some) (some t)) σ .throws
  | createSpace {σ n x0 nu sp t} : σ n = .absent → sp.isNormalized x0 = true →
      SStep σ (.createSpace n x0 nu sp (some t)) (Function.update σ n (.live ⟨.state sp nu x0, [], t, []⟩)) .unit
  | createSpaceBad {σ n x0 nu sp t} : σ n = .absent → sp.isNormalized x0 = false →
      SStep σ (.createSpace n x0 nu sp (some t)) σ .throws
  | copy {σ n m s} : σ n = .live s → σ m = .absent → SStep σ (.copy n m) (Function.update σ m (.live s)) .unit
  | assign {σ n m s} : σ n = .live s → σ m ≠ .absent → SStep σ (.assign n m) (Function.update σ m (.live s)) .unit
  | move {σ n m s} : σ n = .live s → σ m = .absent →
      SStep σ (.move n m) (Function.update (Function.update σ n .moved) m (.live s)) .unit
  | destroy {σ n} : σ n ≠ .absent → SStep σ (.destroy n) (Function.update σ n .absent) .unit
  | setInit {σ n s sp nu x0 x} : σ n = .live s → s.init = .state sp nu x0 →
      SStep σ (.setInit n x) (Function.update σ n (.live { s with init := .state sp nu x })) .unit
  | setInitBad {σ n s a b x} : σ n = .live s → s.init = .other a b → SStep σ (.setInit n x) σ .throws
  | getInit {σ n s sp nu x0} : σ n = .live s → s.init = .state sp nu x0 → SStep σ (.getInit n) σ (.state x0)
  | getInitBad {σ n s a b} : σ n = .live s → s.init = .other a b → SStep σ (.getInit n) σ .throws
  | setInitConstraint {σ n s sp nu x0 sp' nu' x} : σ n = .live s → s.init = .state sp nu x0 →
      SStep σ (.setInitConstraint n (.stateError sp' nu' x)) (Function.update σ n (.live { s with init := .state sp' nu' x })) .unit
  | setInitConstraintOther {σ n s a b a' b'} : σ n = .live s → s.init = .other a b →
      SStep σ (.setInitConstraint n (.other a' b')) (Function.update σ n (.live { s with init := .other a' b' })) .unit
  | setTermCost {σ n s t} : σ n = .live s → t.nu = s.term.nu →
      SStep σ (.setTermCost n (some t)) (Function.update σ n (.live { s with term := t })) .unit
  | addStage {σ n s v} : σ n = .live s →
      SStep σ (.addStage n (some v)) (Function.update σ n (.live { s with stages := s.stages ++ [v] })) .unit
  | replaceStage {σ n s v a r} : σ n = .live s → s.stages ++ [v] = a :: r →
      SStep σ (.replaceStage n (some v)) (Function.update σ n (.live { s with stages := r })) (.stage a)
  | addTermConstraint {σ n s f} : σ n = .live s →
      SStep σ (.addTermConstraint n f) (Function.update σ n (.live { s with cstrs := s.cstrs ++ [f] })) .unit
  | removeTermConstraints {σ n s} : σ n = .live s →
      SStep σ (.removeTermConstraints n) (Function.update σ n (.live { s with cstrs := [] })) .unit
  | integrity {σ n s} : σ n = .live s → SStep σ (.integrity n) σ (.flag (Consistent s))
  | termSizes {σ n s} : σ n = .live s → SStep σ (.termSizes n) σ (.flag (∀ f ∈ s.cstrs, f.nu = s.term.nu))

/-- Sequences of operations. -/
inductive SRun : (ℕ → SObj K) → List (Op K) → (ℕ → SObj K) → List (SRet K) → Prop
  | nil {σ} : SRun σ [] σ []
  | cons {σ o σ' r os σ'' rs} : SStep σ o σ' r → SRun σ' os σ'' rs → SRun σ (o :: os) σ'' (r :: rs)

/-- The operation changes or ends the object `n`, other than by setting an initial state of length `len`. -/
def Touches (n len : ℕ) : Op K → Prop
  | .create m _ _ _ => m = n
  | .createAt m _ _ _ => m = n
  | .createSpace m _ _ _ _ => m = n
  | .copy _ m => m = n
  | .assign a m => m = n ∧ a ≠ n
  | .move a m => a = n ∨ m = n
  | .destroy m => m = n
  | .setInit m x => m = n ∧ x.length ≠ len
  | .setInitConstraint m _ => m = n
  | _ => False

end Aligator.PObj.Spec
