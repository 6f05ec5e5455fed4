import Verif.Model.ProxMem

/-!
# Specification: problems the memory of ProxDDP can hold
-/

namespace Aligator.PMem

/-- A stage whose cost lives in the space of its state, and all of whose tangent spaces have size `ndx`; dynamics that write
the next state in place lead to a space of the same size. -/
structure StageFits (ndx : ℕ) (s : Stage) : Prop where
  cnx : s.cnx = s.nx1
  own : s.assigns = false → s.nx1 = s.nx2
  ndx1 : s.ndx1 = ndx
  ndx2 : s.ndx2 = ndx
  cndx : s.cndx = ndx
  cstrs : ∀ c ∈ s.cstrs, c.2 = ndx

/-- All tangent spaces of the problem have the same size, and the states fit together; terminal constraints that read a
control read one of the size of the terminal cost.  Controls and constraints may have any size at any stage. -/
structure Fits (ndx : ℕ) (P : Prob) : Prop where
  ne : P.stages ≠ []
  stages : ∀ s ∈ P.stages, StageFits ndx s
  first : ∀ s, P.stages[0]? = some s → s.nx1 = P.initNx
  chain : ∀ i s s', P.stages[i]? = some s → P.stages[i + 1]? = some s' → s.nx2 = s'.nx1
  last : ∀ s, P.stages[P.stages.length - 1]? = some s → s.nx2 = P.termNx
  x0 : ∀ x, P.x0 = some x → x = P.initNx
  initNdx : P.initNdx = ndx
  termNdx : P.termNdx = ndx
  term : ∀ c ∈ P.termCstrs, c.2.1 = ndx ∧ ∀ k, c.2.2 = some k → k = P.termNu

/-- A stage from a space of size `nx` to itself with controls of size `k`. -/
structure Same (nx k : ℕ) (s : Stage) : Prop where
  nx1 : s.nx1 = nx
  nx2 : s.nx2 = nx
  nu : s.nu = k

end Aligator.PMem
