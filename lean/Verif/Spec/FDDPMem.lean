import Verif.Model.FDDPMem

/-!
# Specification: problems the buffers of FDDP can hold
-/

namespace Aligator.FMem

/-- All states of the stages, of their costs and of the terminal cost live in spaces of the same two sizes. -/
def Uniform (nx ndx : ℕ) (P : Prob) : Prop :=
  (∀ s ∈ P.stages, s.nx1 = nx ∧ s.nx2 = nx ∧ s.cnx = nx ∧ s.ndx1 = ndx ∧ s.ndx2 = ndx ∧ s.cndx = ndx) ∧
  P.x0 = some nx ∧ P.initNx = nx ∧ P.initNdx = ndx ∧ P.termNx = nx ∧ P.termNdx = ndx

/-- What FDDP needs: uniform states, and a terminal cost written for a control of the size of the last one. -/
def Solvable (P : Prob) : Prop :=
  (∃ nx ndx, Uniform nx ndx P) ∧ ∃ s, P.stages.getLast? = some s ∧ s.nu = P.termNu

end Aligator.FMem
