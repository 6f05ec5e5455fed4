import Verif.Model.Malloc

/-!
# What zones without allocation should do

"Previous malloc status will be restored upon exiting the scope" (math.hpp:34-35): a reference interpreter in which each
zone remembers the flag itself.
-/

namespace Aligator.Malloc

/-- Flag after the program, calls of code of the user with the flag they see, whether an exception is on its way. -/
def intended : Prog → Bool → Bool × List (ℕ × Bool) × Bool
  | .skip, b => (b, [], false)
  | .seq p q, b =>
    let o := intended p b
    if o.2.2 then o else
      let o' := intended q o.1
      (o'.1, o.2.1 ++ o'.2.1, o'.2.2)
  | .allow c, _ => (c, [], false)
  | .scope p, b => (b, (intended p false).2)
  | .call n, b => (b, [(n, b)], false)
  | .raise, b => (b, [], true)
  | .attempt p, b => ((intended p b).1, (intended p b).2.1, false)

/-- The calls among the events. -/
def callsOf : List Ev → List (ℕ × Bool)
  | [] => []
  | .enter _ :: l => callsOf l
  | .call n b :: l => (n, b) :: callsOf l

/-- A run of the program does what is intended. -/
def AsIntended (p : Prog) (s : St) : Prop :=
  (exec p s).st.allowed = (intended p s.allowed).1 ∧ callsOf (exec p s).log = (intended p s.allowed).2.1 ∧
    (exec p s).raised = (intended p s.allowed).2.2

/-- No zone is entered. -/
def NoScope : Prog → Prop
  | .scope _ => False
  | .seq p q => NoScope p ∧ NoScope q
  | .attempt p => NoScope p
  | _ => True

/-- No zone is entered within a zone. -/
def Flat : Prog → Prop
  | .scope p => NoScope p
  | .seq p q => Flat p ∧ Flat q
  | .attempt p => Flat p
  | _ => True

/-- Allocation is never allowed explicitly. -/
def NeverAllows : Prog → Prop
  | .allow b => b = false
  | .scope p => NeverAllows p
  | .seq p q => NeverAllows p ∧ NeverAllows q
  | .attempt p => NeverAllows p
  | _ => True

/-- The flag at the last zone entered, if there is one. -/
def lastEnter : List Ev → Option Bool
  | [] => none
  | .enter b :: l => (lastEnter l).or (some b)
  | .call _ _ :: l => lastEnter l

end Aligator.Malloc
