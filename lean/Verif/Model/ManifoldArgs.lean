import Verif.Model.Manifolds

/-!
# Model: the argument number of the Jacobians

The Jacobians of a manifold take the number of the argument to differentiate by.  The argument number is a natural number
here; negative numbers behave as the numbers from 2 on (no branch of the code tests for them).
-/

namespace Aligator.Mani

variable {K : Type} [Field K]

/-- `Jintegrate_impl` and `Jdifference_impl` of the manifolds that call Pinocchio
(modelling/spaces/multibody.hpp:52-62, :84-94, modelling/spaces/pinocchio-groups.hpp:76-86, :94-104): a switch without a
default branch.  `j0` and `j1` are the matrices that Pinocchio writes. -/
def switchJ (j0 j1 : Vec K → Vec K → Mat K) (x y : Vec K) (arg : ℕ) (J : Mat K) : Option (Mat K) :=
  match arg with
  | 0 => some (j0 x y)
  | 1 => some (j1 x y)
  | _ => some J

/-- A manifold with the Jacobians of Pinocchio; the other methods are those of `m`. -/
def group (m : Manifold K) (i0 i1 d0 d1 : Vec K → Vec K → Mat K) : Manifold K :=
  { m with Jintegrate := switchJ i0 i1, Jdifference := switchJ d0 d1 }

/-- `Jintegrate(x, v, arg)` of the Python bindings (bindings/python/src/expose-manifold.cpp:72-79): a new matrix, whose
content `mem` is whatever the memory held, is passed to the C++ method and returned. -/
def pyJintegrate (m : Manifold K) (mem : Mat K) (x v : Vec K) (arg : ℕ) : Option (Mat K) := m.Jintegrate x v arg mem

/-- `Jdifference(x0, x1, arg)` of the Python bindings (bindings/python/src/expose-manifold.cpp:86-93). -/
def pyJdifference (m : Manifold K) (mem : Mat K) (x0 x1 : Vec K) (arg : ℕ) : Option (Mat K) :=
  m.Jdifference x0 x1 arg mem

end Aligator.Mani
