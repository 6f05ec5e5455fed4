import Verif.Spec.ManifoldIntegrators
import Verif.Props.Integrators

/-!
# Lemmas: the chain rule along steps of a manifold
-/

namespace Aligator.MInteg

open Matrix Aligator.Deriv Aligator.MInteg.Spec
open Integ (Vec Mat)
open Integ.Spec (hcat)
open Integ (vcat hcat_mul_append hcat_add hcat_smul mul_hcat selFst_eq selSnd_eq)

variable {a b n m p k l : ℕ} {σ : Type} {S : Space a n} {pt : Vec a → Prop} {near : Vec a → Vec a → Prop}

/-- A function of two vectors, composed. -/
theorem comp2 {F : Vec (n + m) → Vec l} {X : Vec k → Vec n} {Y : Vec k → Vec m} {A : Mat l n} {B : Mat l m} {M : Mat n k}
    {N : Mat m k} {z : Vec k} (hF : IsJacobian F (hcat A B) (Fin.append (X z) (Y z))) (hX : IsJacobian X M z)
    (hY : IsJacobian Y N z) : IsJacobian (fun y => F (Fin.append (X y) (Y y))) (A * M + B * N) z := by
  rw [← hcat_mul_append]
  exact IsJacobian.comp (G := fun y => Fin.append (X y) (Y y)) hF (show IsJacobian _ (vcat M N) z from hX.append hY)

theorem append_zero_zero : Fin.append (0 : Vec n) (0 : Vec m) = 0 := by
  funext i; refine Fin.addCases (fun _ => ?_) (fun _ => ?_) i <;> simp

/-- The chain rule for a curve of points `X` in a function `F` of point and vector. -/
theorem chain (hS : Lawful S pt near) {F : Vec a → Vec m → Vec l} {X : Vec k → Vec a} {Y : Vec k → Vec m} {z : Vec k}
    {A : Mat l n} {B : Mat l m} {M : Mat n k} {N : Mat m k} (hpt : ∀ y, pt (X y))
    (hF : IsJacobian (fun w : Vec (n + m) => F (S.integrate (X z) (fst w)) (Y z + snd w)) (hcat A B) 0)
    (hX : IsJacobian (fun y => S.difference (X z) (X y)) M z) (hY : IsJacobian Y N z) :
    IsJacobian (fun y => F (X y) (Y y)) (A * M + B * N) z := by
  have hY' : IsJacobian (fun y => Y y - Y z) N z := by simpa using hY.sub (IsJacobian.const (Y z) z)
  have := comp2 (F := fun w : Vec (n + m) => F (S.integrate (X z) (fst w)) (Y z + snd w))
    (X := fun y => S.difference (X z) (X y)) (Y := fun y => Y y - Y z) (z := z)
    (by rw [hS.difference_self _ (hpt z), sub_self, append_zero_zero]; exact hF) hX hY'
  refine this.congr_of' (funext fun y => ?_) rfl
  simp only [fst_append, snd_append, hS.integrate_difference _ _ (hpt z) (hpt y), add_sub_cancel]

/-- The derivative of a step `V` from a point `X`. -/
theorem step_jac (hS : Lawful S pt near) {X : Vec k → Vec a} {V : Vec k → Vec n} {z : Vec k} {M N : Mat n k}
    (hpt : ∀ y, pt (X y)) (hX : IsJacobian (fun y => S.difference (X z) (X y)) M z) (hV : IsJacobian V N z) :
    IsJacobian (fun y => S.difference (S.integrate (X z) (V z)) (S.integrate (X y) (V y)))
      (S.Jint0 (X z) (V z) * M + S.Jint1 (X z) (V z) * N) z :=
  chain hS (F := fun x v => S.difference (S.integrate (X z) (V z)) (S.integrate x v)) hpt
    (hS.integrate_jac _ _ (hpt z)) hX hV

/-- Steps from a point, as a curve of points. -/
theorem base_jac (hS : Lawful S pt near) {x : Vec a} (hx : pt x) :
    IsJacobian (fun z : Vec (n + m) => S.difference (S.integrate x (fst (0 : Vec (n + m)))) (S.integrate x (fst z)))
      (selFst n m) 0 := by
  have h0 : S.integrate x (fst (0 : Vec (n + m))) = x := hS.integrate_zero x hx
  rw [h0]
  refine ((hS.retract x hx).comp (G := fst) (isJacobian_fst (0 : Vec (n + m)))).congr (Matrix.one_mul _)

theorem hcat_mul (M : Mat l k) (A : Mat k n) (B : Mat k m) : M * hcat A B = hcat (M * A) (M * B) := mul_hcat M A B

end Aligator.MInteg
