import Verif.Spec.Derivatives
import Mathlib.Analysis.Calculus.FDeriv.Mul
import Mathlib.Analysis.Calculus.FDeriv.Add
import Mathlib.Analysis.Calculus.FDeriv.Linear
import Mathlib.Analysis.Calculus.Deriv.Comp
import Mathlib.Tactic.Ring
import Mathlib.Tactic.Abel
import Mathlib.Algebra.BigOperators.Fin

/-!
# Lemmas: rules for gradients and Jacobians
-/

namespace Aligator.Deriv

open Matrix

variable {n m k : ℕ}

@[simp] theorem form_apply (g v : Fin n → ℝ) : form g v = g ⬝ᵥ v := by
  simp [form, dotProduct]

theorem form_add (a b : Fin n → ℝ) : form (a + b) = form a + form b := by
  ext v; simp [add_dotProduct]

theorem form_sub (a b : Fin n → ℝ) : form (a - b) = form a - form b := by
  ext v; simp [sub_dotProduct]

theorem form_smul (c : ℝ) (a : Fin n → ℝ) : form (c • a) = c • form a := by
  ext v; simp [smul_dotProduct]

theorem form_zero : form (0 : Fin n → ℝ) = 0 := by
  ext v; simp

theorem form_sum {ι : Type*} (s : Finset ι) (f : ι → Fin n → ℝ) : form (∑ i ∈ s, f i) = ∑ i ∈ s, form (f i) := by
  classical
  induction s using Finset.induction_on with
  | empty => simp [form_zero]
  | insert a s ha ih => rw [Finset.sum_insert ha, Finset.sum_insert ha, form_add, ih]

theorem IsGradient.congr {f : (Fin n → ℝ) → ℝ} {g g' z : Fin n → ℝ} (h : IsGradient f g z) (e : g = g') :
    IsGradient f g' z := e ▸ h

theorem IsGradient.add {f g : (Fin n → ℝ) → ℝ} {a b z : Fin n → ℝ} (hf : IsGradient f a z) (hg : IsGradient g b z) :
    IsGradient (fun y => f y + g y) (a + b) z := by
  unfold IsGradient; rw [form_add]; exact HasFDerivAt.fun_add hf hg

theorem IsGradient.sub {f g : (Fin n → ℝ) → ℝ} {a b z : Fin n → ℝ} (hf : IsGradient f a z) (hg : IsGradient g b z) :
    IsGradient (fun y => f y - g y) (a - b) z := by
  unfold IsGradient; rw [form_sub]; exact HasFDerivAt.fun_sub hf hg

theorem IsGradient.const (c : ℝ) (z : Fin n → ℝ) : IsGradient (fun _ => c) 0 z := by
  unfold IsGradient; rw [form_zero]; exact hasFDerivAt_const c z

theorem IsGradient.mul {f g : (Fin n → ℝ) → ℝ} {a b z : Fin n → ℝ} (hf : IsGradient f a z) (hg : IsGradient g b z) :
    IsGradient (fun y => f y * g y) (f z • b + g z • a) z := by
  unfold IsGradient; rw [form_add, form_smul, form_smul]; exact HasFDerivAt.fun_mul hf hg

theorem IsGradient.smul (c : ℝ) {f : (Fin n → ℝ) → ℝ} {a z : Fin n → ℝ} (hf : IsGradient f a z) :
    IsGradient (fun y => c * f y) (c • a) z := by
  unfold IsGradient; rw [form_smul]; exact HasFDerivAt.const_mul hf c

theorem IsGradient.neg {f : (Fin n → ℝ) → ℝ} {a z : Fin n → ℝ} (hf : IsGradient f a z) :
    IsGradient (fun y => -f y) (-a) z := by
  have := hf.smul (-1)
  simpa using this

theorem IsGradient.sum {ι : Type*} (s : Finset ι) {f : ι → (Fin n → ℝ) → ℝ} {a : ι → Fin n → ℝ} {z : Fin n → ℝ}
    (hf : ∀ i ∈ s, IsGradient (f i) (a i) z) : IsGradient (fun y => ∑ i ∈ s, f i y) (∑ i ∈ s, a i) z := by
  unfold IsGradient; rw [form_sum]; exact HasFDerivAt.fun_sum hf

theorem IsGradient.coord (i : Fin n) (z : Fin n → ℝ) : IsGradient (fun y => y i) (Pi.single i 1) z := by
  unfold IsGradient
  have : form (Pi.single i 1) = (ContinuousLinearMap.proj i : (Fin n → ℝ) →L[ℝ] ℝ) := by
    ext v; simp
  rw [this]
  exact (ContinuousLinearMap.proj i : (Fin n → ℝ) →L[ℝ] ℝ).hasFDerivAt

/-- A scalar function of a coordinate. -/
theorem IsGradient.comp {φ : ℝ → ℝ} {φ' : ℝ} {f : (Fin n → ℝ) → ℝ} {a z : Fin n → ℝ} (hφ : HasDerivAt φ φ' (f z))
    (hf : IsGradient f a z) : IsGradient (fun y => φ (f y)) (φ' • a) z := by
  unfold IsGradient; rw [form_smul]; exact hφ.comp_hasFDerivAt z hf

theorem IsGradient.congr_of {f g : (Fin n → ℝ) → ℝ} {a b z : Fin n → ℝ} (h : IsGradient f a z) (e : f = g) (e' : a = b) :
    IsGradient g b z := e ▸ e' ▸ h

/-- Inner products. -/
theorem IsJacobian.dot {F G : (Fin n → ℝ) → Fin m → ℝ} {A B : Matrix (Fin m) (Fin n) ℝ} {z : Fin n → ℝ}
    (hF : IsJacobian F A z) (hG : IsJacobian G B z) :
    IsGradient (fun y => F y ⬝ᵥ G y) (Bᵀ *ᵥ F z + Aᵀ *ᵥ G z) z := by
  refine (IsGradient.sum Finset.univ fun i _ => (hF i).mul (hG i)).congr ?_
  ext j
  simp only [Finset.sum_apply, Pi.add_apply, Pi.smul_apply, smul_eq_mul, Finset.sum_add_distrib, mulVec, dotProduct,
    transpose_apply]
  congr 1 <;> exact Finset.sum_congr rfl fun i _ => mul_comm _ _

/-- Linear images. -/
theorem IsJacobian.mulVec (M : Matrix (Fin k) (Fin m) ℝ) {F : (Fin n → ℝ) → Fin m → ℝ} {A : Matrix (Fin m) (Fin n) ℝ}
    {z : Fin n → ℝ} (hF : IsJacobian F A z) : IsJacobian (fun y => M *ᵥ F y) (M * A) z := by
  intro i
  refine (IsGradient.sum Finset.univ fun j _ => (hF j).smul (M i j)).congr ?_
  ext l
  simp [Matrix.mul_apply]

theorem IsJacobian.add {F G : (Fin n → ℝ) → Fin m → ℝ} {A B : Matrix (Fin m) (Fin n) ℝ} {z : Fin n → ℝ}
    (hF : IsJacobian F A z) (hG : IsJacobian G B z) : IsJacobian (fun y => F y + G y) (A + B) z :=
  fun i => (hF i).add (hG i)

theorem IsJacobian.sub {F G : (Fin n → ℝ) → Fin m → ℝ} {A B : Matrix (Fin m) (Fin n) ℝ} {z : Fin n → ℝ}
    (hF : IsJacobian F A z) (hG : IsJacobian G B z) : IsJacobian (fun y => F y - G y) (A - B) z :=
  fun i => (hF i).sub (hG i)

theorem IsJacobian.smul (c : ℝ) {F : (Fin n → ℝ) → Fin m → ℝ} {A : Matrix (Fin m) (Fin n) ℝ} {z : Fin n → ℝ}
    (hF : IsJacobian F A z) : IsJacobian (fun y => c • F y) (c • A) z := fun i => (hF i).smul c

theorem IsJacobian.const (c : Fin m → ℝ) (z : Fin n → ℝ) : IsJacobian (fun _ => c) 0 z :=
  fun i => IsGradient.const (c i) z

theorem IsJacobian.id (z : Fin n → ℝ) : IsJacobian (fun y => y) (1 : Matrix (Fin n) (Fin n) ℝ) z := by
  intro i
  refine (IsGradient.coord i z).congr ?_
  ext j
  simp [Matrix.one_apply, Pi.single_apply, eq_comm]

theorem IsJacobian.congr {F : (Fin n → ℝ) → Fin m → ℝ} {A B : Matrix (Fin m) (Fin n) ℝ} {z : Fin n → ℝ}
    (hF : IsJacobian F A z) (e : A = B) : IsJacobian F B z := e ▸ hF

theorem IsJacobian.congr_of' {F G : (Fin n → ℝ) → Fin m → ℝ} {A B : Matrix (Fin m) (Fin n) ℝ} {z : Fin n → ℝ}
    (hF : IsJacobian F A z) (e : F = G) (e' : A = B) : IsJacobian G B z := e ▸ e' ▸ hF

/-- Jacobians and the derivative as one linear map. -/
theorem isJacobian_iff (F : (Fin n → ℝ) → Fin m → ℝ) (A : Matrix (Fin m) (Fin n) ℝ) (z : Fin n → ℝ) :
    IsJacobian F A z ↔ HasFDerivAt F (ContinuousLinearMap.pi fun i => form (A i)) z := by
  rw [hasFDerivAt_pi]
  rfl

/-- The chain rule. -/
theorem IsJacobian.comp {F : (Fin m → ℝ) → Fin k → ℝ} {G : (Fin n → ℝ) → Fin m → ℝ} {A : Matrix (Fin k) (Fin m) ℝ}
    {B : Matrix (Fin m) (Fin n) ℝ} {z : Fin n → ℝ} (hF : IsJacobian F A (G z)) (hG : IsJacobian G B z) :
    IsJacobian (fun y => F (G y)) (A * B) z := by
  intro i
  have h := HasFDerivAt.comp z (hF i) ((isJacobian_iff G B z).1 hG)
  refine h.congr_fderiv ?_
  ext v
  simp only [ContinuousLinearMap.comp_apply, form_apply]
  rw [show (A * B) i = Matrix.vecMul (A i) B from rfl, ← Matrix.dotProduct_mulVec]
  congr 1
  funext j
  simp [Matrix.mulVec]

theorem IsJacobian.mulVec_sel {F : (Fin m → ℝ) → Fin k → ℝ} {G : (Fin n → ℝ) → Fin m → ℝ} {A : Matrix (Fin k) (Fin m) ℝ}
    {B : Matrix (Fin m) (Fin n) ℝ} {z : Fin n → ℝ} (hG : IsJacobian G B z) (hF : IsJacobian F A (G z)) :
    IsJacobian (fun y => F (G y)) (A * B) z := hF.comp hG

/-- Derivatives are unique. -/
theorem IsGradient.unique {f : (Fin n → ℝ) → ℝ} {a b z : Fin n → ℝ} (ha : IsGradient f a z) (hb : IsGradient f b z) :
    a = b := by
  have h := HasFDerivAt.unique ha hb
  ext i
  have := congrArg (fun L => L (Pi.single i 1)) h
  simpa using this

theorem IsJacobian.unique {F : (Fin n → ℝ) → Fin m → ℝ} {A B : Matrix (Fin m) (Fin n) ℝ} {z : Fin n → ℝ}
    (hA : IsJacobian F A z) (hB : IsJacobian F B z) : A = B := by
  funext i
  exact (hA i).unique (hB i)

/-! ### Two variables -/

@[simp] theorem fst_append (x : Fin n → ℝ) (u : Fin m → ℝ) : fst (Fin.append x u) = x := by funext i; simp [fst]

@[simp] theorem snd_append (x : Fin n → ℝ) (u : Fin m → ℝ) : snd (Fin.append x u) = u := by funext i; simp [snd]

theorem append_fst_snd (z : Fin (n + m) → ℝ) : Fin.append (fst z) (snd z) = z := by
  funext i
  refine Fin.addCases (fun i => ?_) (fun j => ?_) i <;> simp [fst, snd]

theorem append_add (a a' : Fin n → ℝ) (b b' : Fin m → ℝ) :
    Fin.append a b + Fin.append a' b' = Fin.append (a + a') (b + b') := by
  funext i
  refine Fin.addCases (fun i => ?_) (fun j => ?_) i <;> simp

theorem append_sub (a a' : Fin n → ℝ) (b b' : Fin m → ℝ) :
    Fin.append a b - Fin.append a' b' = Fin.append (a - a') (b - b') := by
  funext i
  refine Fin.addCases (fun i => ?_) (fun j => ?_) i <;> simp

theorem append_smul (c : ℝ) (a : Fin n → ℝ) (b : Fin m → ℝ) :
    c • Fin.append a b = Fin.append (c • a) (c • b) := by
  funext i
  refine Fin.addCases (fun i => ?_) (fun j => ?_) i <;> simp

/-- The selection of the first part. -/
def selFst (n m : ℕ) : Matrix (Fin n) (Fin (n + m)) ℝ := fun i => Pi.single (Fin.castAdd m i) 1

/-- The selection of the second part. -/
def selSnd (n m : ℕ) : Matrix (Fin m) (Fin (n + m)) ℝ := fun j => Pi.single (Fin.natAdd n j) 1

theorem isJacobian_fst (z : Fin (n + m) → ℝ) : IsJacobian fst (selFst n m) z := fun i => IsGradient.coord _ z

theorem isJacobian_snd (z : Fin (n + m) → ℝ) : IsJacobian snd (selSnd n m) z := fun i => IsGradient.coord _ z

theorem castAdd_ne_natAdd (i : Fin n) (j : Fin m) : Fin.castAdd m i ≠ Fin.natAdd n j := by
  intro h
  have := congrArg Fin.val h
  simp at this
  omega

theorem mul_selFst (A : Matrix (Fin k) (Fin n) ℝ) : A * selFst n m = fun i => Fin.append (A i) 0 := by
  funext i l
  rw [Matrix.mul_apply]
  refine Fin.addCases (fun a => ?_) (fun b => ?_) l
  · simp [selFst, Pi.single_apply]
  · simp [selFst, Pi.single_apply, (castAdd_ne_natAdd _ _).symm]

theorem mul_selSnd (A : Matrix (Fin k) (Fin m) ℝ) : A * selSnd n m = fun i => Fin.append 0 (A i) := by
  funext i l
  rw [Matrix.mul_apply]
  refine Fin.addCases (fun a => ?_) (fun b => ?_) l
  · simp [selSnd, Pi.single_apply, castAdd_ne_natAdd]
  · simp [selSnd, Pi.single_apply]

theorem selFst_transpose_mulVec (g : Fin n → ℝ) : (selFst n m)ᵀ *ᵥ g = Fin.append g 0 := by
  funext l
  rw [Matrix.mulVec, dotProduct]
  refine Fin.addCases (fun a => ?_) (fun b => ?_) l
  · simp [selFst, Pi.single_apply]
  · simp [selFst, Pi.single_apply, (castAdd_ne_natAdd _ _).symm]

theorem selSnd_transpose_mulVec (g : Fin m → ℝ) : (selSnd n m)ᵀ *ᵥ g = Fin.append 0 g := by
  funext l
  rw [Matrix.mulVec, dotProduct]
  refine Fin.addCases (fun a => ?_) (fun b => ?_) l
  · simp [selSnd, Pi.single_apply, castAdd_ne_natAdd]
  · simp [selSnd, Pi.single_apply]

/-- Stacking two functions. -/
theorem IsJacobian.append {p q : ℕ} {F : (Fin k → ℝ) → Fin p → ℝ} {G : (Fin k → ℝ) → Fin q → ℝ}
    {A : Matrix (Fin p) (Fin k) ℝ} {B : Matrix (Fin q) (Fin k) ℝ} {z : Fin k → ℝ} (hF : IsJacobian F A z)
    (hG : IsJacobian G B z) : IsJacobian (fun y => Fin.append (F y) (G y)) (Fin.append A B) z := by
  intro i
  refine Fin.addCases (fun a => ?_) (fun b => ?_) i
  · refine IsGradient.congr (g := A a) ?_ (Fin.append_left A B a).symm
    simpa using hF a
  · refine IsGradient.congr (g := B b) ?_ (Fin.append_right A B b).symm
    simpa using hG b

/-- An affine function of two variables. -/
theorem isJacobian_affine₂ (A : Matrix (Fin k) (Fin n) ℝ) (B : Matrix (Fin k) (Fin m) ℝ) (c : Fin k → ℝ)
    (z : Fin (n + m) → ℝ) :
    IsJacobian (fun z => A *ᵥ fst z + B *ᵥ snd z + c) (fun i => Fin.append (A i) (B i)) z := by
  refine ((((isJacobian_fst z).mulVec A).add ((isJacobian_snd z).mulVec B)).add (IsJacobian.const c z)).congr ?_
  rw [mul_selFst, mul_selSnd]
  funext i
  show (Fin.append (A i) 0 + Fin.append 0 (B i)) + 0 = _
  rw [append_add]; simp

/-- A Hessian is unique. -/
theorem IsHessian.unique {f : (Fin n → ℝ) → ℝ} {H H' : Matrix (Fin n) (Fin n) ℝ} {z : Fin n → ℝ}
    (h : IsHessian f H z) (h' : IsHessian f H' z) : H = H' := by
  obtain ⟨g, hg, hH⟩ := h
  obtain ⟨g', hg', hH'⟩ := h'
  have e : g =ᶠ[nhds z] g' := by
    filter_upwards [hg, hg'] with y h1 h2 using h1.unique h2
  refine hH.unique fun i => ?_
  have := hH' i
  exact HasFDerivAt.congr_of_eventuallyEq this (by filter_upwards [e] with y hy; rw [hy])

end Aligator.Deriv
