import Verif.Model.Lagrangian
import Verif.Spec.Lagrangian
import Mathlib.Tactic

/-! # Lemmas: closed form of the Lagrangian gradient -/

namespace Aligator.Lag

open Matrix CSets Spec

variable {nx nu : ℕ → ℕ} {N : ℕ}

/-- Sum of the constraint contributions to the state gradient. -/
def cstrX {n m : ℕ} (v : List ℝ) : List (CstrData n m) → ℕ → (Fin n → ℝ)
  | [], _ => 0
  | c :: cs, s => c.Jxᵀ *ᵥ slice v s c.dim + cstrX v cs (s + c.dim)

/-- Sum of the constraint contributions to the control gradient. -/
def cstrU {n m : ℕ} (v : List ℝ) : List (CstrData n m) → ℕ → (Fin m → ℝ)
  | [], _ => 0
  | c :: cs, s => c.Juᵀ *ᵥ slice v s c.dim + cstrU v cs (s + c.dim)

theorem cstrLoop_eq (i : ℕ) (v : List ℝ) (cs : List (CstrData (nx i) (nu i))) (s : ℕ) (g : Grad nx nu) :
    cstrLoop i v cs s g = (g.addX i (cstrX v cs s)).addU i (cstrU v cs s) := by
  induction cs generalizing s g with
  | nil => simp [cstrLoop, cstrX, cstrU, Grad.addX, Grad.addU]
  | cons c cs ih =>
    rw [cstrLoop, ih]
    simp [cstrX, cstrU, Grad.addX, Grad.addU, add_assoc]

theorem termLoop_eq (N : ℕ) (v : List ℝ) (cs : List (CstrData (nx N) 0)) (s : ℕ) (g : Grad nx nu) :
    termLoop N v cs s g = g.addX N (cstrX v cs s) := by
  induction cs generalizing s g with
  | nil => simp [termLoop, cstrX, Grad.addX]
  | cons c cs ih =>
    rw [termLoop, ih]
    simp [cstrX, Grad.addX, add_assoc]

/-- What enters `Lxs[i]` before the stage `i` is processed. -/
def base (pd : ProbData nx nu N) (lams : Option (Lams nx pd.nc0)) : ∀ i, Fin (nx i) → ℝ
  | 0 => match lams with | some l => pd.initJxᵀ *ᵥ l.init | none => 0
  | i + 1 => match lams with | some l => -l.dyn i | none => 0

/-- Contribution of the dynamics to the state gradient. -/
def dynX (pd : ProbData nx nu N) (lams : Option (Lams nx pd.nc0)) (i : ℕ) : Fin (nx i) → ℝ :=
  match lams with | some l => (pd.fx i)ᵀ *ᵥ l.dyn i | none => 0

/-- Contribution of the dynamics to the control gradient. -/
def dynU (pd : ProbData nx nu N) (lams : Option (Lams nx pd.nc0)) (i : ℕ) : Fin (nu i) → ℝ :=
  match lams with | some l => (pd.fu i)ᵀ *ᵥ l.dyn i | none => 0

theorem stageStep_eq (pd : ProbData nx nu N) (lams : Option (Lams nx pd.nc0)) (vs : ℕ → List ℝ) (g : Grad nx nu) (i : ℕ) :
    stageStep pd lams vs g i =
      ⟨Function.update (Function.update g.Lxs i (g.Lxs i + (pd.Lx i + dynX pd lams i + cstrX (vs i) (pd.cstr i) 0)))
          (i + 1) (base pd lams (i + 1)),
        Function.update g.Lus i (pd.Lu i + dynU pd lams i + cstrU (vs i) (pd.cstr i) 0)⟩ := by
  cases lams <;>
    simp [stageStep, cstrLoop_eq, Grad.addX, Grad.addU, Grad.setX, Grad.setU, dynX, dynU, base, add_assoc]

theorem loop_inv (pd : ProbData nx nu N) (lams : Option (Lams nx pd.nc0)) (vs : ℕ → List ℝ) (k : ℕ) (g0 : Grad nx nu)
    (h0 : g0.Lxs 0 = base pd lams 0) :
    let g := (List.range k).foldl (stageStep pd lams vs) g0
    g.Lxs k = base pd lams k ∧
    (∀ i, i < k → g.Lxs i = base pd lams i + (pd.Lx i + dynX pd lams i + cstrX (vs i) (pd.cstr i) 0)) ∧
    (∀ i, i < k → g.Lus i = pd.Lu i + dynU pd lams i + cstrU (vs i) (pd.cstr i) 0) := by
  induction k with
  | zero => exact ⟨h0, by simp, by simp⟩
  | succ k ih =>
    obtain ⟨h1, h2, h3⟩ := ih
    simp only [List.range_succ, List.foldl_append, List.foldl_cons, List.foldl_nil]
    rw [stageStep_eq]
    refine ⟨by simp, fun i hi => ?_, fun i hi => ?_⟩
    · dsimp only
      rw [Function.update_of_ne (by omega)]
      by_cases hik : i = k
      · subst hik; rw [Function.update_self, h1]
      · rw [Function.update_of_ne hik, h2 i (by omega)]
    · dsimp only
      by_cases hik : i = k
      · subst hik; rw [Function.update_self]
      · rw [Function.update_of_ne hik, h3 i (by omega)]

theorem compute_eq (pd : ProbData nx nu N) (lams : Option (Lams nx pd.nc0)) (vs : ℕ → List ℝ) :
    (∀ i, i < N → (compute pd lams vs).Lxs i =
      base pd lams i + (pd.Lx i + dynX pd lams i + cstrX (vs i) (pd.cstr i) 0)) ∧
    (compute pd lams vs).Lxs N = base pd lams N + (pd.termLx + cstrX (vs N) pd.termCstr 0) ∧
    (∀ i, i < N → (compute pd lams vs).Lus i = pd.Lu i + dynU pd lams i + cstrU (vs i) (pd.cstr i) 0) := by
  obtain ⟨h1, h2, h3⟩ := loop_inv pd lams vs N (match lams with
    | some l => Grad.setX ⟨fun _ => 0, fun _ => 0⟩ 0 (pd.initJxᵀ *ᵥ l.init)
    | none => ⟨fun _ => 0, fun _ => 0⟩) (by cases lams <;> simp [base, Grad.setX])
  unfold compute
  simp only [termLoop_eq, Grad.addX]
  refine ⟨fun i hi => ?_, ?_, fun i hi => h3 i hi⟩
  · rw [Function.update_of_ne (by omega), Function.update_of_ne (by omega)]; exact h2 i hi
  · rw [Function.update_self, Function.update_self]
    exact (congrArg (fun w => w + pd.termLx + cstrX (vs N) pd.termCstr 0) h1).trans (add_assoc _ _ _)

end Aligator.Lag
