import Verif.Props.ProxDDP

/-!
# The tolerance and penalty schedule of ProxDDP's outer loop (C55)
-/

namespace Aligator.ProxDDP

variable {X V W : Type}

/-- What the documented schedule allows at the head of an outer iteration: the primal tolerance is the value
`prim_tol0 * m^alpha` set at the last failure (with penalty `m`), tightened `k` times by `mu^beta`, clamped at the
target; `m` is the present penalty unless the penalty has just been reset to its initial value because `m` had
come close to the lower bound. -/
def OnSchedule (p : Params) (s : St X V W) : Prop :=
  ∃ (m : ℝ) (k : ℕ),
    s.primTol = max (p.primTol0 * (min m 0.99) ^ p.primAlpha * ((min s.mu 0.99) ^ p.primBeta) ^ k) p.targetTol ∧
    (m = s.mu ∨ (s.mu = max p.muInit p.muLb ∧ |m - p.muLb| < p.closeEps * (1 + max |m| |p.muLb|)))

theorem tighten_count (p : Params) (fuel : ℕ) (s s' : St X V W) (h : tighten p fuel s = some s') :
    ∃ j, 1 ≤ j ∧ s'.mu = s.mu ∧ s'.primTol = s.primTol * ((min s.mu 0.99) ^ p.primBeta) ^ j ∧
      s'.innerTol = s.innerTol * ((min s.mu 0.99) ^ p.dualBeta) ^ j ∧ s'.crit = s.crit ∧
      ¬ s.crit < s'.innerTol ∧
      ∀ i, 1 ≤ i → i < j → s.crit < s.innerTol * ((min s.mu 0.99) ^ p.dualBeta) ^ i := by
  induction fuel generalizing s with
  | zero => cases h
  | succ n ih =>
    simp only [tighten] at h
    split at h
    · rename_i hlt
      obtain ⟨j, hj, h1, h2, h3, h4, h5, h6⟩ := ih _ h
      refine ⟨j + 1, by omega, h1, ?_, ?_, h4, h5, ?_⟩
      · rw [h2]; simp only [updateTolsOnSuccess]; rw [pow_succ]; ring
      · rw [h3]; simp only [updateTolsOnSuccess]; rw [pow_succ]; ring
      · intro i hi hij
        rcases Nat.lt_or_ge 1 i with h1i | h1i
        · have := h6 (i - 1) (by omega) (by omega)
          simp only [updateTolsOnSuccess] at this
          obtain ⟨m, rfl⟩ : ∃ m, i = m + 1 := ⟨i - 1, by omega⟩
          simp only [Nat.add_sub_cancel] at this
          rw [pow_succ]
          calc s.crit < _ := this
            _ = _ := by ring
        · have : i = 1 := by omega
          subst this
          simpa only [updateTolsOnSuccess, pow_one] using hlt
    · rename_i hlt
      injection h with h
      subst h
      refine ⟨1, le_rfl, rfl, by rw [pow_one]; rfl, by rw [pow_one]; rfl, rfl, ?_, fun i hi hij => by omega⟩
      exact hlt

/-- **C55** At the head of every outer iteration of every run the primal tolerance is on the schedule. -/
theorem C55_primal_tolerance_on_schedule (p : Params) (hp : p.Valid) (hb : 0 ≤ p.primBeta)
    (ht : 0 ≤ p.targetTol) {e : Env X V W} {fuel : ℕ} {v0 : V} {s0 : St X V W} {n : ℕ} {s : St X V W}
    (h : Head p e fuel v0 s0 n s) : OnSchedule p s := by
  induction h with
  | start => exact ⟨max p.muInit p.muLb, 0, by simp [initRun, updateTolsOnFailure, setAlmPenalty], Or.inl rfl⟩
  | @success n s s1 s2 h hi h1 hp' h2 hc ih =>
    obtain ⟨m, k, e1, e2⟩ := ih
    have hk := innerLoop_keeps (p := p) (e := e) s
    rw [h1] at hk
    have hk1 : s1.primTol = s.primTol := hk.1
    have hk2 : s1.mu = s.mu := hk.2
    obtain ⟨j, hj, t1, t2, -⟩ := tighten_count p fuel _ _ h2
    rw [hk2] at t1 t2
    rw [hk1, e1] at t2
    have hmu : 0 < s.mu := hp.muLb.trans_le (head_inv hp h).mu0
    have hc0 : 0 < min s.mu 0.99 := lt_min hmu (by norm_num)
    have hc : (min s.mu 0.99) ^ p.primBeta ≤ 1 :=
      Real.rpow_le_one hc0.le ((min_le_right _ _).trans (by norm_num)) hb
    have hc' : 0 ≤ (min s.mu 0.99) ^ p.primBeta := (Real.rpow_pos_of_pos hc0 _).le
    refine ⟨m, k + j, ?_, ?_⟩
    · simp only [clamp]
      rw [t2, t1, max_mul_of_nonneg _ _ (pow_nonneg hc' j), max_assoc,
        max_eq_right (a := p.targetTol * _) (mul_le_of_le_one_right ht (pow_le_one₀ hc' hc)), mul_assoc,
        ← pow_add]
    · simp only [clamp]
      rw [t1]; exact e2
  | @failure n s s1 h hi h1 hp' ih =>
    refine ⟨max (s1.mu * p.muFactor) p.muLb, 0, ?_, ?_⟩
    · rw [pow_zero, mul_one]
      unfold onFailure clamp
      dsimp only
      split <;> rfl
    · unfold onFailure clamp
      dsimp only
      split
      · rename_i hcl
        right
        refine ⟨rfl, ?_⟩
        simp only [scalarClose, decide_eq_true_eq] at hcl
        exact hcl
      · exact Or.inl rfl

/-- **C55** The penalty and the inner tolerance after an outer iteration. An iteration meeting the current primal
tolerance leaves the penalty alone and tightens the inner tolerance just below the criterion reached; one that
does not decreases the penalty by the factor (not below its bound), or resets it when the bound is reached, and
restarts the inner tolerance at `inner_tol0 * penalty^alpha`. -/
theorem C55_step (p : Params) (e : Env X V W) (fuel : ℕ) (n : ℕ) (s s1 : St X V W)
    (hi : s.numIters < p.maxIters) (h1 : innerLoop p e s = .done true s1) :
    (s1.prim ≤ s1.primTol → tighten p fuel s1 = none ∨
      (∃ s2, outer p e fuel (n + 1) s = .done true s2 ∧ s2.mu = s.mu) ∨
      ∃ s2 j, outer p e fuel (n + 1) s = outer p e fuel n s2 ∧ s2.mu = s.mu ∧ 1 ≤ j ∧
        s2.innerTol = max (s1.innerTol * ((min s.mu 0.99) ^ p.dualBeta) ^ j) (0.01 * p.targetDual) ∧
        s1.innerTol * ((min s.mu 0.99) ^ p.dualBeta) ^ j ≤ s1.crit ∧
        ∀ i, 1 ≤ i → i < j → s1.crit < s1.innerTol * ((min s.mu 0.99) ^ p.dualBeta) ^ i) ∧
    (¬ s1.prim ≤ s1.primTol → ∃ s2, outer p e fuel (n + 1) s = outer p e fuel n s2 ∧
      (s2.mu = max (s.mu * p.muFactor) p.muLb ∨
        (s2.mu = max p.muInit p.muLb ∧ |max (s.mu * p.muFactor) p.muLb - p.muLb| <
          p.closeEps * (1 + max |max (s.mu * p.muFactor) p.muLb| |p.muLb|))) ∧
      s2.innerTol = max (p.innerTol0 * (min (max (s.mu * p.muFactor) p.muLb) 0.99) ^ p.dualAlpha)
        (0.01 * p.targetDual) ∧
      s2.primTol = max (p.primTol0 * (min (max (s.mu * p.muFactor) p.muLb) 0.99) ^ p.primAlpha)
        p.targetTol) := by
  have hk := innerLoop_keeps (p := p) (e := e) s
  rw [h1] at hk
  have hk2 : s1.mu = s.mu := hk.2
  constructor
  · intro hp
    cases h2 : tighten p fuel s1 with
    | none => exact Or.inl rfl
    | some s2 =>
      right
      obtain ⟨j, hj, t1, t2, t3, t4, t5, t6⟩ := tighten_count p fuel _ _ h2
      rw [hk2] at t1 t3 t6
      rw [outer, if_pos hi, h1]
      dsimp only
      rw [if_pos hp, h2]
      dsimp only
      split
      · exact Or.inl ⟨_, rfl, t1⟩
      · refine Or.inr ⟨_, j, rfl, t1, hj, ?_, ?_, t6⟩
        · simp only [clamp]; rw [t3]
        · rw [← t3]; exact not_lt.1 t5
  · intro hp
    rw [outer, if_pos hi, h1]
    dsimp only
    rw [if_neg hp]
    refine ⟨_, rfl, ?_, ?_, ?_⟩
    · rw [← hk2]
      unfold onFailure clamp
      dsimp only
      split
      · rename_i hcl
        right
        refine ⟨rfl, ?_⟩
        simp only [scalarClose, decide_eq_true_eq] at hcl
        exact hcl
      · exact Or.inl rfl
    · rw [← hk2]
      unfold onFailure clamp
      dsimp only
      split <;> rfl
    · rw [← hk2]
      unfold onFailure clamp
      dsimp only
      split <;> rfl

/-- The hypotheses hold for the default parameters, for every environment at the start of the run. -/
example (e : Env X V W) (fuel : ℕ) (v0 : V) (s0 : St X V W) :
    OnSchedule defaultParams (initRun defaultParams v0 s0) :=
  C55_primal_tolerance_on_schedule (n := defaultParams.maxAlIters) (fuel := fuel) (e := e) (s0 := s0) defaultParams
    defaultParams_valid (by norm_num [defaultParams]) (by norm_num [defaultParams]) Head.start

end Aligator.ProxDDP
