import Verif.Props.Solver

/-!
# Properties: the `PRIMAL_DUAL` multiplier update mode (C56, continued)

The estimate that this mode assigns is a buffer no statement fills: after the first successful outer iteration the
multiplier estimate is zero for good.
-/

namespace Aligator.Link

open Matrix CSets Lag LQ

variable {nx nu : ℕ → ℕ} {N : ℕ}

/-- All blocks of the estimate are zero. -/
def ZeroV (P : Prob nx nu N) (v : ℕ → List ℝ) : Prop := ∀ i, i ≤ N → v i = List.replicate (P.nc i) 0

theorem ZeroV.shape {P : Prob nx nu N} {v : ℕ → List ℝ} (h : ZeroV P v) : Shape P v := fun i hi => by simp [h i hi]

theorem zipWith_add_zero (l : List ℝ) (mu : ℝ) (n : ℕ) (h : l.length = n) :
    List.zipWith (· + ·) l ((List.replicate n 0).map (mu * ·)) = l := by
  subst h
  induction l with
  | nil => rfl
  | cons x l ih => simpa [List.replicate_succ] using ih

/-- With a zero estimate the new estimate is the infeasibility over the penalty parameter, for every set. -/
theorem vsPlus_of_zero {P : Prob nx nu N} {S : Setup} {C : ℕ → List ℝ → Prop} (hS : S.Fits P C) {mu : ℝ} (hmu : 0 < mu)
    {v : ℕ → List ℝ} (hv : ZeroV P v) (it : Iter nx nu P.nc0) (hx : Shape P it.vs) {i : ℕ} (hi : i ≤ N) :
    (((mult P S mu v it).1.ms i).vsPlus).map (mu * ·) = ((mult P S mu v it).1.ms i).infeas := by
  obtain ⟨z, hz, -, -, hmz, -, hinf, -, -⟩ := C26_multiplier_update (hS.proj i hi) mu hmu
    ((P.values it.x it.u).c i) (v i) (it.vs i) (S.out i) [] (values_c_length P _ _ i) (hv.shape i hi) (hx i hi) (hS.out i hi)
  have e1 : ((mult P S mu v it).1.ms i).infeas = CSets.Spec.sub ((P.values it.x it.u).c i) z := hinf
  have e2 : (((mult P S mu v it).1.ms i).vsPlus).map (mu * ·) = CSets.Spec.sub
      (List.zipWith (· + ·) ((P.values it.x it.u).c i) ((v i).map (mu * ·))) z := hmz
  rw [e1, e2, hv i hi, zipWith_add_zero _ _ _ (values_c_length P _ _ i)]

/-- **C56** (negative): with `PRIMAL_DUAL` updates and no multipliers in the guess the method is a pure penalty method.
Whenever ProxDDP reports convergence, on any problem and any sets, every returned multiplier is at most the tolerance
plus the last inner criterion, over the penalty parameter; a problem whose multipliers are larger than that is never
reported as solved. -/
theorem C56_primal_dual_multipliers_bounded {p : ProxDDP.Params} (hm : 0 < p.muLb) (P : Prob nx nu N) (S : Setup)
    {C : ℕ → List ℝ → Prop} (hS : S.Fits P C) (hmode : S.mode = .primalDual)
    (orc : ProxDDP.St (Iter nx nu P.nc0) (ℕ → List ℝ) (WS nx P.nc0) → ProxDDP.StepOutcome (Iter nx nu P.nc0))
    (hne : ∀ s d a, orc s ≠ .step d [] a)
    (ho : ∀ s d l a, Shape P s.x.vs → orc s = .step d l a → ∀ t ∈ l, Shape P t.vs)
    (fuel : ℕ) (v0 : ℕ → List ℝ) (s0 s : ProxDDP.St (Iter nx nu P.nc0) (ℕ → List ℝ) (WS nx P.nc0)) (hv : ZeroV P v0)
    (hx : Shape P s0.x.vs) (h : ProxDDP.run p (env P S orc) fuel v0 s0 = .done true s) :
    0 < s.mu ∧ ∀ i, i ≤ N → ∀ k, |(s.x.vs i).getD k 0| ≤ (p.targetTol + s.crit) / s.mu := by
  have he : (env P S orc).Regular := ⟨fun _ _ _ => rfl, hne⟩
  obtain ⟨hsx, hmu, hcrit, v, hvs, hmult⟩ := ProxDDP.run_inv hm he (fun it : Iter nx nu P.nc0 => Shape P it.vs) (ZeroV P)
    ho (by
      intro mu v it hv hit
      show ZeroV P (nextV S it (mult P S mu v it).1)
      unfold nextV
      rw [hmode]
      exact fun i hi => by show List.replicate (S.nc i) 0 = _; rw [hS.nc i hi]) hx hv h
  obtain ⟨hprim, -, -⟩ := ProxDDP.C16_true_only_at_tolerances p _ fuel v0 s0 s h
  have hmult' : mult P S s.mu v s.x = (s.ws, some s.prim) := hmult
  have hws : s.ws = (mult P S s.mu v s.x).1 := by rw [hmult']
  have hpe : s.prim = primInfeas N (fun i => (s.ws.ms i).infeas) (slacks s.ws.V) := by
    have := congrArg Prod.snd hmult'
    rw [hws]
    exact (Option.some.inj this).symm
  refine ⟨hmu, fun i hi k => ?_⟩
  have hl : ((s.ws.ms i).vsPlus).length = P.nc i := by rw [hws]; exact vsPlus_length hS s.mu hvs.shape s.x hi
  have e2 : ∀ l : List ℝ, (l.map (s.mu * ·)).getD k 0 = s.mu * l.getD k 0 := by
    intro l
    have := List.getD_map (f := (s.mu * ·)) (l := l) (n := k) (d := 0)
    simpa using this
  have h1 : |s.mu * ((s.ws.ms i).vsPlus).getD k 0| ≤ p.targetTol := by
    have e := vsPlus_of_zero hS hmu hvs s.x hsx hi
    rw [← hws] at e
    rw [← e2, e]
    refine (getD_le_infNorm _ k).trans ?_
    exact ((prim_bounds (inf := fun i => (s.ws.ms i).infeas) (sl := slacks s.ws.V) i hi).1).trans (hpe ▸ hprim)
  have h2 : |s.mu * ((s.ws.ms i).vsPlus).getD k 0 - s.mu * (s.x.vs i).getD k 0| ≤ s.crit := by
    have hb : infNorm ((s.ws.ms i).Lvs) ≤ s.crit := by
      rw [hcrit]
      exact inner_bounds (g := gradAt P S.force s.x) (sl := slacks s.ws.V) (Lv := fun i => (s.ws.ms i).Lvs) i hi
    refine le_trans ?_ ((getD_le_infNorm _ k).trans hb)
    have e1 : (s.ws.ms i).Lvs = CSets.Spec.sub ((s.ws.ms i).vsPlus.map (s.mu * ·)) ((s.x.vs i).map (s.mu * ·)) := by
      rw [hws]
      show List.zipWith (· - ·) _ _ = List.zipWith (· - ·) _ _
      congr 1
      show _ = (((S.op i).normalConeProjection _ (S.out i)).map (1 / s.mu * ·)).map (s.mu * ·)
      rw [map_inv_mul s.mu hmu.ne']
    rw [e1, getD_sub (by simp [hl, hsx i hi]), e2, e2]
  rw [le_div_iff₀ hmu, mul_comm]
  have h3 : s.mu * |(s.x.vs i).getD k 0| = |s.mu * (s.x.vs i).getD k 0| := by rw [abs_mul, abs_of_pos hmu]
  rw [h3]
  have := abs_sub_abs_le_abs_sub (s.mu * (s.x.vs i).getD k 0) (s.mu * ((s.ws.ms i).vsPlus).getD k 0)
  rw [abs_sub_comm] at this
  linarith

/-- The warm start of `Props.Solver` meets the hypotheses: it converges with multiplier `-1`, and the bound is tight
up to the tolerance (`mu = 0.01`, inner criterion `0.01`). -/
example (orc) (hne : ∀ s d a, orc s ≠ .step d [] a)
    (ho : ∀ s d l a, Shape wit s.x.vs → orc s = .step d l a → ∀ t ∈ l, Shape wit t.vs) :
    ∃ s, ProxDDP.run ProxDDP.defaultParams (env wit (eqSetupM .primalDual) orc) 1 witIter.vs { witSt with x := eqIter } =
        .done true s ∧ ∀ i, i ≤ 1 → ∀ k, |(s.x.vs i).getD k 0| ≤ (1e-6 + s.crit) / s.mu := by
  obtain ⟨s, h⟩ := eq_run .primalDual orc
  refine ⟨s, h, (C56_primal_dual_multipliers_bounded (p := ProxDDP.defaultParams) (by norm_num [ProxDDP.defaultParams]) wit
    (eqSetupM .primalDual) (C := eqC) ⟨eq_fits.proj, eq_fits.out, eq_fits.nc⟩ rfl orc hne ho 1 witIter.vs _ s ?_ ?_ h).2⟩
  · intro i hi; interval_cases i <;> rfl
  · intro i hi; interval_cases i <;> rfl

end Aligator.Link
