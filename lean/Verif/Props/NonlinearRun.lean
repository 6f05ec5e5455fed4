import Verif.Props.NonlinearRollout

/-!
# Whole runs with nonlinear rollouts (C58)
-/

namespace Aligator.NLRoll

open Matrix Spec Link ProxDDP Lag LQ CSets

section run

variable {nx nu : ℕ → ℕ} {N : ℕ} (P : Prob nx nu N) (S : Setup)
  (search : St (NLIter nx nu P.nc0) (ℕ → CSets.Vec) (WS nx P.nc0) → Search)
  (solve : St (NLIter nx nu P.nc0) (ℕ → CSets.Vec) (WS nx P.nc0) → Option (Gains nx nu S.nc × VWork nx nu S.nc P.nc0))

/-- Numbers of multipliers, and the dynamics once a step has been taken. -/
structure HeadNL (s : St (NLIter nx nu P.nc0) (ℕ → CSets.Vec) (WS nx P.nc0)) : Prop where
  vs : Shape P s.x.it.vs
  prevV : Shape P s.prevV
  mu : 0 < s.mu
  dyn : 0 < s.numIters → Dynamics P.f N s.x.it.x s.x.it.u

/-- One inner loop of a run: what it keeps and what it records. -/
theorem innerLoopNL_inv {C : ℕ → List ℝ → Prop} (hS : S.Fits P C) (p : Params)
    (hne : ∀ s phi0 dphi0 phi a, search s phi0 dphi0 phi ≠ some (a, []))
    {s s' : St (NLIter nx nu P.nc0) (ℕ → CSets.Vec) (WS nx P.nc0)} (hs : HeadNL P s)
    (h : innerLoopNL P p (envNL P S (oracleNL P S search solve)) s = .done true s') :
    HeadNL P s' ∧ s'.crit = (envNL P S (oracleNL P S search solve)).innerCrit s'.x s'.ws ∧
      multNL P S s'.mu s'.prevV s'.x = (s'.ws, some s'.prim) ∧ s'.prevV = s.prevV ∧
      s'.dual = (envNL P S (oracleNL P S search solve)).dualInf s'.x ∧ s'.x.init = P.h (s.x.it.x 0) ∧
      (S.force = true → s'.x.it.x 0 = s.x.it.x 0) := by
  have he := regularNL P S search solve hne
  have step : ∀ (s1 : St (NLIter nx nu P.nc0) (ℕ → CSets.Vec) (WS nx P.nc0)) d l a, oracleNL P S search solve s1 = .step d l a →
      ∀ t ∈ l, Shape P t.it.vs ∧ Dynamics P.f N t.it.x t.it.u ∧ t.init = s1.x.init ∧
        (S.force = true → t.it.x 0 = s1.x.it.x 0) := by
    intro s1 d l a ho t ht
    obtain ⟨g, w, calls, b, phi0, phi, -, -, -, rfl⟩ := oracleNL_trial P S search solve ho t ht
    refine ⟨fun i hi => ?_, C58_trial_satisfies_dynamics (vecSys P.f) N _ g _ b, rfl, fun hf => ?_⟩
    · show (List.ofFn _).length = _
      rw [List.length_ofFn]
      exact hS.nc i hi
    · rw [if_pos hf]
      show (rollout (vecSys P.f) N (toTraj S.nc s1.x.it) g _ b).trial.x 0 = _
      rw [rollout_eq]
      simp only [closed, Nat.zero_le, if_true]
      show s1.x.it.x 0 + b • Function.update w.dx 0 0 0 = _
      simp
  obtain ⟨h1, h2, h3, h4, h5⟩ := innerLoop_inv' he (fun x : NLIter nx nu P.nc0 => Shape P x.it.vs)
    (fun s1 d l a _ ho t ht => (step s1 d l a ho t ht).1) (s := { s with x := refresh P s.x }) hs.vs h
  obtain ⟨-, hn, h6⟩ := innerLoop_track he (fun x k => (0 < s.numIters + k → Dynamics P.f N x.it.x x.it.u) ∧
      x.init = P.h (s.x.it.x 0) ∧ (S.force = true → x.it.x 0 = s.x.it.x 0))
    (fun s1 d l a k hj ho t ht => by
      obtain ⟨-, i1, i2, i3⟩ := step s1 d l a ho t ht
      exact ⟨fun _ => i1, i2.trans hj.2.1, fun hf => (i3 hf).trans (hj.2.2 hf)⟩)
    (s := { s with x := refresh P s.x }) ⟨hs.dyn, rfl, fun _ => rfl⟩ h
  have h7 := h6.resolve_right (by rintro ⟨h, -⟩; cases h)
  have hn' : s.numIters ≤ s'.numIters := hn
  refine ⟨⟨h1, h5 ▸ hs.prevV, h4 ▸ hs.mu, fun h0 => h7.1 ?_⟩, h2, h3, h5, innerIter_dual p _ _ _ s' h, h7.2.1, h7.2.2⟩
  show 0 < s.numIters + (s'.numIters - s.numIters)
  omega

theorem vsPlusNL_length {C : ℕ → List ℝ → Prop} (hS : S.Fits P C) (mu : ℝ) {v : ℕ → List ℝ} (hv : Shape P v)
    (x : NLIter nx nu P.nc0) {i : ℕ} (hi : i ≤ N) : (((multNL P S mu v x).1.ms i).vsPlus).length = P.nc i :=
  vsPlus_length hS mu hv x.it hi

/-- **C58** A run with nonlinear rollouts does not give up early: when it reports that it has not converged, all iterations or
all outer iterations are used up, or a step at the least step length was met with the largest regularisation. -/
theorem C58_run_false_reasons (p : Params) (e : Env (NLIter nx nu P.nc0) (ℕ → CSets.Vec) (WS nx P.nc0)) (fuel : ℕ)
    (v0 : ℕ → List ℝ) (s0 s : St (NLIter nx nu P.nc0) (ℕ → CSets.Vec) (WS nx P.nc0))
    (h : runNL P p e fuel v0 s0 = .done false s) :
    s.numIters = p.maxIters ∨ s.alIter = p.maxAlIters ∨ p.regMax ≤ s.preg := by
  suffices H : ∀ n sH, sH.alIter + n = p.maxAlIters → sH.numIters ≤ p.maxIters → outerNL P p e fuel n sH = .done false s →
      s.numIters = p.maxIters ∨ s.alIter = p.maxAlIters ∨ p.regMax ≤ s.preg from
    H _ (initRun p v0 s0) (Nat.zero_add _) (Nat.zero_le _) h
  clear h
  intro n
  induction n with
  | zero => intro sH h1 _ h; cases h; exact .inr (.inl (by omega))
  | succ n ih =>
    intro sH h1 h2 h
    unfold outerNL at h
    split at h
    · have hc := innerLoop_counters (p := p) (e := e) (s := { sH with x := refresh P sH.x }) h2
      change (innerLoopNL P p e sH).st.alIter = sH.alIter ∧ _ at hc
      change _ ∧ (innerLoopNL P p e sH).st.numIters ≤ _ at hc
      split at h
      · cases h
      · cases h
      · rename_i s1 hi
        cases h
        have := innerLoop_false p e { sH with x := refresh P sH.x } s1 h2 hi
        rcases this.1 with h | h
        · exact .inl h
        · exact .inr (.inr h)
      · rename_i s1 hi
        rw [hi] at hc
        have hc1 : s1.alIter = sH.alIter := hc.1
        have hc2 : s1.numIters ≤ p.maxIters := hc.2
        split at h
        · split at h
          · cases h
          · rename_i s2 ht
            obtain ⟨a, b, rfl⟩ := tighten_fields p fuel s1 s2 ht
            dsimp only at h
            split at h
            · cases h
            · refine ih _ ?_ ?_ h
              · show s1.alIter + 1 + n = _
                omega
              · exact hc2
        · have e1 : (clamp p (onFailure p s1)).alIter = s1.alIter + 1 := by
            unfold onFailure clamp; dsimp only; split <;> rfl
          have e2 : (clamp p (onFailure p s1)).numIters = s1.numIters := by
            unfold onFailure clamp; dsimp only; split <;> rfl
          refine ih _ ?_ ?_ h
          · omega
          · omega
    · cases h
      exact .inl (by omega)

/-- The last inner loop of a run that reports convergence. -/
theorem runNL_last {p : Params} (hm : 0 < p.muLb) {C : ℕ → List ℝ → Prop} (hS : S.Fits P C)
    (hne : ∀ s phi0 dphi0 phi a, search s phi0 dphi0 phi ≠ some (a, []))
    (fuel : ℕ) (v0 : ℕ → List ℝ) (s0 s : St (NLIter nx nu P.nc0) (ℕ → CSets.Vec) (WS nx P.nc0)) (hv : Shape P v0)
    (hx : Shape P s0.x.it.vs) (h : runNL P p (envNL P S (oracleNL P S search solve)) fuel v0 s0 = .done true s) :
    ∃ sE s1, HeadNL P sE ∧ innerLoopNL P p (envNL P S (oracleNL P S search solve)) sE = .done true s1 ∧
      s1.prim ≤ p.targetTol ∧ s1.dual ≤ p.targetDual ∧ s.x = s1.x ∧ s.numIters = s1.numIters ∧ s.mu = s1.mu ∧ s.crit = s1.crit ∧
      (S.force = true → sE.x.it.x 0 = s0.x.it.x 0) := by
  suffices H : ∀ n sH, HeadNL P sH → (S.force = true → sH.x.it.x 0 = s0.x.it.x 0) →
      outerNL P p (envNL P S (oracleNL P S search solve)) fuel n sH = .done true s →
      ∃ sE s1, HeadNL P sE ∧ innerLoopNL P p (envNL P S (oracleNL P S search solve)) sE = .done true s1 ∧
        s1.prim ≤ p.targetTol ∧ s1.dual ≤ p.targetDual ∧ s.x = s1.x ∧ s.numIters = s1.numIters ∧ s.mu = s1.mu ∧ s.crit = s1.crit ∧
        (S.force = true → sE.x.it.x 0 = s0.x.it.x 0) from
    H _ (initRun p v0 s0) ⟨hx, hv, hm.trans_le (le_max_right _ _), fun h0 => absurd h0 (lt_irrefl 0)⟩ (fun _ => rfl) h
  clear h
  intro n
  induction n with
  | zero => intro sH _ _ h; cases h
  | succ n ih =>
    intro sH hh hfo h
    unfold outerNL at h
    split at h
    · split at h
      · cases h
      · cases h
      · cases h
      · rename_i s1 h1
        obtain ⟨i1, i2, i3, i4, i5, i6, i7⟩ := innerLoopNL_inv P S search solve hS p hne hh h1
        split at h
        · split at h
          · cases h
          · rename_i s2 h2
            obtain ⟨a, b, rfl⟩ := tighten_fields p fuel s1 s2 h2
            dsimp only at h
            split at h
            · rename_i hc
              cases h
              exact ⟨sH, s1, hh, h1, hc.2, hc.1, rfl, rfl, rfl, rfl, hfo⟩
            · refine ih _ ?_ ?_ h
              swap
              · exact fun hf => (i7 hf).trans (hfo hf)
              refine ⟨i1.vs, ?_, i1.mu, i1.dyn⟩
              show Shape P (nextV S s1.x.it s1.ws)
              unfold nextV
              cases S.mode with
              | newton => exact i1.vs
              | primal =>
                intro i hi
                have := vsPlusNL_length P S hS s1.mu i1.prevV s1.x hi
                rw [i3] at this
                exact this
              | primalDual => exact fun i hi => by simp [hS.nc i hi]
        · have f := onFailure_fields p s1
          refine ih _ ?_ ?_ h
          swap
          · intro hf
            show (onFailure p s1).x.it.x 0 = _
            rw [f.1]; exact (i7 hf).trans (hfo hf)
          refine ⟨?_, ?_, hm.trans_le f.2.2, ?_⟩
          · show Shape P (onFailure p s1).x.it.vs
            rw [f.1]; exact i1.vs
          · show Shape P (onFailure p s1).prevV
            rw [f.2.1]; exact i1.prevV
          · intro h0
            have e : (onFailure p s1).numIters = s1.numIters := by
              unfold onFailure; dsimp only; split <;> rfl
            show Dynamics P.f N (onFailure p s1).x.it.x (onFailure p s1).x.it.u
            rw [f.1]
            exact i1.dyn (e ▸ h0)
    · cases h

/-- Everything a reported convergence says, with the held value in place of the initial condition. -/
theorem convergedNL {p : Params} (hm : 0 < p.muLb) {C : ℕ → List ℝ → Prop} (hS : S.Fits P C)
    (hne : ∀ s phi0 dphi0 phi a, search s phi0 dphi0 phi ≠ some (a, []))
    (fuel : ℕ) (v0 : ℕ → List ℝ) (s0 s : St (NLIter nx nu P.nc0) (ℕ → CSets.Vec) (WS nx P.nc0)) (hv : Shape P v0)
    (hx : Shape P s0.x.it.vs) (h : runNL P p (envNL P S (oracleNL P S search solve)) fuel v0 s0 = .done true s)
    (hP : (P.spec s.x.it.x s.x.it.u).Right s.x.it.x s.x.it.u) :
    ∃ (w : ℕ → List ℝ) (sE s1 : St (NLIter nx nu P.nc0) (ℕ → CSets.Vec) (WS nx P.nc0)),
      innerLoopNL P p (envNL P S (oracleNL P S search solve)) sE = .done true s1 ∧ s.x = s1.x ∧ s.numIters = s1.numIters ∧
      (∀ k, |P.h (sE.x.it.x 0) k| ≤ p.targetTol) ∧
      (S.force = true → s.x.it.x 0 = s0.x.it.x 0 ∧ ∀ k, |P.h (s.x.it.x 0) k| ≤ p.targetTol) ∧
      Link.Spec.ApproxStationary (P.spec s.x.it.x s.x.it.u) (S.force = true) p.targetDual s.x.it.lam.init s.x.it.lam.dyn s.x.it.vs
        s.x.it.x s.x.it.u ∧
      (∀ i, i < N → ∀ k, |(P.f i (s.x.it.x i) (s.x.it.u i) - s.x.it.x (i + 1)) k| ≤ p.targetTol) ∧
      (0 < s.numIters → Dynamics P.f N s.x.it.x s.x.it.u) ∧
      (∀ i, i ≤ N → ∃ z : List ℝ, z.length = P.nc i ∧
        (∀ k, |(LQ.Spec.cstr (P.spec s.x.it.x s.x.it.u) s.x.it.x s.x.it.u i).getD k 0 - z.getD k 0| ≤ p.targetTol) ∧
        CSets.Spec.InNormalCone (C i) (P.nc i) z (w i)) ∧
      (∀ i, i ≤ N → (w i).length = P.nc i ∧ (s.x.it.vs i).length = P.nc i ∧
        ∀ k, |(w i).getD k 0 - (s.x.it.vs i).getD k 0| ≤ s.crit / s.mu) ∧ 0 < s.mu := by
  obtain ⟨sE, s1, hh, h1, hprim, hdual, ex, en, em, ec, hfo⟩ := runNL_last P S search solve hm hS hne fuel v0 s0 s hv hx h
  obtain ⟨i1, i2, i3, i4, i5, i6, i7⟩ := innerLoopNL_inv P S search solve hS p hne hh h1
  rw [ex] at hP
  rw [ex, en, em, ec]
  clear ex en em ec h s
  have hdual' : (LQ.computeCriterion N (gradAt P S.force s1.x.it) (fun _ => []) fun _ => []).dual ≤ p.targetDual :=
    le_of_eq_of_le i5.symm hdual
  have hws : s1.ws = (multNL P S s1.mu s1.prevV s1.x).1 := by rw [i3]
  have hpe : s1.prim = primInfeas N (fun i => (s1.ws.ms i).infeas) (slacks s1.ws.V) := by
    have := congrArg Prod.snd i3
    rw [hws]
    exact (Option.some.inj this).symm
  have hV : s1.ws.V = heldValues P s1.x := by rw [hws]; rfl
  have hinit : ∀ k, |P.h (sE.x.it.x 0) k| ≤ p.targetTol := by
    intro k
    have h1 := (prim_bounds (inf := fun i => (s1.ws.ms i).infeas) (sl := slacks s1.ws.V) 0 (Nat.zero_le N)).2
    refine le_trans ?_ (h1.trans (hpe ▸ hprim))
    rw [hV, ← i6]
    exact ofFn_le_infNorm s1.x.init k
  refine ⟨fun i => (s1.ws.ms i).vsPlus, sE, s1, h1, rfl, rfl, hinit, fun hf => ⟨(i7 hf).trans (hfo hf), ?_⟩, ?_, ?_, i1.dyn, ?_, ?_, i1.mu⟩
  · rw [i7 hf]
    exact hinit
  · intro ex eu hf
    refine ⟨_, C27_lagrangian_gradient (P.spec s1.x.it.x s1.x.it.u) s1.x.it.x s1.x.it.u hP s1.x.it.lam s1.x.it.vs
      (i1.vs.vShape _ _) ex eu, ?_⟩
    refine pair_bound _ (S.force = true) _ ?_ ?_ ex eu hf
    · intro i hi h0 k
      rw [← (gradAt_eq P S.force s1.x.it).1 i h0]
      exact ((dual_bounds (g := gradAt P S.force s1.x.it) (sl := fun _ => []) (Lv := fun _ => [])).1 i hi k).trans hdual'
    · intro i hi k
      rw [← (gradAt_eq P S.force s1.x.it).2]
      exact ((dual_bounds (g := gradAt P S.force s1.x.it) (sl := fun _ => []) (Lv := fun _ => [])).2 i hi k).trans hdual'
  · intro i hi k
    have h1 := (prim_bounds (inf := fun i => (s1.ws.ms i).infeas) (sl := slacks s1.ws.V) (i + 1) (by omega : i + 1 ≤ N)).2
    refine le_trans ?_ (h1.trans (hpe ▸ hprim))
    rw [hV]
    exact ofFn_le_infNorm (P.f i (s1.x.it.x i) (s1.x.it.u i) - s1.x.it.x (i + 1)) k
  · intro i hi
    obtain ⟨z, hz, hCz, -, -, hn, hinf, -, -⟩ := C26_multiplier_update (hS.proj i hi) s1.mu i1.mu
      ((P.values s1.x.it.x s1.x.it.u).c i) (s1.prevV i) (s1.x.it.vs i) (S.out i) [] (values_c_length P _ _ i) (i1.prevV i hi)
      (i1.vs i hi) (hS.out i hi)
    refine ⟨z, hz, fun k => ?_, ?_⟩
    · rw [← values_c, ← getD_sub (by rw [values_c_length, hz]), ← hinf]
      refine (getD_le_infNorm _ k).trans ?_
      have h1 := (prim_bounds (inf := fun i => (s1.ws.ms i).infeas) (sl := slacks s1.ws.V) i hi).1
      refine le_trans (le_of_eq ?_) (h1.trans (hpe ▸ hprim))
      rw [hws]
      rfl
    · rw [hws]
      exact hn
  · intro i hi
    have hl : ((s1.ws.ms i).vsPlus).length = P.nc i := by rw [hws]; exact vsPlusNL_length P S hS s1.mu i1.prevV s1.x hi
    refine ⟨hl, i1.vs i hi, fun k => ?_⟩
    rw [le_div_iff₀ i1.mu]
    have h1 : LQ.infNorm ((s1.ws.ms i).Lvs) ≤ s1.crit := by
      rw [i2]
      exact inner_bounds (g := gradAt P S.force s1.x.it) (sl := slacks s1.ws.V) (Lv := fun i => (s1.ws.ms i).Lvs) i hi
    refine le_trans ?_ ((getD_le_infNorm _ k).trans h1)
    have e1 : (s1.ws.ms i).Lvs = CSets.Spec.sub ((s1.ws.ms i).vsPlus.map (s1.mu * ·)) ((s1.x.it.vs i).map (s1.mu * ·)) := by
      rw [hws]
      show List.zipWith (· - ·) _ _ = List.zipWith (· - ·) _ _
      congr 1
      show _ = (((S.op i).normalConeProjection _ (S.out i)).map (1 / s1.mu * ·)).map (s1.mu * ·)
      rw [map_inv_mul s1.mu i1.mu.ne']
    have e2 : ∀ l : List ℝ, (l.map (s1.mu * ·)).getD k 0 = s1.mu * l.getD k 0 := by
      intro l
      have := List.getD_map (f := (s1.mu * ·)) (l := l) (n := k) (d := 0)
      simpa using this
    rw [e1, getD_sub (by simp [hl, i1.vs i hi]), e2, e2, ← mul_sub, abs_mul, abs_of_pos i1.mu, mul_comm]

/-- **C58** (partial)  When ProxDDP with nonlinear rollouts and a forced initial condition reports convergence, for every problem,
sets, multiplier update mode, parameters, calling history of the step acceptance and linear solver: the returned trajectory and
multipliers are those of `C56_converged_partial`, the first state is the one of the initial guess, and the dynamics hold exactly
once an iteration has been counted.  What is missing is what is missing there. -/
theorem C58_run_converged_partial {p : Params} (hm : 0 < p.muLb) {C : ℕ → List ℝ → Prop} (hS : S.Fits P C)
    (hne : ∀ s phi0 dphi0 phi a, search s phi0 dphi0 phi ≠ some (a, [])) (hf : S.force = true)
    (fuel : ℕ) (v0 : ℕ → List ℝ) (s0 s : St (NLIter nx nu P.nc0) (ℕ → CSets.Vec) (WS nx P.nc0)) (hv : Shape P v0)
    (hx : Shape P s0.x.it.vs) (h : runNL P p (envNL P S (oracleNL P S search solve)) fuel v0 s0 = .done true s)
    (hP : (P.spec s.x.it.x s.x.it.u).Right s.x.it.x s.x.it.u) :
    ∃ w : ℕ → List ℝ,
      Link.Spec.ApproxStationary (P.spec s.x.it.x s.x.it.u) True p.targetDual s.x.it.lam.init s.x.it.lam.dyn s.x.it.vs
        s.x.it.x s.x.it.u ∧
      Link.Spec.ApproxFeasible (P.spec s.x.it.x s.x.it.u) C P.nc p.targetTol w s.x.it.x s.x.it.u ∧
      (0 < s.numIters → Dynamics P.f N s.x.it.x s.x.it.u) ∧ s.x.it.x 0 = s0.x.it.x 0 ∧
      (∀ i, i ≤ N → (w i).length = P.nc i ∧ (s.x.it.vs i).length = P.nc i ∧
        ∀ k, |(w i).getD k 0 - (s.x.it.vs i).getD k 0| ≤ s.crit / s.mu) ∧ 0 < s.mu := by
  obtain ⟨w, sE, s1, -, -, -, -, h0, h1, h2, h3, h4, h5, h6⟩ := convergedNL P S search solve hm hS hne fuel v0 s0 s hv hx h hP
  have e : (S.force = true) = True := by simp [hf]
  exact ⟨w, e ▸ h1, ⟨(h0 hf).2, h2, h4⟩, h3, (h0 hf).1, h5, h6⟩

/-- **C58** (partial)  Without a forced initial condition, for an affine initial condition, exact solutions of the subproblems and
step lengths in an interval: everything but the initial condition is as with a forced one, and the initial condition is violated by
`1 - Σ as` times a vector within the tolerance, `as` the step lengths of the last inner loop.  What is missing, beside the
multipliers: the initial condition within the tolerance, which fails (`C58_run_converged_violates_initial_condition`). -/
theorem C58_run_converged_free_partial {p : Params} (hm : 0 < p.muLb) {C : ℕ → List ℝ → Prop} (hS : S.Fits P C)
    (hne : ∀ s phi0 dphi0 phi a, search s phi0 dphi0 phi ≠ some (a, [])) (hf : S.force = false)
    (exact : Bool) (H : LQ.Hess nx nu N) (hsolve : ∀ s g w, solve s = some (g, w) → SolvesNL P S exact H s w)
    (hh : ∀ x y, P.h y = P.h x + P.hx x *ᵥ (y - x)) (lo hi : ℝ)
    (hs : ∀ s phi0 dphi0 phi a calls, search s phi0 dphi0 phi = some (a, calls) → ∀ b ∈ calls, lo ≤ b ∧ b ≤ hi)
    (fuel : ℕ) (v0 : ℕ → List ℝ) (s0 s : St (NLIter nx nu P.nc0) (ℕ → CSets.Vec) (WS nx P.nc0)) (hv : Shape P v0)
    (hx : Shape P s0.x.it.vs) (h : runNL P p (envNL P S (oracleNL P S search solve)) fuel v0 s0 = .done true s)
    (hP : (P.spec s.x.it.x s.x.it.u).Right s.x.it.x s.x.it.u) :
    ∃ (w : ℕ → List ℝ) (as : List ℝ) (r : Fin P.nc0 → ℝ),
      Link.Spec.ApproxStationary (P.spec s.x.it.x s.x.it.u) False p.targetDual s.x.it.lam.init s.x.it.lam.dyn s.x.it.vs
        s.x.it.x s.x.it.u ∧
      (∀ k, |r k| ≤ p.targetTol) ∧ (∀ a ∈ as, lo ≤ a ∧ a ≤ hi) ∧ P.h (s.x.it.x 0) = (1 - as.sum) • r ∧
      (∀ i, i < N → ∀ k, |(P.f i (s.x.it.x i) (s.x.it.u i) - s.x.it.x (i + 1)) k| ≤ p.targetTol) ∧
      (0 < s.numIters → Dynamics P.f N s.x.it.x s.x.it.u) ∧
      (∀ i, i ≤ N → ∃ z : List ℝ, z.length = P.nc i ∧
        (∀ k, |(LQ.Spec.cstr (P.spec s.x.it.x s.x.it.u) s.x.it.x s.x.it.u i).getD k 0 - z.getD k 0| ≤ p.targetTol) ∧
        CSets.Spec.InNormalCone (C i) (P.nc i) z (w i)) ∧
      (∀ i, i ≤ N → (w i).length = P.nc i ∧ (s.x.it.vs i).length = P.nc i ∧
        ∀ k, |(w i).getD k 0 - (s.x.it.vs i).getD k 0| ≤ s.crit / s.mu) ∧ 0 < s.mu := by
  obtain ⟨w, sE, s1, hl, ex, -, hr, -, h1, h2, h3, h4, h5, h6⟩ := convergedNL P S search solve hm hS hne fuel v0 s0 s hv hx h hP
  obtain ⟨as, a1, -, a2⟩ := C58_initial_state_overshoots P S search solve p hne hf exact H hsolve hh lo hi hs hl
  have e : (S.force = true) = False := by simp [hf]
  exact ⟨w, as, _, e ▸ h1, hr, a1, ex ▸ a2, h2, h3, h4, h5, h6⟩

/-- The problem with a constant in place of the initial condition. -/
def frozen (r : Fin P.nc0 → ℝ) : Prob nx nu N := { P with h := fun _ => r }

/-- **C58** The values the line search sees, at the iterate and at every trial point, are those of the merit function for the problem
whose initial condition is replaced by the held value; so they are right where the held value is. -/
theorem C58_merit_values {s : St (NLIter nx nu P.nc0) (ℕ → CSets.Vec) (WS nx P.nc0)} {g : Gains nx nu S.nc}
    {w : VWork nx nu S.nc P.nc0} (hg : solve s = some (g, w)) :
    ∃ (w' : VWork nx nu S.nc P.nc0) (phi0 dphi0 : ℝ) (phi : ℝ → ℝ),
      w' = (if S.force then { w with dx := Function.update w.dx 0 0, dlam0 := 0 } else w) ∧
      oracleNL P S search solve s = (match search s phi0 dphi0 phi with
        | none => .raises
        | some (a, calls) => .step dphi0 (calls.map (trialNL P S.nc s.x g w')) a) ∧
      phi0 = merit (frozen P s.x.init) S s.mu s.prevV s.x.it ∧
      (∀ a, phi a = merit (frozen P s.x.init) S s.mu s.prevV (trialNL P S.nc s.x g w' a).it) ∧
      (s.x.init = P.h (s.x.it.x 0) → phi0 = merit P S s.mu s.prevV s.x.it) ∧
      ∀ a, s.x.init = P.h ((trialNL P S.nc s.x g w' a).it.x 0) →
        phi a = merit P S s.mu s.prevV (trialNL P S.nc s.x g w' a).it := by
  have key : ∀ it : Link.Iter nx nu P.nc0, s.x.init = P.h (it.x 0) →
      merit (frozen P s.x.init) S s.mu s.prevV it = merit P S s.mu s.prevV it := by
    intro it h
    have hV : (frozen P s.x.init).values it.x it.u = P.values it.x it.u := by
      unfold Prob.values frozen
      simp only [h]
    have hm : mult (frozen P s.x.init) S s.mu s.prevV it = mult P S s.mu s.prevV it := by
      unfold mult
      rw [hV]
      rfl
    unfold merit
    exact congrArg (fun m : WS nx P.nc0 × Option ℝ => meritEvaluate (0.1 * s.mu) s.mu N m.1.V.cost
      (lamsPlus s.mu (0.1 * s.mu) it.lam m.1.V) fun i => (m.1.ms i).vsPlus) hm
  unfold oracleNL
  rw [hg]
  exact ⟨_, _, _, _, rfl, rfl, rfl, fun _ => rfl, fun h => key _ h, fun a h => key _ h⟩

end run

/-! ### A run that reports convergence and violates the initial condition -/

section witness

abbrev DSt := St (NLIter (fun _ => 1) (fun _ => 1) drift.nc0) (ℕ → CSets.Vec) (WS (fun _ => 1) drift.nc0)

/-- The gains of the subproblem of `drift`. -/
noncomputable def driftG (s : DSt) : Gains (fun _ => 1) (fun _ => 1) driftSetup.nc where
  k _ := fun _ => -((s.x.it.x 0 0 + s.x.it.u 0 0 - s.x.it.x 1 0) / 2)
  K _ := fun _ _ => -1 / 2
  z _ := 0
  Z _ := 0

/-- The solution of the subproblem, at the sizes of the setup. -/
noncomputable def driftV (s : DSt) : VWork (fun _ => 1) (fun _ => 1) driftSetup.nc drift.nc0 := driftW s

/-- The exact solution of every subproblem, with its gains. -/
noncomputable def driftSolve (s : DSt) : Option (Gains (fun _ => 1) (fun _ => 1) driftSetup.nc × VWork (fun _ => 1) (fun _ => 1) driftSetup.nc drift.nc0) :=
  some (driftG s, driftV s)

/-- Default parameters with tolerances `1` and `0.05` and initial regularisation `1`. -/
noncomputable def driftParams : Params := { defaultParams with targetTol := 1, targetDual := 0.05, regInit := 1, regDec := 0.1 }

/-- An iterate on the dynamics, with held value `1`. -/
structure DriftAt (x : NLIter (fun _ => 1) (fun _ => 1) drift.nc0) (a b c d : ℝ) : Prop where
  x0 : x.it.x 0 = fun _ => a
  u : x.it.u 0 = fun _ => b
  x1 : x.it.x 1 = fun _ => a + b
  l0 : x.it.lam.init = fun _ => c
  l1 : x.it.lam.dyn 0 = fun _ => d
  vs : ∀ i, x.it.vs i = []
  init : x.init = fun _ => 1

theorem drift_eval {x : NLIter (fun _ => 1) (fun _ => 1) drift.nc0} {x0 u l0 l1 : ℝ} (h : DriftAt x x0 u l0 l1) {v : ℕ → CSets.Vec}
    (hv : ∀ i, v i = []) (orc) :
    (multNL drift driftSetup 0.01 v x).2 = some 1 ∧
    (envNL drift driftSetup orc).dualInf x = max |l0 + l1| |l1| ∧
    1 ≤ (envNL drift driftSetup orc).innerCrit x (multNL drift driftSetup 0.01 v x).1 ∧
    (multNL drift driftSetup 0.01 v x).1.V.init = (fun _ => 1) ∧ (multNL drift driftSetup 0.01 v x).1.V.gap 0 = 0 ∧
    (∀ i, ((multNL drift driftSetup 0.01 v x).1.ms i).vsPlus = []) ∧ (multNL drift driftSetup 0.01 v x).1.V.cost = 0 := by
  obtain ⟨t1, t2, t3⟩ := wit_step1 0.01
  have hm : ∀ i, (multNL drift driftSetup 0.01 v x).1.ms i = multiplierStep noSet 0.01 [] [] [] [] [] := by
    intro i
    have hc : (heldValues drift x).c i = [] := by
      show (drift.values x.it.x x.it.u).c i = []
      have := values_c_length drift x.it.x x.it.u i
      have e : drift.nc i = 0 := by unfold Prob.nc; split <;> rfl
      rw [e] at this
      exact List.length_eq_zero_iff.1 this
    show multiplierStep noSet 0.01 ((heldValues drift x).c i) (v i) (x.it.vs i) [] [] = _
    rw [hc, hv, h.vs]
  have hg : (multNL drift driftSetup 0.01 v x).1.V.gap 0 = 0 := by
    show x.it.x 0 + x.it.u 0 - x.it.x 1 = 0
    rw [h.x0, h.u, h.x1]
    funext k
    simp
  have hi : (multNL drift driftSetup 0.01 v x).1.V.init = fun _ => 1 := h.init
  have hsl0 : slacks (multNL drift driftSetup 0.01 v x).1.V 0 = [1] := by
    show List.ofFn x.init = _
    rw [h.init]
    rfl
  have hsl1 : slacks (multNL drift driftSetup 0.01 v x).1.V 1 = [0] := by
    show List.ofFn ((multNL drift driftSetup 0.01 v x).1.V.gap 0) = _
    rw [hg]; rfl
  obtain ⟨g1, g2, g3⟩ := compute_eq (drift.data x.it.x x.it.u) (some x.it.lam) x.it.vs
  obtain ⟨L, hL⟩ : ∃ L : Fin 1 → ℝ, L = x.it.lam.init := ⟨_, rfl⟩
  have hL' : L = fun _ => l0 := hL.trans h.l0
  have gx0 : (gradAt drift false x.it).Lxs 0 = fun _ => l0 + l1 := by
    have e : (gradAt drift false x.it).Lxs 0 = (1 : Matrix (Fin 1) (Fin 1) ℝ)ᵀ *ᵥ L +
      (0 + (1 : Matrix (Fin 1) (Fin 1) ℝ)ᵀ *ᵥ x.it.lam.dyn 0 + 0) := hL ▸ g1 0 one_pos
    rw [e, hL', h.l1]
    funext k
    simp
  have gx1 : (gradAt drift false x.it).Lxs 1 = fun _ => -l1 := by
    have e : (gradAt drift false x.it).Lxs 1 = -x.it.lam.dyn 0 + (0 + 0) := g2
    rw [e, h.l1]
    funext k
    simp
  have gu0 : (gradAt drift false x.it).Lus 0 = fun _ => l1 := by
    have e : (gradAt drift false x.it).Lus 0 = 0 + (1 : Matrix (Fin 1) (Fin 1) ℝ)ᵀ *ᵥ x.it.lam.dyn 0 + 0 := g3 0 one_pos
    rw [e, h.l1]
    funext k
    simp
  refine ⟨?_, ?_, ?_, hi, hg, fun i => by rw [hm, t1], ?_⟩
  · show some (primInfeas 1 (fun i => ((multNL drift driftSetup 0.01 v x).1.ms i).infeas)
      (slacks (multNL drift driftSetup 0.01 v x).1.V)) = _
    congr 1
    simp [primInfeas, List.range_succ, hsl0, hsl1, hm, t3, infNorm]
  · show (LQ.computeCriterion 1 (gradAt drift false x.it) (fun _ => []) fun _ => []).dual = _
    simp [LQ.computeCriterion, List.range_succ, gx0, gx1, gu0, infNorm]
  · show 1 ≤ (LQ.computeCriterion 1 (gradAt drift false x.it) (slacks (multNL drift driftSetup 0.01 v x).1.V)
      fun i => ((multNL drift driftSetup 0.01 v x).1.ms i).Lvs).inner
    have e1 : infNorm (slacks (multNL drift driftSetup 0.01 v x).1.V 0) = 1 := by
      rw [hsl0]; simp [infNorm]
    have := le_infNorm (List.mem_append_left (as := (List.range 1).map (fun i => max
      (max (LQ.infNorm (List.ofFn ((gradAt drift false x.it).Lxs i))) (LQ.infNorm (List.ofFn ((gradAt drift false x.it).Lus i))))
      (max (LQ.infNorm (slacks (multNL drift driftSetup 0.01 v x).1.V i)) (LQ.infNorm ((multNL drift driftSetup 0.01 v x).1.ms i).Lvs))))
      [max (LQ.infNorm (List.ofFn ((gradAt drift false x.it).Lxs 1))) (LQ.infNorm ((multNL drift driftSetup 0.01 v x).1.ms 1).Lvs)]
      (List.mem_map.2 ⟨0, List.mem_range.2 one_pos, rfl⟩))
    exact (e1.ge.trans ((le_max_left _ _).trans (le_max_right _ _))).trans ((le_abs_self _).trans this)
  · show (0 : ℝ) + 0 + 0 = 0
    simp

/-- The state of the solver inside the inner loop. -/
structure DriftSt (s : DSt) (x0 u l0 l1 q : ℝ) (n : ℕ) : Prop where
  at' : DriftAt s.x x0 u l0 l1
  mu : s.mu = 0.01
  prevV : ∀ i, s.prevV i = []
  ws : s.ws = (multNL drift driftSetup 0.01 s.prevV s.x).1
  prim : s.prim = 1
  innerTol : s.innerTol = 0.05
  primTol : 1 ≤ s.primTol
  pregLast : s.pregLast = q
  numIters : s.numIters = n

/-- One iteration of the inner loop. -/
theorem drift_iter (search : DSt → Search) (hse : ∀ s, TakesFullStep (search s)) {s : DSt} {x0 u l0 l1 q0 q : ℝ} {n m : ℕ}
    (h : DriftSt s x0 u l0 l1 q0 n)
    (hq : max (1e-10 : ℝ) (if q0 = 0 then 1 else q0 * 0.1) = q) (hd : 0.05 < |l0 + l1|) (hl : 0 ≤ l0)
    (hm : 0.005 * (1.5 * q + 100) ^ 2 + 0.0005 * (q / 2) ^ 2 ≤ 0.005 * (l0 + 100) ^ 2 + 0.0005 * l1 ^ 2 - 1e-4 * (l0 + 100)) :
    ∃ s', innerIter driftParams (envNL drift driftSetup (oracleNL drift driftSetup search driftSolve)) (m + 1) s =
        innerIter driftParams (envNL drift driftSetup (oracleNL drift driftSetup search driftSolve)) m s' ∧
      DriftSt s' (x0 - 1) (u + 1 / 2) (1.5 * q) (-q / 2) q (n + 1) := by
  set e := envNL drift driftSetup (oracleNL drift driftSetup search driftSolve) with he
  obtain ⟨v1, v2, v3, v4, v5, v6, v7⟩ := drift_eval h.at' h.prevV (oracleNL drift driftSetup search driftSolve)
  set s1 := (initializeRegularization driftParams (ProxDDP.computeCriterion e s)).push true with hs1
  have hreg : initializeRegularization driftParams (ProxDDP.computeCriterion e s) =
      { ProxDDP.computeCriterion e s with preg := q } := by
    unfold initializeRegularization
    have e1 : (ProxDDP.computeCriterion e s).pregLast = q0 := h.pregLast
    by_cases h0 : q0 = 0
    · rw [if_pos h0] at hq
      rw [if_pos (e1.trans h0), ← hq]
      congr 1
      exact max_comm _ _
    · rw [if_neg h0] at hq
      rw [if_neg (by rw [e1]; exact h0), ← hq, ← h.pregLast]
      congr 1
  have g1 : s1.x = s.x := by rw [hs1, hreg]; rfl
  have g2 : s1.prevV = s.prevV := by rw [hs1, hreg]; rfl
  have g3 : s1.mu = 0.01 := by rw [hs1, hreg]; exact h.mu
  have g4 : s1.preg = q := by rw [hs1, hreg]; rfl
  have g5 : s1.ws = (multNL drift driftSetup 0.01 s.prevV s.x).1 := by rw [hs1, hreg]; exact h.ws
  have hgap : s1.x.it.x 0 0 + s1.x.it.u 0 0 - s1.x.it.x 1 0 = 0 := by
    rw [g1, h.at'.x0, h.at'.u, h.at'.x1]; simp
  have hi1 : s1.x.init (0 : Fin 1) = 1 := by rw [g1, h.at'.init]
  have hdx0 : (driftV s1).dx 0 = fun _ => -1 := by
    funext k; simp [driftV, driftW, hi1]
  have hdx1 : (driftV s1).dx 1 = fun _ => -(1 / 2) := by
    funext k
    simp only [driftV, driftW, hi1, hgap]
    norm_num
  have hdu : (driftV s1).du 0 = fun _ => 1 / 2 := by
    funext k
    simp only [driftV, driftW, hi1, hgap]
    norm_num
  have hl1 : s1.x.it.lam.dyn 0 0 = l1 := by rw [g1, h.at'.l1]
  have hl0 : s1.x.it.lam.init (0 : Fin 1) = l0 := by rw [g1, h.at'.l0]
  have hdl : (driftV s1).dlam 0 = fun _ => -q / 2 - l1 := by
    funext k
    simp only [driftV, driftW, hi1, hgap, g4, hl1]
    ring
  have hdl0 : (driftV s1).dlam0 = fun _ => 1.5 * q - l0 := by
    funext k
    simp only [driftV, driftW, hi1, hgap, g4, hl1, hl0]
    ring
  set nxt := trialNL drift driftSetup.nc s1.x (driftG s1) (driftV s1) 1 with hnxt
  have hn : DriftAt nxt (x0 - 1) (u + 1 / 2) (1.5 * q) (-q / 2) := by
    have r : nxt = ⟨ofTraj (closed (vecSys drift.f) (toTraj driftSetup.nc s1.x.it) (driftG s1) (driftV s1) 1 1 2).trial, s1.x.init⟩ := by
      rw [hnxt]
      unfold trialNL
      exact congrArg (fun w : VWork (fun _ => 1) (fun _ => 1) driftSetup.nc drift.nc0 => (⟨ofTraj w.trial, s1.x.init⟩ : NLIter _ _ _))
        (rollout_eq (vecSys drift.f) 1 (toTraj driftSetup.nc s1.x.it) (driftG s1) (driftV s1) 1)
    have ex0 : nxt.it.x 0 = fun _ => x0 - 1 := by
      rw [r]
      show s1.x.it.x 0 + (1 : ℝ) • (driftV s1).dx 0 = _
      rw [hdx0, g1, h.at'.x0]
      funext k
      simp
      ring
    have eu : nxt.it.u 0 = fun _ => u + 1 / 2 := by
      rw [r]
      show s1.x.it.u 0 + ((1 : ℝ) • (driftG s1).k 0 + (driftG s1).K 0 *ᵥ (driftV s1).dx 0) = _
      rw [hdx0, g1, h.at'.u]
      funext k
      simp only [driftG, hgap]
      simp [mulVec, dotProduct]
      norm_num
    refine ⟨ex0, eu, ?_, ?_, ?_, ?_, ?_⟩
    · have := C58_trial_satisfies_dynamics (vecSys drift.f) 1 (toTraj driftSetup.nc s1.x.it) (driftG s1) (driftV s1) 1 0 one_pos
      have e2 : nxt.it.x 1 = nxt.it.x 0 + nxt.it.u 0 := this
      rw [e2, ex0, eu]
      rfl
    · rw [r]
      show s1.x.it.lam.init + (1 : ℝ) • (driftV s1).dlam0 = _
      rw [hdl0, g1, h.at'.l0]
      funext k
      simp
    · rw [r]
      show s1.x.it.lam.dyn 0 + (1 : ℝ) • (driftV s1).dlam 0 = _
      rw [hdl, g1, h.at'.l1]
      funext k
      simp
    · intro i
      rfl
    · rw [r]
      show s1.x.init = _
      rw [g1, h.at'.init]
  obtain ⟨n1, n2, n3, n4, n5, n6, n7⟩ := drift_eval hn h.prevV (oracleNL drift driftSetup search driftSolve)
  have hmerit : ∀ {x : NLIter (fun _ => 1) (fun _ => 1) drift.nc0} {x0 u l0 l1 : ℝ}, DriftAt x x0 u l0 l1 →
      (meritEvaluate (0.1 * 0.01) 0.01 1 (multNL drift driftSetup 0.01 s.prevV x).1.V.cost
        (lamsPlus 0.01 (0.1 * 0.01) x.it.lam (multNL drift driftSetup 0.01 s.prevV x).1.V)
        fun i => ((multNL drift driftSetup 0.01 s.prevV x).1.ms i).vsPlus) = 0.005 * (l0 + 100) ^ 2 + 0.0005 * l1 ^ 2 := by
    intro x x0 u l0 l1 hx
    obtain ⟨-, -, -, w4, w5, w6, w7⟩ := drift_eval hx h.prevV (oracleNL drift driftSetup search driftSolve)
    have e1 : (lamsPlus 0.01 (0.1 * 0.01) x.it.lam (multNL drift driftSetup 0.01 s.prevV x).1.V).init = fun _ => l0 + 100 := by
      funext k
      show x.it.lam.init k + (multNL drift driftSetup 0.01 s.prevV x).1.V.init k / 0.01 = _
      rw [hx.l0, w4]
      norm_num
    have e2 : (lamsPlus 0.01 (0.1 * 0.01) x.it.lam (multNL drift driftSetup 0.01 s.prevV x).1.V).dyn 0 = fun _ => l1 := by
      funext k
      show x.it.lam.dyn 0 k + (multNL drift driftSetup 0.01 s.prevV x).1.V.gap 0 k / (0.1 * 0.01) = _
      rw [hx.l1, w5]
      simp
    simp only [meritEvaluate, w6, w7, List.range_succ, List.range_zero, List.nil_append, List.foldl_cons, List.foldl_nil, e2]
    have e3 : (lamsPlus 0.01 (0.1 * 0.01) x.it.lam (multNL drift driftSetup 0.01 s.prevV x).1.V).init ⬝ᵥ
        (lamsPlus 0.01 (0.1 * 0.01) x.it.lam (multNL drift driftSetup 0.01 s.prevV x).1.V).init = (l0 + 100) * (l0 + 100) := by
      rw [e1]
      show ∑ k : Fin 1, _ = _
      simp
    rw [e3]
    simp [sqNorm, dotProduct]
    ring
  have hdphi : directionalDerivative (drift.data s1.x.it.x s1.x.it.u) (lamsPlus s1.mu (0.1 * s1.mu) s1.x.it.lam s1.ws.V)
      (fun i => (s1.ws.ms i).vsPlus) (driftV s1).dx (driftV s1).du = -(l0 + 100) := by
    rw [g1, g3, g5]
    set lp := lamsPlus (0.01 : ℝ) (0.1 * 0.01) s.x.it.lam (multNL drift driftSetup 0.01 s.prevV s.x).1.V with hlp
    set vp := fun i => ((multNL drift driftSetup 0.01 s.prevV s.x).1.ms i).vsPlus with hvp
    have p0 : lp.init = fun _ => l0 + 100 := by
      funext k
      show s.x.it.lam.init k + (multNL drift driftSetup 0.01 s.prevV s.x).1.V.init k / 0.01 = _
      rw [h.at'.l0, v4]
      norm_num
    have p1 : lp.dyn 0 = fun _ => l1 := by
      funext k
      show s.x.it.lam.dyn 0 k + (multNL drift driftSetup 0.01 s.prevV s.x).1.V.gap 0 k / (0.1 * 0.01) = _
      rw [h.at'.l1, v5]
      simp
    obtain ⟨k1, k2, k3⟩ := compute_eq (drift.data s.x.it.x s.x.it.u) (some lp) vp
    obtain ⟨L, hL⟩ : ∃ L : Fin 1 → ℝ, L = lp.init := ⟨_, rfl⟩
    have e1 : (compute (drift.data s.x.it.x s.x.it.u) (some lp) vp).Lxs 0 = (1 : Matrix (Fin 1) (Fin 1) ℝ)ᵀ *ᵥ L +
      (0 + (1 : Matrix (Fin 1) (Fin 1) ℝ)ᵀ *ᵥ lp.dyn 0 + 0) := hL ▸ k1 0 one_pos
    have e2 : (compute (drift.data s.x.it.x s.x.it.u) (some lp) vp).Lxs 1 = -lp.dyn 0 + (0 + 0) := k2
    have e3 : (compute (drift.data s.x.it.x s.x.it.u) (some lp) vp).Lus 0 = 0 + (1 : Matrix (Fin 1) (Fin 1) ℝ)ᵀ *ᵥ lp.dyn 0 + 0 :=
      k3 0 one_pos
    show (compute (drift.data s.x.it.x s.x.it.u) (some lp) vp).Lxs 0 ⬝ᵥ (driftV s1).dx 0 +
      (compute (drift.data s.x.it.x s.x.it.u) (some lp) vp).Lxs 1 ⬝ᵥ (driftV s1).dx 1 +
      (compute (drift.data s.x.it.x s.x.it.u) (some lp) vp).Lus 0 ⬝ᵥ (driftV s1).du 0 = _
    have hL' : L = fun _ : Fin 1 => l0 + 100 := hL.trans p0
    rw [e1, e2, e3, hdx0, hdx1, hdu, hL', p1]
    simp [dotProduct]
    ring
  have horc : e.oracle s1 = .step (-(l0 + 100)) [nxt] 1 := by
    show oracleNL drift driftSetup search driftSolve s1 = _
    unfold oracleNL
    rw [show driftSolve s1 = some (driftG s1, driftV s1) from rfl]
    dsimp only
    simp only [show driftSetup.force = false from rfl, Bool.false_eq_true, if_false]
    rw [hdphi, hse s1 _ _ _ (by linarith)]
    · rfl
    · rw [g2, g3]
      refine le_trans (le_of_eq (hmerit hn)) ?_
      rw [g1, hmerit h.at']
      nlinarith [hm]
  refine ⟨{ s1 with x := nxt, trial := nxt, ws := (multNL drift driftSetup 0.01 s.prevV nxt).1, prim := 1, pregLast := s1.preg, numIters := s1.numIters + 1 }, ?_, ?_⟩
  · rw [innerIter]
    dsimp only
    rw [if_neg, ← hs1, horc]
    · dsimp only
      have hfw : forwardPass e s1 nxt = { s1 with trial := nxt, ws := (multNL drift driftSetup 0.01 s.prevV nxt).1, prim := 1 } := by
        have h1 : e.mult s1.mu s1.prevV nxt = ((multNL drift driftSetup 0.01 s.prevV nxt).1, some 1) := by
          show multNL drift driftSetup s1.mu s1.prevV nxt = _
          rw [g3, g2]
          exact Prod.ext rfl n1
        unfold forwardPass computeMultipliers
        dsimp only
        rw [h1]
      rw [if_neg, if_neg]
      · simp only [List.foldl_cons, List.foldl_nil, hfw]
      · show ¬ (1 : ℝ) ≤ 1e-6
        norm_num
      · show ¬ |(-(l0 + 100))| ≤ 1e-13
        rw [abs_neg, abs_of_nonneg (by linarith)]
        norm_num
        linarith
    · rintro (h1 | h1)
      · have h2 : e.innerCrit s.x s.ws ≤ s.innerTol := h1
        rw [h.ws, h.innerTol] at h2
        have := v3.trans h2
        norm_num at this
      · have h2 : e.dualInf s.x ≤ 0.05 := h1.1
        rw [v2] at h2
        exact absurd (hd.trans_le (le_max_left _ _)) (not_lt.2 h2)
  · refine ⟨hn, g3, ?_, ?_, rfl, ?_, ?_, g4, ?_⟩
    · show ∀ i, s1.prevV i = []
      rw [g2]; exact h.prevV
    · show _ = (multNL drift driftSetup 0.01 s1.prevV nxt).1
      rw [g2]
    · show s1.innerTol = _
      rw [hs1, hreg]; exact h.innerTol
    · show 1 ≤ s1.primTol
      rw [hs1, hreg]; exact h.primTol
    · show s1.numIters + 1 = n + 1
      rw [hs1, hreg]
      exact congrArg (· + 1) h.numIters

/-- The initial guess: rest at `1`, with a wrong multiplier of the initial condition. -/
noncomputable def driftIter : NLIter (fun _ => 1) (fun _ => 1) drift.nc0 :=
  ⟨⟨fun _ _ => 1, fun _ _ => 0, ⟨fun _ => 10, fun _ _ => 0⟩, fun _ => []⟩, fun _ => 0⟩

/-- A solver holding the guess. -/
noncomputable def driftSt : DSt where
  x := driftIter
  trial := driftIter
  prevV := fun _ => []
  ws := (multNL drift driftSetup 1 (fun _ => []) driftIter).1
  mu := 1
  innerTol := 0
  primTol := 0
  preg := 0
  pregLast := 0
  prim := 0
  dual := 0
  crit := 0
  numIters := 0
  alIter := 0
  log := []

/-- **C58** With nonlinear rollouts and a free initial state the solver reports convergence at a trajectory that violates the initial
condition by twice the tolerance, on a problem without cost whose subproblems are solved exactly, for every line search that takes
the full step when the condition of Armijo holds there: the violation it tests is the one at the entry of the inner loop. -/
theorem C58_run_converged_violates_initial_condition (search : DSt → Search) (hse : ∀ s, TakesFullStep (search s)) (fuel : ℕ)
    (hf : 0 < fuel) :
    ∃ s, runNL drift driftParams (envNL drift driftSetup (oracleNL drift driftSetup search driftSolve)) fuel (fun _ => []) driftSt =
        .done true s ∧ s.numIters = 3 ∧ drift.h (s.x.it.x 0) = (fun _ => -2) ∧ driftParams.targetTol = 1 ∧ s.prim = 1 ∧
      ∀ s w, driftSolve s = some w → SolvesNL drift driftSetup false ⟨0, 0, 0, 0, 0, 0, 0, 0⟩ s w.2 := by
  set e := envNL drift driftSetup (oracleNL drift driftSetup search driftSolve) with he
  set s := initRun driftParams (fun _ => []) driftSt with hs
  have hmu : s.mu = 0.01 := by
    show max (0.01:ℝ) 1e-8 = 0.01
    norm_num
  have f5 : s.innerTol = 0.05 := by
    show max ((1:ℝ) * (min s.mu 0.99) ^ (1:ℝ)) 0.05 = 0.05
    rw [hmu, Real.rpow_one]
    norm_num
  have f6 : (1 : ℝ) ≤ s.primTol := le_max_right _ _
  have a0 : DriftAt (refresh drift s.x) 1 0 10 0 :=
    ⟨rfl, rfl, by funext k; show (1 : ℝ) = 1 + 0; simp, rfl, rfl, fun _ => rfl, rfl⟩
  have hx : s.x = driftIter := rfl
  obtain ⟨v1, -⟩ := drift_eval a0 (v := fun _ => []) (fun _ => rfl) (oracleNL drift driftSetup search driftSolve)
  set s0 : DSt := { ({ s with x := refresh drift s.x } : DSt).push false with
    ws := (multNL drift driftSetup 0.01 (fun _ => []) (refresh drift s.x)).1, prim := 1 } with hs0
  have hcm : computeMultipliers e (refresh drift s.x) (({ s with x := refresh drift s.x } : DSt).push false) = s0 := by
    have h1 : e.mult (({ s with x := refresh drift s.x } : DSt).push false).mu (({ s with x := refresh drift s.x } : DSt).push false).prevV
        (refresh drift s.x) = ((multNL drift driftSetup 0.01 (fun _ => []) (refresh drift s.x)).1, some 1) := by
      show multNL drift driftSetup s.mu (fun _ => []) _ = _
      rw [hmu]
      exact Prod.ext rfl v1
    unfold computeMultipliers
    rw [h1]
  have d0 : DriftSt s0 1 0 10 0 0 0 := ⟨a0, hmu, fun _ => rfl, rfl, rfl, f5, f6, rfl, rfl⟩
  obtain ⟨s1, e1, d1⟩ := drift_iter search hse (m := 999) (q := 1) d0 (by norm_num) (by norm_num) (by norm_num) (by norm_num)
  obtain ⟨s2, e2, d2⟩ := drift_iter search hse (m := 998) (q := 0.1) d1 (by norm_num) (by norm_num) (by norm_num) (by norm_num)
  obtain ⟨s3, e3, d3⟩ := drift_iter search hse (m := 997) (q := 0.01) d2 (by norm_num) (by norm_num) (by norm_num) (by norm_num)
  obtain ⟨w1, w2, w3, -⟩ := drift_eval d3.at' d3.prevV (oracleNL drift driftSetup search driftSolve)
  have hdual : e.dualInf s3.x ≤ 0.05 := by
    rw [w2]
    norm_num
  have hin : innerLoopNL drift driftParams e s = .done true (ProxDDP.computeCriterion e s3) := by
    unfold innerLoopNL innerLoop
    dsimp only
    rw [hcm, show driftParams.maxIters - s0.numIters = 999 + 1 from rfl, e1, e2, e3, show 997 = 996 + 1 from rfl, innerIter]
    dsimp only
    rw [if_pos]
    exact .inr ⟨hdual, d3.prim.le⟩
  have hcrit : 1 ≤ e.innerCrit s3.x s3.ws := by
    rw [d3.ws]; exact w3
  obtain ⟨n, rfl⟩ : ∃ n, fuel = n + 1 := ⟨fuel - 1, by omega⟩
  unfold runNL
  rw [show driftParams.maxAlIters = 99 + 1 from rfl, outerNL, if_pos (by rw [← hs]; show 0 < 1000; omega), ← hs, hin]
  dsimp only
  rw [if_pos (by show s3.prim ≤ s3.primTol; rw [d3.prim]; exact d3.primTol), tighten]
  rw [if_neg]
  · dsimp only
    rw [if_pos]
    · refine ⟨_, rfl, d3.numIters, ?_, rfl, d3.prim, fun s w h => ?_⟩
      · show s3.x.it.x 0 = _
        rw [d3.at'.x0]
        funext k
        norm_num
      · injection h with h
        subst h
        exact drift_solves s
    · exact ⟨hdual, d3.prim.le⟩
  · show ¬ e.innerCrit s3.x s3.ws < s3.innerTol * (min s3.mu 0.99) ^ (1:ℝ)
    rw [d3.innerTol, d3.mu, Real.rpow_one]
    norm_num
    linarith

/-- The Armijo search with default options meets the hypothesis. -/
example (qr : Linesearch.Solve2) := C58_run_converged_violates_initial_condition (fun _ => armijo defaultOptions qr 1000)
  (fun _ => armijo_fullStep qr 1000 (by norm_num)) 1 one_pos

theorem drift_right (x : ∀ i, Fin ((fun _ => 1 : ℕ → ℕ) i) → ℝ) (u : ∀ i, Fin ((fun _ => 1 : ℕ → ℕ) i) → ℝ) :
    (drift.spec x u).Right x u := by
  have lin : ∀ (a b : Fin 1 → ℝ), HasDerivAt (fun t : ℝ => a + t • b) b 0 := by
    intro a b
    simpa using ((hasDerivAt_id (0 : ℝ)).smul_const b).const_add a
  refine ⟨fun dx => ?_, fun i hi dx du => ?_, fun i hi dx du => ?_, fun i hi c hc dx du => ?_, fun dx => ?_, fun c hc => ?_⟩
  · show HasDerivAt (fun t : ℝ => x 0 + t • dx) ((1 : Matrix (Fin 1) (Fin 1) ℝ) *ᵥ dx) 0
    rw [one_mulVec]
    exact lin _ _
  · show HasDerivAt (fun t : ℝ => (0 : ℝ)) ((0 : Fin 1 → ℝ) ⬝ᵥ dx + (0 : Fin 1 → ℝ) ⬝ᵥ du) 0
    simpa using hasDerivAt_const (0 : ℝ) (0 : ℝ)
  · show HasDerivAt (fun t : ℝ => x i + t • dx + (u i + t • du))
      ((1 : Matrix (Fin 1) (Fin 1) ℝ) *ᵥ dx + (1 : Matrix (Fin 1) (Fin 1) ℝ) *ᵥ du) 0
    rw [one_mulVec, one_mulVec]
    exact (lin _ _).add (lin _ _)
  · cases hc
  · show HasDerivAt (fun t : ℝ => (0 : ℝ)) ((0 : Fin 1 → ℝ) ⬝ᵥ dx) 0
    simpa using hasDerivAt_const (0 : ℝ) (0 : ℝ)
  · cases hc

theorem drift_nc (i : ℕ) : drift.nc i = 0 := by unfold Prob.nc; split <;> rfl

/-- The same run meets the hypotheses of `C58_run_converged_free_partial`; its factor `1 - Σ as` is `-2`. -/
example : ∃ (s : DSt) (as : List ℝ) (r : Fin 1 → ℝ), runNL drift driftParams (envNL drift driftSetup (oracleNL drift driftSetup
      (fun _ _ _ _ => some (1, [1])) driftSolve)) 1 (fun _ => []) driftSt = .done true s ∧ |r 0| ≤ 1 ∧ (∀ a ∈ as, 1 ≤ a ∧ a ≤ 1) ∧
    -2 = (1 - as.sum) * r 0 ∧ Dynamics drift.f 1 s.x.it.x s.x.it.u := by
  obtain ⟨s, h, hn, h0, -⟩ := C58_run_converged_violates_initial_condition (fun _ _ _ _ => some (1, [1]))
    (fun _ _ _ _ _ _ => rfl) 1 one_pos
  have hfit : driftSetup.Fits drift (fun i => witC 1) := by
    refine ⟨fun i hi => ?_, fun i hi => ?_, fun i hi => ?_⟩
    · rw [drift_nc]; exact wit_projects.2
    · rw [drift_nc]; rfl
    · rw [drift_nc]; rfl
  obtain ⟨w, as, r, -, h1, h2, h3, -, h4, -⟩ := C58_run_converged_free_partial drift driftSetup (fun _ _ _ _ => some (1, [1])) driftSolve
    (p := driftParams) (by show (0 : ℝ) < 1e-8; norm_num) hfit (by simp) rfl false ⟨0, 0, 0, 0, 0, 0, 0, 0⟩
    (fun s g w hs => by injection hs with hs; injection hs with _ hs; subst hs; exact drift_solves s)
    (fun x y => by show y = x + (1 : Matrix (Fin 1) (Fin 1) ℝ) *ᵥ (y - x); rw [one_mulVec]; abel) 1 1
    (by
      intro s phi0 dphi0 phi a calls h b hb
      simp only [Option.some.injEq, Prod.mk.injEq] at h
      rw [← h.2, List.mem_singleton] at hb
      subst hb
      exact ⟨le_rfl, le_rfl⟩) 1 (fun _ => []) driftSt s (fun i _ => by rw [drift_nc]; rfl) (fun i _ => by rw [drift_nc]; rfl) h
    (drift_right _ _)
  refine ⟨s, as, r, h, h1 (0 : Fin 1), h2, ?_, h4 (by rw [hn]; norm_num)⟩
  rw [h0] at h3
  exact congrFun h3 (0 : Fin 1)

/-- The same solver with a forced initial condition. -/
noncomputable def forcedSetup : Setup := { driftSetup with force := true }

/-- A guess with a defect of the initial condition and one of the dynamics, both within the tolerance. -/
noncomputable def nearIter : NLIter (fun _ => 1) (fun _ => 1) drift.nc0 :=
  ⟨⟨fun i _ => if i = 0 then 1 / 2 else 1 / 4, fun _ _ => 1 / 2, ⟨fun _ => 3, fun _ _ => 0.01⟩, fun _ => []⟩, fun _ => 0⟩

/-- A run from that guess meets the hypotheses of `C58_run_converged_partial`. -/
example (search : DSt → Search) (hne : ∀ s phi0 dphi0 phi a, search s phi0 dphi0 phi ≠ some (a, [])) (solve) :
    ∃ (s : DSt) (w : ℕ → List ℝ), runNL drift driftParams (envNL drift forcedSetup (oracleNL drift forcedSetup search solve)) 1 (fun _ => [])
      { driftSt with x := nearIter } = .done true s ∧
    Link.Spec.ApproxFeasible (drift.spec s.x.it.x s.x.it.u) (fun _ => witC 1) drift.nc 1 w s.x.it.x s.x.it.u ∧
    s.x.it.x 0 = fun _ => 1 / 2 := by
  set e := envNL drift forcedSetup (oracleNL drift forcedSetup search solve) with he
  set s := initRun driftParams (fun _ => []) { driftSt with x := nearIter } with hs
  have hmu : s.mu = 0.01 := by
    show max (0.01:ℝ) 1e-8 = 0.01
    norm_num
  have f5 : s.innerTol = 0.05 := by
    show max ((1:ℝ) * (min s.mu 0.99) ^ (1:ℝ)) 0.05 = 0.05
    rw [hmu, Real.rpow_one]
    norm_num
  have f6 : (1 : ℝ) ≤ s.primTol := le_max_right _ _
  obtain ⟨t1, t2, t3⟩ := wit_step1 0.01
  set x := refresh drift s.x with hx
  have hm : ∀ i, (multNL drift forcedSetup 0.01 (fun _ => []) x).1.ms i = multiplierStep noSet 0.01 [] [] [] [] [] := by
    intro i
    have hc : (heldValues drift x).c i = [] := by
      show (drift.values x.it.x x.it.u).c i = []
      have := values_c_length drift x.it.x x.it.u i
      rw [drift_nc] at this
      exact List.length_eq_zero_iff.1 this
    show multiplierStep noSet 0.01 ((heldValues drift x).c i) [] [] [] [] = _
    rw [hc]
  have hsl0 : slacks (multNL drift forcedSetup 0.01 (fun _ => []) x).1.V 0 = [1 / 2] := by
    show List.ofFn (fun _ : Fin 1 => (if (0 : ℕ) = 0 then 1 / 2 else 1 / 4 : ℝ)) = _
    simp
  have hsl1 : slacks (multNL drift forcedSetup 0.01 (fun _ => []) x).1.V 1 = [3 / 4] := by
    show List.ofFn (fun _ : Fin 1 => ((if (0 : ℕ) = 0 then 1 / 2 else 1 / 4 : ℝ) + 1 / 2 - if (1 : ℕ) = 0 then 1 / 2 else 1 / 4)) = _
    simp
    norm_num
  have hprim : (multNL drift forcedSetup 0.01 (fun _ => []) x).2 = some (3 / 4) := by
    show some (primInfeas 1 (fun i => ((multNL drift forcedSetup 0.01 (fun _ => []) x).1.ms i).infeas)
      (slacks (multNL drift forcedSetup 0.01 (fun _ => []) x).1.V)) = _
    congr 1
    simp [primInfeas, List.range_succ, hsl0, hsl1, hm, t3, infNorm]
    norm_num
  obtain ⟨g1, g2, g3⟩ := compute_eq (drift.data x.it.x x.it.u) (some x.it.lam) x.it.vs
  have gx0 : (gradAt drift true x.it).Lxs 0 = 0 := by simp [gradAt, Grad.setX]
  have gx1 : (gradAt drift true x.it).Lxs 1 = fun _ => -0.01 := by
    have e : (gradAt drift true x.it).Lxs 1 = -(fun _ : Fin 1 => (0.01 : ℝ)) + (0 + 0) := g2
    rw [e]
    funext k
    simp
  have gu0 : (gradAt drift true x.it).Lus 0 = fun _ => 0.01 := by
    have e : (gradAt drift true x.it).Lus 0 = 0 + (1 : Matrix (Fin 1) (Fin 1) ℝ)ᵀ *ᵥ (fun _ : Fin 1 => (0.01 : ℝ)) + 0 := g3 0 one_pos
    rw [e]
    funext k
    simp
  have hdual : e.dualInf x ≤ 0.05 := by
    show (LQ.computeCriterion 1 (gradAt drift true x.it) (fun _ => []) fun _ => []).dual ≤ _
    simp [LQ.computeCriterion, List.range_succ, gx0, gx1, gu0, infNorm]
    norm_num
  have hcrit : 1 / 2 ≤ e.innerCrit x (multNL drift forcedSetup 0.01 (fun _ => []) x).1 := by
    have e1 : infNorm (slacks (multNL drift forcedSetup 0.01 (fun _ => []) x).1.V 0) = 1 / 2 := by
      rw [hsl0]; simp [infNorm]
    have := le_infNorm (List.mem_append_left (as := (List.range 1).map (fun i => max
      (max (LQ.infNorm (List.ofFn ((gradAt drift true x.it).Lxs i))) (LQ.infNorm (List.ofFn ((gradAt drift true x.it).Lus i))))
      (max (LQ.infNorm (slacks (multNL drift forcedSetup 0.01 (fun _ => []) x).1.V i))
        (LQ.infNorm ((multNL drift forcedSetup 0.01 (fun _ => []) x).1.ms i).Lvs))))
      [max (LQ.infNorm (List.ofFn ((gradAt drift true x.it).Lxs 1))) (LQ.infNorm ((multNL drift forcedSetup 0.01 (fun _ => []) x).1.ms 1).Lvs)]
      (List.mem_map.2 ⟨0, List.mem_range.2 one_pos, rfl⟩))
    exact (e1.ge.trans ((le_max_left _ _).trans (le_max_right _ _))).trans ((le_abs_self _).trans this)
  set s0 : DSt := { ({ s with x := x } : DSt).push false with
    ws := (multNL drift forcedSetup 0.01 (fun _ => []) x).1, prim := 3 / 4 } with hs0
  have hcm : computeMultipliers e x (({ s with x := x } : DSt).push false) = s0 := by
    have h1 : e.mult (({ s with x := x } : DSt).push false).mu (({ s with x := x } : DSt).push false).prevV x =
        ((multNL drift forcedSetup 0.01 (fun _ => []) x).1, some (3 / 4)) := by
      show multNL drift forcedSetup s.mu (fun _ => []) _ = _
      rw [hmu]
      exact Prod.ext rfl hprim
    unfold computeMultipliers
    rw [h1]
  have hin : innerLoopNL drift driftParams e s = .done true (ProxDDP.computeCriterion e s0) := by
    unfold innerLoopNL innerLoop
    dsimp only
    rw [← hx, hcm, show driftParams.maxIters - s0.numIters = 999 + 1 from rfl, innerIter]
    dsimp only
    rw [if_pos]
    exact .inr ⟨hdual, by show (3 / 4 : ℝ) ≤ 1; norm_num⟩
  have hrun : ∃ s', runNL drift driftParams e 1 (fun _ => []) { driftSt with x := nearIter } = .done true s' := by
    unfold runNL
    rw [show driftParams.maxAlIters = 99 + 1 from rfl, outerNL, if_pos (by rw [← hs]; show 0 < 1000; omega), ← hs, hin]
    dsimp only
    rw [if_pos (by show (3 / 4 : ℝ) ≤ s.primTol; linarith), tighten]
    rw [if_neg]
    · dsimp only
      rw [if_pos]
      · exact ⟨_, rfl⟩
      · exact ⟨hdual, by show (3 / 4 : ℝ) ≤ 1; norm_num⟩
    · show ¬ e.innerCrit x (multNL drift forcedSetup 0.01 (fun _ => []) x).1 < s.innerTol * (min s.mu 0.99) ^ (1:ℝ)
      rw [f5, hmu, Real.rpow_one]
      norm_num
      linarith
  obtain ⟨s', h⟩ := hrun
  have hfit : forcedSetup.Fits drift (fun _ => witC 1) := by
    refine ⟨fun i hi => ?_, fun i hi => ?_, fun i hi => ?_⟩
    · rw [drift_nc]; exact wit_projects.2
    · rw [drift_nc]; rfl
    · rw [drift_nc]; rfl
  obtain ⟨w, -, hw, -, h0, -⟩ := C58_run_converged_partial drift forcedSetup search solve (p := driftParams)
    (by show (0 : ℝ) < 1e-8; norm_num) hfit hne rfl 1 (fun _ => []) _ s' (fun i _ => by rw [drift_nc]; rfl)
    (fun i _ => by rw [drift_nc]; rfl) h (drift_right _ _)
  exact ⟨s', w, h, hw, h0⟩

end witness

end Aligator.NLRoll
