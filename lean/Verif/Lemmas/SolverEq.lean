import Verif.Lemmas.SolverLQ

/-!
# Lemmas: runs of ProxDDP in which every inner loop takes at most one step
-/

namespace Aligator.ProxDDP

variable {X V W : Type}

open Classical in
/-- The regularisation of the next linear system. -/
noncomputable def nextPreg (p : Params) (r : ℝ) : ℝ := if r = 0 then max p.regInit p.regMin else max p.regMin (r * p.regDec)

theorem headSt_fields (p : Params) {e : Env X V W} {s : St X V W} {w : W} {pr : ℝ} (hw : e.mult s.mu s.prevV s.x = (w, some pr)) :
    (headSt p e s).x = s.x ∧ (headSt p e s).prevV = s.prevV ∧ (headSt p e s).mu = s.mu ∧
    (headSt p e s).preg = nextPreg p s.pregLast ∧ (headSt p e s).ws = w ∧ (headSt p e s).innerTol = s.innerTol ∧
    (headSt p e s).primTol = s.primTol ∧ (headSt p e s).numIters = s.numIters ∧ (headSt p e s).alIter = s.alIter := by
  have hcm : computeMultipliers e s.x (s.push false) = { s.push false with ws := w, prim := pr } := computeMultipliers_eq hw
  unfold headSt
  rw [hcm]
  unfold initializeRegularization nextPreg
  have hp : (computeCriterion e { s.push false with ws := w, prim := pr }).pregLast = s.pregLast := rfl
  rw [hp]
  split <;> exact ⟨rfl, rfl, rfl, rfl, rfl, rfl, rfl, rfl, rfl⟩

/-- An inner loop that takes one step and then stops. -/
theorem innerLoop_one_step {p : Params} {e : Env X V W} {s : St X V W} (hi : s.numIters + 2 ≤ p.maxIters) {w : W} {pr : ℝ}
    (hw : e.mult s.mu s.prevV s.x = (w, some pr))
    (hgo : ¬ (e.innerCrit s.x w ≤ s.innerTol ∨ (e.dualInf s.x ≤ p.targetDual ∧ pr ≤ p.targetTol)))
    {dphi a : ℝ} {l : List X} {x1 : X} (ho : e.oracle (headSt p e s) = .step dphi (l ++ [x1]) a)
    (hdphi : ¬ |dphi| ≤ p.dphiThresh) (ha : ¬ a ≤ p.alphaMin) {w1 : W} {pr1 : ℝ}
    (hw1 : e.mult s.mu s.prevV x1 = (w1, some pr1)) (hstop : e.innerCrit x1 w1 ≤ s.innerTol) :
    ∃ s2, innerLoop p e s = .done true s2 ∧ s2.x = x1 ∧ s2.prevV = s.prevV ∧ s2.ws = w1 ∧ s2.mu = s.mu ∧
      s2.innerTol = s.innerTol ∧ s2.primTol = s.primTol ∧ s2.pregLast = nextPreg p s.pregLast ∧ s2.prim = pr1 ∧
      s2.dual = e.dualInf x1 ∧ s2.crit = e.innerCrit x1 w1 ∧ s2.numIters = s.numIters + 1 := by
  obtain ⟨f1, f2, f3, f4, f5, f6, f7, f8, -⟩ := headSt_fields p hw
  obtain ⟨k, hk⟩ : ∃ k, p.maxIters - s.numIters = k + 2 := ⟨p.maxIters - s.numIters - 2, by omega⟩
  have hcm : computeMultipliers e s.x (s.push false) = { s.push false with ws := w, prim := pr } := computeMultipliers_eq hw
  set t := { s.push false with ws := w, prim := pr } with ht
  have hhd : headSt p e s = (initializeRegularization p (computeCriterion e t)).push true := by
    unfold headSt
    rw [hcm]
  have fold : ∀ (l : List X) (q : St X V W), ∃ w' pr', l.foldl (forwardPass e) q =
      { q with ws := w', prim := pr', trial := (l.foldl (forwardPass e) q).trial } := by
    intro l
    induction l with
    | nil => intro q; exact ⟨q.ws, q.prim, rfl⟩
    | cons y l ih =>
      intro q
      obtain ⟨w', pr', h⟩ := ih (forwardPass e q y)
      have : ∃ w'' pr'', forwardPass e q y = { q with ws := w'', prim := pr'', trial := y } := by
        unfold forwardPass computeMultipliers
        split
        · exact ⟨_, _, rfl⟩
        · exact ⟨_, q.prim, rfl⟩
      obtain ⟨w'', pr'', h'⟩ := this
      refine ⟨w', pr', ?_⟩
      rw [List.foldl_cons, h, h']
  set q := headSt p e s with hq
  have hfin : (l ++ [x1]).foldl (forwardPass e) q = { q with ws := w1, prim := pr1, trial := x1 } := by
    rw [List.foldl_append]
    obtain ⟨w', pr', h⟩ := fold l q
    rw [h]
    show computeMultipliers e x1 _ = _
    rw [computeMultipliers_eq (w := w1) (pr := pr1) (by
      show e.mult q.mu q.prevV x1 = _
      rw [f2, f3]; exact hw1)]
  let s2 : St X V W := { q with
    ws := w1
    prim := pr1
    trial := x1
    x := x1
    pregLast := q.preg
    numIters := q.numIters + 1
    crit := e.innerCrit x1 w1
    dual := e.dualInf x1 }
  have hin : innerLoop p e s = .done true s2 := by
    unfold innerLoop
    dsimp only
    rw [hcm]
    show innerIter p e (p.maxIters - s.numIters) t = _
    rw [hk]
    unfold innerIter
    dsimp only
    refine (if_neg hgo).trans ?_
    rw [← hhd, ho]
    dsimp only
    rw [if_neg hdphi, if_neg ha, hfin]
    dsimp only
    unfold innerIter
    dsimp only
    refine if_pos (Or.inl ?_)
    show e.innerCrit x1 w1 ≤ q.innerTol
    rw [f6]
    exact hstop
  exact ⟨s2, hin, rfl, f2, rfl, f3, f6, f7, f4, rfl, rfl, rfl, congrArg (· + 1) f8⟩

/-- An inner loop that stops at once. -/
theorem innerLoop_no_step {p : Params} {e : Env X V W} {s : St X V W} (hi : s.numIters < p.maxIters) {w : W} {pr : ℝ}
    (hw : e.mult s.mu s.prevV s.x = (w, some pr)) (hstop : e.innerCrit s.x w ≤ s.innerTol) :
    ∃ s2, innerLoop p e s = .done true s2 ∧ s2.x = s.x ∧ s2.prevV = s.prevV ∧ s2.ws = w ∧ s2.mu = s.mu ∧
      s2.innerTol = s.innerTol ∧ s2.primTol = s.primTol ∧ s2.pregLast = s.pregLast ∧ s2.prim = pr ∧
      s2.dual = e.dualInf s.x ∧ s2.crit = e.innerCrit s.x w ∧ s2.numIters = s.numIters := by
  obtain ⟨k, hk⟩ : ∃ k, p.maxIters - s.numIters = k + 1 := ⟨p.maxIters - s.numIters - 1, by omega⟩
  have hcm : computeMultipliers e s.x (s.push false) = { s.push false with ws := w, prim := pr } := computeMultipliers_eq hw
  refine ⟨computeCriterion e { s.push false with ws := w, prim := pr }, ?_, rfl, rfl, rfl, rfl, rfl, rfl, rfl, rfl, rfl, rfl, rfl⟩
  unfold innerLoop
  dsimp only
  rw [hcm]
  show innerIter p e (p.maxIters - s.numIters) _ = _
  rw [hk]
  unfold innerIter
  exact if_pos (Or.inl hstop)

theorem tighten_le {p : Params} (fuel : ℕ) (s s' : St X V W) (h : tighten p fuel s = some s') : s'.innerTol ≤ s.crit := by
  induction fuel generalizing s with
  | zero => cases h
  | succ n ih =>
    unfold tighten at h
    dsimp only at h
    split at h
    · exact (ih (updateTolsOnSuccess p s) h).trans (le_of_eq rfl)
    · rename_i hc
      cases h
      exact not_lt.1 hc

/-- An outer iteration with a small infeasibility that has not converged. -/
theorem outer_success {p : Params} (hb : 0 < p.dualBeta) {e : Env X V W} {s s2 : St X V W} (hi : s.numIters < p.maxIters)
    (hin : innerLoop p e s = .done true s2) (hmu : 0 < s2.mu) (hc : 0 < s2.crit) (hp : s2.prim ≤ s2.primTol) :
    ∃ (F : ℕ) (a b : ℝ), b ≤ s2.crit ∧
      (s2.dual ≤ p.targetDual ∧ s2.prim ≤ p.targetTol → ∀ n fuel, F ≤ fuel → outer p e fuel (n + 1) s =
        .done true { s2 with primTol := a, innerTol := b, prevV := e.nextV s2.x s2.ws }) ∧
      (¬ (s2.dual ≤ p.targetDual ∧ s2.prim ≤ p.targetTol) → ∀ n fuel, F ≤ fuel → outer p e fuel (n + 1) s =
        outer p e fuel n { s2 with
          primTol := max a p.targetTol
          innerTol := max b (0.01 * p.targetDual)
          prevV := e.nextV s2.x s2.ws
          alIter := s2.alIter + 1 }) := by
  obtain ⟨F, s3, hF⟩ := tighten_terminates p hb s2 hmu hc
  have hle := tighten_le F s2 s3 hF
  obtain ⟨a, b, rfl⟩ := tighten_fields p F _ _ hF
  refine ⟨F, a, b, hle, fun hd n fuel hf => ?_, fun hd n fuel hf => ?_⟩
  · have ht := tighten_mono p F fuel hf _ _ hF
    rw [outer, if_pos hi, hin]
    dsimp only
    rw [if_pos hp, ht]
    dsimp only
    rw [if_pos hd]
  · have ht := tighten_mono p F fuel hf _ _ hF
    rw [outer, if_pos hi, hin]
    dsimp only
    rw [if_pos hp, ht]
    dsimp only
    rw [if_neg hd]
    rfl

/-- An outer iteration with a large infeasibility, the penalty parameter staying away from its bound. -/
theorem outer_failure {p : Params} {e : Env X V W} {s s2 : St X V W} (hi : s.numIters < p.maxIters)
    (hin : innerLoop p e s = .done true s2) (hp : ¬ s2.prim ≤ s2.primTol) (hlb : p.muLb ≤ s2.mu * p.muFactor)
    (hcl : scalarClose p.closeEps (s2.mu * p.muFactor) p.muLb = false) (n fuel : ℕ) :
    outer p e fuel (n + 1) s = outer p e fuel n { s2 with
      mu := s2.mu * p.muFactor
      primTol := max (p.primTol0 * (min (s2.mu * p.muFactor) 0.99) ^ p.primAlpha) p.targetTol
      innerTol := max (p.innerTol0 * (min (s2.mu * p.muFactor) 0.99) ^ p.dualAlpha) (0.01 * p.targetDual)
      alIter := s2.alIter + 1 } := by
  rw [outer, if_pos hi, hin]
  dsimp only
  rw [if_neg hp]
  congr 1
  unfold clamp onFailure setAlmPenalty updateTolsOnFailure
  dsimp only
  rw [max_eq_left hlb, hcl]
  rfl

/-! ### Convergence of the multiplier iteration, abstractly -/

/-- What the argument knows of the iterates: constraint violation, squared distances of iterate and multipliers to a solution,
the multipliers of an iterate; well-behaved iterates and multipliers; `Rel mu v x`: the constraint values at `x` are `mu` times
the difference of its multipliers and `v`; `Fine mu x`: with penalty parameter `mu` and its own multipliers the constraints at `x`
are on the right sides. -/
structure Ctx (X V : Type) where
  viol : X → ℝ
  eX : X → ℝ
  eV : V → ℝ
  vs : X → V
  Near : X → Prop
  Ok : V → Prop
  Rel : ℝ → V → X → Prop
  Fine : ℝ → X → Prop

/-- Parameters of the argument: first penalty parameter, bound on the energy, number of steps, contraction of the energy, and
of the product of energy and penalty parameter. -/
structure Plan where
  mu0 : ℝ
  B0 : ℝ
  M : ℕ
  q : ℝ
  r : ℝ

/-- The conditions on the parameters of the solver. -/
structure Plan.Fits (q : Plan) (p : Params) : Prop where
  mu0 : 0 < q.mu0
  B0 : 0 ≤ q.B0
  theta0 : 0 < p.muFactor
  q0 : 0 ≤ q.q
  q1 : q.q + p.muFactor ≤ 1
  theta2 : p.muFactor < 1
  qr : q.q ≤ q.r
  tr : p.muFactor * (q.q + p.muFactor) ≤ q.r
  tol : 0 ≤ p.targetTol
  dual : 0 ≤ p.targetDual
  tols : 0.01 * p.targetDual ≤ (1 - p.muFactor) * p.targetTol
  sched : ∀ j, j ≤ q.M → p.innerTol0 * (min (p.muFactor ^ j * q.mu0) 0.99) ^ p.dualAlpha ≤
    (1 - p.muFactor) * (p.primTol0 * (min (p.muFactor ^ j * q.mu0) 0.99) ^ p.primAlpha)
  last : q.r ^ q.M * (q.mu0 * q.B0) ≤ p.targetTol ^ 2
  lb : ∀ j, 1 ≤ j → j ≤ q.M → p.muLb ≤ p.muFactor ^ j * q.mu0 ∧ scalarClose p.closeEps (p.muFactor ^ j * q.mu0) p.muLb = false
  regMin : 0 < p.regMin
  regDec : p.regDec ≤ 1

/-- A state at which the linear system is solved. -/
structure Work (C : Ctx X V) (p : Params) (e : Env X V W) (q : Plan) (st : St X V W) : Prop where
  near : C.Near st.x
  fine : C.Fine st.mu st.x
  far : p.targetTol < C.viol st.x
  ok : C.Ok st.prevV
  mu : ∃ j, j ≤ q.M ∧ st.mu = p.muFactor ^ j * q.mu0
  preg0 : 0 < st.preg
  preg1 : st.preg ≤ max p.regInit p.regMin
  energy : st.preg * C.eX st.x + st.mu * C.eV st.prevV ≤ q.B0
  kind : st.prevV = C.vs st.x ∨ C.Rel (st.mu / p.muFactor) st.prevV st.x
  ws : st.ws = (e.mult st.mu st.prevV st.x).1

/-- A step from a state to `x1`. -/
structure Step1 (C : Ctx X V) (p : Params) (e : Env X V W) (q : ℝ) (st : St X V W) (x1 : X) : Prop where
  oracle : ∃ dphi l a, e.oracle st = .step dphi (l ++ [x1]) a ∧ ¬ |dphi| ≤ p.dphiThresh ∧ ¬ a ≤ p.alphaMin
  near : C.Near x1
  rel : C.Rel st.mu st.prevV x1
  crit0 : 0 < e.innerCrit x1 (e.mult st.mu st.prevV x1).1
  crit1 : e.innerCrit x1 (e.mult st.mu st.prevV x1).1 ≤ 0.01 * p.targetDual
  viol : C.viol x1 ^ 2 ≤ st.mu * (st.preg * C.eX st.x + st.mu * C.eV st.prevV)
  energy : st.preg * C.eX x1 + st.mu * C.eV (C.vs x1) ≤ q * (st.preg * C.eX st.x + st.mu * C.eV st.prevV)

/-- The facts about problem and solver. -/
structure Facts (C : Ctx X V) (p : Params) (e : Env X V W) (q : Plan) : Prop where
  viol : ∀ x, 0 ≤ C.viol x
  eX : ∀ x, 0 ≤ C.eX x
  eV : ∀ v, 0 ≤ C.eV v
  nextV : ∀ x w, e.nextV x w = C.vs x
  okvs : ∀ x, C.Near x → C.Ok (C.vs x)
  mult : ∀ mu v x, 0 < mu → C.Ok v → C.Near x → C.Rel mu v x ∨ (C.Fine mu x ∧ (v = C.vs x ∨ C.Rel (mu / p.muFactor) v x)) →
    (e.mult mu v x).2 = some (C.viol x)
  fine : ∀ mu v x, 0 < mu → C.Ok v → C.Near x → C.Rel mu v x → C.Fine mu x ∧ C.Fine (mu * p.muFactor) x
  dual : ∀ x, C.Near x → e.dualInf x ≤ 0.01 * p.targetDual
  critA : ∀ mu x, 0 < mu → C.Near x → C.Fine mu x → C.viol x ≤ e.innerCrit x (e.mult mu (C.vs x) x).1
  critB : ∀ mu v x, 0 < mu → C.Ok v → C.Near x → C.Fine mu x → C.Rel (mu / p.muFactor) v x →
    (1 - p.muFactor) * C.viol x ≤ e.innerCrit x (e.mult mu v x).1 ∧
    e.innerCrit x (e.mult mu v x).1 ≤ max (0.01 * p.targetDual) ((1 - p.muFactor) * C.viol x)
  work : ∀ st, Work C p e q st → ∃ x1, Step1 C p e q.q st x1

/-- The states at the head of an outer iteration; `m` is a budget of steps. -/
structure HeadEq (C : Ctx X V) (p : Params) (q : Plan) (m : ℕ) (s : St X V W) : Prop where
  near : C.Near s.x
  fine : C.Fine s.mu s.x
  far : p.targetTol < C.viol s.x
  ok : C.Ok s.prevV
  reg : p.regMin ≤ s.pregLast ∧ s.pregLast ≤ max p.regInit p.regMin
  bound : ∃ k j B, k + m = q.M ∧ j ≤ k ∧ s.mu = p.muFactor ^ j * q.mu0 ∧ B ≤ q.B0 ∧
    s.pregLast * C.eX s.x + s.mu * C.eV s.prevV ≤ B ∧ s.pregLast * C.eX s.x + s.mu * C.eV (C.vs s.x) ≤ B ∧
    s.mu * B ≤ q.r ^ k * (q.mu0 * q.B0)
  innerTol : 0.01 * p.targetDual ≤ s.innerTol
  primTol : p.targetTol ≤ s.primTol

/-- The multipliers were just updated. -/
def KindA (C : Ctx X V) (s : St X V W) : Prop := s.prevV = C.vs s.x ∧ s.innerTol < C.viol s.x

/-- The penalty parameter was just decreased. -/
def KindB (C : Ctx X V) (p : Params) (s : St X V W) : Prop :=
  C.Rel (s.mu / p.muFactor) s.prevV s.x ∧
  s.innerTol = max (p.innerTol0 * (min s.mu 0.99) ^ p.dualAlpha) (0.01 * p.targetDual) ∧
  s.primTol = max (p.primTol0 * (min s.mu 0.99) ^ p.primAlpha) p.targetTol

/-- What a run ends with. -/
def Ends (C : Ctx X V) (p : Params) (e : Env X V W) (n m : ℕ) (s : St X V W) : Prop :=
  ∃ F, ∀ fuel, F ≤ fuel → ∃ s', outer p e fuel n s = .done true s' ∧ C.Near s'.x ∧ C.viol s'.x ≤ p.targetTol ∧
    s'.numIters ≤ s.numIters + m + 1 ∧ s'.prim = C.viol s'.x ∧ s'.dual = e.dualInf s'.x

set_option maxHeartbeats 1600000 in
/-- One outer iteration with a step, given what follows. -/
theorem ends_step {C : Ctx X V} {p : Params} {e : Env X V W} {q : Plan} (hq : q.Fits p) (hb : 0 < p.dualBeta) (hC : Facts C p e q)
    {n m : ℕ}
    (ih : ∀ m' (s : St X V W), m' < m → HeadEq C p q m' s → KindA C s ∨ KindB C p s → 2 * m' + 2 ≤ n → s.numIters + m' + 2 ≤ p.maxIters →
      Ends C p e n m' s)
    {s : St X V W} (hok : C.Ok s.prevV) {k j : ℕ} {B : ℝ} (hkm : k + m = q.M) (hj : j ≤ k)
    (hmu : s.mu = p.muFactor ^ j * q.mu0) (hB : B ≤ q.B0) (hprog : s.mu * B ≤ q.r ^ k * (q.mu0 * q.B0))
    (hin : 0.01 * p.targetDual ≤ s.innerTol) (hpt : p.targetTol ≤ s.primTol) {w : W} {pr : ℝ}
    (hw : e.mult s.mu s.prevV s.x = (w, some pr))
    (hgo : ¬ (e.innerCrit s.x w ≤ s.innerTol ∨ (e.dualInf s.x ≤ p.targetDual ∧ pr ≤ p.targetTol))) {x1 : X}
    (hst : Step1 C p e q.q (headSt p e s) x1)
    (hen : nextPreg p s.pregLast * C.eX s.x + s.mu * C.eV s.prevV ≤ B)
    (hreg : p.regMin ≤ nextPreg p s.pregLast ∧ nextPreg p s.pregLast ≤ max p.regInit p.regMin)
    (hn : 2 * m ≤ n) (hit : s.numIters + m + 2 ≤ p.maxIters) : Ends C p e (n + 1) m s := by
  obtain ⟨f1, f2, f3, f4, f5, -⟩ := headSt_fields p hw
  have th0 := hq.theta0
  have mu0 : 0 < s.mu := by rw [hmu]; exact mul_pos (pow_pos th0 _) hq.mu0
  obtain ⟨dphi, l, a, ho, hdphi, ha⟩ := hst.oracle
  have hrel := hst.rel
  have hc0 := hst.crit0
  have hc1 := hst.crit1
  have henergy := hst.energy
  have hviol := hst.viol
  rw [f2, f3] at hrel hc0 hc1 henergy hviol
  rw [f4, f1] at henergy hviol
  have hw1 : e.mult s.mu s.prevV x1 = ((e.mult s.mu s.prevV x1).1, some (C.viol x1)) :=
    Prod.ext rfl (hC.mult s.mu s.prevV x1 mu0 hok hst.near (Or.inl hrel))
  obtain ⟨fi1, fi2⟩ := hC.fine s.mu s.prevV x1 mu0 hok hst.near hrel
  obtain ⟨s2, hil, a1, a2, a3, a4, a5, a6, a7, a8, a9, a10, a11⟩ :=
    innerLoop_one_step (by omega) hw hgo ho hdphi ha hw1 (hc1.trans hin)
  have hni : s.numIters < p.maxIters := by omega
  have hdual : s2.dual ≤ p.targetDual := by
    rw [a9]
    have := hC.dual x1 hst.near
    have := hq.dual
    linarith
  have hv0 := hC.viol x1
  have hpr0 : 0 < nextPreg p s.pregLast := hq.regMin.trans_le hreg.1
  have hx0 : 0 ≤ nextPreg p s.pregLast * C.eX x1 := mul_nonneg hpr0.le (hC.eX x1)
  have hx0' : 0 ≤ nextPreg p s.pregLast * C.eX s.x := mul_nonneg hpr0.le (hC.eX s.x)
  have hvv : 0 ≤ s.mu * C.eV (C.vs x1) := mul_nonneg mu0.le (hC.eV _)
  have hvp : 0 ≤ s.mu * C.eV s.prevV := mul_nonneg mu0.le (hC.eV _)
  have hq0 := hq.q0
  have hB0 : 0 ≤ B := by linarith
  have hE : nextPreg p s.pregLast * C.eX x1 + s.mu * C.eV (C.vs x1) ≤ q.q * B :=
    henergy.trans (mul_le_mul_of_nonneg_left hen hq0)
  have hmuB0 : C.viol x1 ^ 2 ≤ s.mu * B := hviol.trans (mul_le_mul_of_nonneg_left hen mu0.le)
  have hr0 : 0 ≤ q.r := hq0.trans hq.qr
  have hPhi : 0 ≤ s.mu * B := mul_nonneg mu0.le hB0
  by_cases hconv : C.viol x1 ≤ p.targetTol
  · -- converged
    obtain ⟨F, a', b', -, h1, -⟩ := outer_success hb hni hil (by rw [a4]; exact mu0) (by rw [a10]; exact hc0)
      (by rw [a8, a6]; exact hconv.trans hpt)
    refine ⟨F, fun fuel hf => ⟨_, h1 ⟨hdual, by rw [a8]; exact hconv⟩ n fuel hf, ?_, ?_, ?_, ?_, ?_⟩⟩
    · show C.Near s2.x
      rw [a1]; exact hst.near
    · show C.viol s2.x ≤ _
      rw [a1]; exact hconv
    · show s2.numIters ≤ _
      rw [a11]; omega
    · show s2.prim = C.viol s2.x
      rw [a8, a1]
    · show s2.dual = e.dualInf s2.x
      rw [a9, a1]
  · have hfar := not_le.1 hconv
    have htol := hq.tol
    have hsq : p.targetTol ^ 2 < C.viol x1 ^ 2 := by nlinarith
    have hsq0 : 0 ≤ p.targetTol ^ 2 := sq_nonneg _
    -- there is budget left
    obtain ⟨m', rfl⟩ : ∃ m', m = m' + 1 := by
      cases m with
      | zero =>
        have hl := hq.last
        rw [← hkm, Nat.add_zero] at hl
        linarith
      | succ m' => exact ⟨m', rfl⟩
    have hg0 : 0.01 * p.targetDual < C.viol x1 := by
      have h1 := hq.tols
      have : (1 - p.muFactor) * p.targetTol ≤ p.targetTol := by nlinarith
      linarith
    by_cases hpr : C.viol x1 ≤ s.primTol
    · -- the multipliers are updated
      obtain ⟨F, a', b', hb', -, h2⟩ := outer_success hb hni hil (by rw [a4]; exact mu0) (by rw [a10]; exact hc0)
        (by rw [a8, a6]; exact hpr)
      rw [a10] at hb'
      have key := ih m' { s2 with primTol := max a' p.targetTol, innerTol := max b' (0.01 * p.targetDual), prevV := e.nextV s2.x s2.ws, alIter := s2.alIter + 1 }
        (by omega) ?_ (Or.inl ?_) (by omega) (by show s2.numIters + m' + 2 ≤ _; rw [a11]; omega)
      · obtain ⟨F', hF'⟩ := key
        refine ⟨max F F', fun fuel hf => ?_⟩
        obtain ⟨s', r1, r2, r3, r4, r5⟩ := hF' fuel (le_trans (le_max_right _ _) hf)
        refine ⟨s', ?_, r2, r3, ?_, r5⟩
        · rw [h2 (fun h => hconv (by rw [← a8]; exact h.2)) n fuel (le_trans (le_max_left _ _) hf)]
          exact r1
        · have : s'.numIters ≤ s2.numIters + m' + 1 := r4
          rw [a11] at this
          omega
      · have hp2 : s2.pregLast = nextPreg p s.pregLast := a7
        refine ⟨?_, ?_, ?_, ?_, ?_, ⟨k + 1, j, q.q * B, by omega, by omega, ?_, ?_, ?_, ?_, ?_⟩, le_max_right _ _, le_max_right _ _⟩
        · show C.Near s2.x; rw [a1]; exact hst.near
        · show C.Fine s2.mu s2.x; rw [a1, a4]; exact fi1
        · show _ < C.viol s2.x; rw [a1]; exact hfar
        · show C.Ok (e.nextV s2.x s2.ws); rw [hC.nextV, a1]; exact hC.okvs _ hst.near
        · show p.regMin ≤ s2.pregLast ∧ s2.pregLast ≤ _; rw [a7]; exact hreg
        · show s2.mu = _; rw [a4]; exact hmu
        · have h1 := hq.q1
          have : q.q * B ≤ 1 * B := mul_le_mul_of_nonneg_right (by linarith) hB0
          linarith
        · show s2.pregLast * C.eX s2.x + s2.mu * C.eV (e.nextV s2.x s2.ws) ≤ _
          rw [hC.nextV, a1, a7, a4]; exact hE
        · show s2.pregLast * C.eX s2.x + s2.mu * C.eV (C.vs s2.x) ≤ _
          rw [a1, a7, a4]; exact hE
        · show s2.mu * _ ≤ _
          rw [a4]
          calc s.mu * (q.q * B) = q.q * (s.mu * B) := by ring
            _ ≤ q.r * (s.mu * B) := mul_le_mul_of_nonneg_right hq.qr hPhi
            _ ≤ q.r * (q.r ^ k * (q.mu0 * q.B0)) := mul_le_mul_of_nonneg_left hprog hr0
            _ = q.r ^ (k + 1) * (q.mu0 * q.B0) := by rw [pow_succ]; ring
      · refine ⟨?_, ?_⟩
        · show e.nextV s2.x s2.ws = C.vs s2.x
          rw [hC.nextV]
        · show max b' (0.01 * p.targetDual) < C.viol s2.x
          rw [a1]
          exact max_lt (lt_of_le_of_lt (hb'.trans hc1) hg0) hg0
    · -- the penalty parameter is decreased
      obtain ⟨lb1, lb2⟩ := hq.lb (j + 1) (by omega) (by omega)
      have hmu' : s2.mu * p.muFactor = p.muFactor ^ (j + 1) * q.mu0 := by rw [a4, hmu, pow_succ]; ring
      have hout := outer_failure (e := e) hni hil (by rw [a8, a6]; exact hpr) (by rw [hmu']; exact lb1) (by rw [hmu']; exact lb2) n
      have key := ih m' { s2 with
          mu := s2.mu * p.muFactor
          primTol := max (p.primTol0 * (min (s2.mu * p.muFactor) 0.99) ^ p.primAlpha) p.targetTol
          innerTol := max (p.innerTol0 * (min (s2.mu * p.muFactor) 0.99) ^ p.dualAlpha) (0.01 * p.targetDual)
          alIter := s2.alIter + 1 }
        (by omega) ?_ (Or.inr ⟨?_, rfl, rfl⟩) (by omega) (by show s2.numIters + m' + 2 ≤ _; rw [a11]; omega)
      · obtain ⟨F', hF'⟩ := key
        refine ⟨F', fun fuel hf => ?_⟩
        obtain ⟨s', r1, r2, r3, r4, r5⟩ := hF' fuel hf
        refine ⟨s', ?_, r2, r3, ?_, r5⟩
        · rw [hout fuel]
          exact r1
        · have : s'.numIters ≤ s2.numIters + m' + 1 := r4
          rw [a11] at this
          omega
      · refine ⟨?_, ?_, ?_, ?_, ?_, ⟨k + 1, j + 1, (q.q + p.muFactor) * B, by omega, by omega, hmu', ?_, ?_, ?_, ?_⟩,
          le_max_right _ _, le_max_right _ _⟩
        · show C.Near s2.x; rw [a1]; exact hst.near
        · show C.Fine (s2.mu * p.muFactor) s2.x; rw [a1, a4]; exact fi2
        · show _ < C.viol s2.x; rw [a1]; exact hfar
        · show C.Ok s2.prevV; rw [a2]; exact hok
        · show p.regMin ≤ s2.pregLast ∧ s2.pregLast ≤ _; rw [a7]; exact hreg
        · have : (q.q + p.muFactor) * B ≤ 1 * B := mul_le_mul_of_nonneg_right hq.q1 hB0
          linarith
        · show s2.pregLast * C.eX s2.x + s2.mu * p.muFactor * C.eV s2.prevV ≤ _
          rw [a1, a7, a4, a2]
          have h3 : s.mu * p.muFactor * C.eV s.prevV ≤ p.muFactor * B := by
            have : p.muFactor * (s.mu * C.eV s.prevV) ≤ p.muFactor * B := mul_le_mul_of_nonneg_left (by linarith) th0.le
            linarith
          linarith
        · show s2.pregLast * C.eX s2.x + s2.mu * p.muFactor * C.eV (C.vs s2.x) ≤ _
          rw [a1, a7, a4]
          have h3 : s.mu * p.muFactor * C.eV (C.vs x1) ≤ s.mu * C.eV (C.vs x1) := by
            have : (s.mu * C.eV (C.vs x1)) * p.muFactor ≤ (s.mu * C.eV (C.vs x1)) * 1 := mul_le_mul_of_nonneg_left hq.theta2.le hvv
            linarith
          have h4 : 0 ≤ p.muFactor * B := mul_nonneg th0.le hB0
          linarith
        · show s2.mu * p.muFactor * _ ≤ _
          rw [a4]
          calc s.mu * p.muFactor * ((q.q + p.muFactor) * B) = p.muFactor * (q.q + p.muFactor) * (s.mu * B) := by ring
            _ ≤ q.r * (s.mu * B) := mul_le_mul_of_nonneg_right hq.tr hPhi
            _ ≤ q.r * (q.r ^ k * (q.mu0 * q.B0)) := mul_le_mul_of_nonneg_left hprog hr0
            _ = q.r ^ (k + 1) * (q.mu0 * q.B0) := by rw [pow_succ]; ring
      · show C.Rel (s2.mu * p.muFactor / p.muFactor) s2.prevV s2.x
        rw [mul_div_assoc, div_self th0.ne', mul_one, a4, a2, a1]
        exact hrel

set_option maxHeartbeats 1600000 in
/-- From every head state the run ends within the budget. -/
theorem ends_head {C : Ctx X V} {p : Params} {e : Env X V W} {q : Plan} (hq : q.Fits p) (hb : 0 < p.dualBeta) (hC : Facts C p e q) :
    ∀ n m (s : St X V W), HeadEq C p q m s → (KindA C s ∧ 2 * m + 1 ≤ n) ∨ (KindB C p s ∧ 2 * m + 2 ≤ n) →
      s.numIters + m + 2 ≤ p.maxIters → Ends C p e n m s := by
  intro n
  induction n with
  | zero => intro m s _ h; omega
  | succ n ih =>
    intro m s hH hk hit
    obtain ⟨k, j, B, hkm, hj, hmu, hB, hE1, hE2, hprog⟩ := hH.bound
    have th0 := hq.theta0
    have mu0 : 0 < s.mu := by rw [hmu]; exact mul_pos (pow_pos th0 _) hq.mu0
    have hkd : s.prevV = C.vs s.x ∨ C.Rel (s.mu / p.muFactor) s.prevV s.x := by
      rcases hk with h | h
      · exact Or.inl h.1.1
      · exact Or.inr h.1.1
    have hw : e.mult s.mu s.prevV s.x = ((e.mult s.mu s.prevV s.x).1, some (C.viol s.x)) :=
      Prod.ext rfl (hC.mult s.mu s.prevV s.x mu0 hH.ok hH.near (Or.inr ⟨hH.fine, hkd⟩))
    have hni : s.numIters < p.maxIters := by omega
    have hpl : 0 < s.pregLast := hq.regMin.trans_le hH.reg.1
    have hnp : nextPreg p s.pregLast = max p.regMin (s.pregLast * p.regDec) := if_neg hpl.ne'
    have hnp1 : nextPreg p s.pregLast ≤ s.pregLast := by
      rw [hnp]
      refine max_le hH.reg.1 ?_
      have := mul_le_mul_of_nonneg_left hq.regDec hpl.le
      linarith
    have hreg : p.regMin ≤ nextPreg p s.pregLast ∧ nextPreg p s.pregLast ≤ max p.regInit p.regMin :=
      ⟨by rw [hnp]; exact le_max_left _ _, hnp1.trans hH.reg.2⟩
    have hen : nextPreg p s.pregLast * C.eX s.x + s.mu * C.eV s.prevV ≤ B := by
      have := mul_le_mul_of_nonneg_right hnp1 (hC.eX s.x)
      linarith
    have hB0 : 0 ≤ B := le_trans (add_nonneg (mul_nonneg hpl.le (hC.eX _)) (mul_nonneg mu0.le (hC.eV _))) hE1
    -- a step
    have step : ¬ e.innerCrit s.x (e.mult s.mu s.prevV s.x).1 ≤ s.innerTol → KindA C s ∨ KindB C p s → 2 * m ≤ n →
        Ends C p e (n + 1) m s := by
      intro hc hkind hn
      obtain ⟨f1, f2, f3, f4, f5, -⟩ := headSt_fields p hw
      have hwork : Work C p e q (headSt p e s) := by
        refine ⟨by rw [f1]; exact hH.near, by rw [f1, f3]; exact hH.fine, by rw [f1]; exact hH.far, by rw [f2]; exact hH.ok, ⟨j, by omega, by rw [f3]; exact hmu⟩, ?_, ?_, ?_, ?_, ?_⟩
        · rw [f4]; exact hq.regMin.trans_le hreg.1
        · rw [f4]; exact hreg.2
        · rw [f4, f1, f3, f2]
          exact hen.trans hB
        · rw [f2, f1, f3]
          rcases hkind with h | h
          · exact Or.inl h.1
          · exact Or.inr h.1
        · rw [f5, f3, f2, f1]
      obtain ⟨x1, hst⟩ := hC.work _ hwork
      refine ends_step hq hb hC ?_ hH.ok hkm hj hmu hB hprog hH.innerTol hH.primTol hw ?_ hst hen hreg hn hit
      · intro m' s' _ hH' hk' hn' hit'
        refine ih m' s' hH' ?_ hit'
        rcases hk' with h | h
        · exact Or.inl ⟨h, by omega⟩
        · exact Or.inr ⟨h, by omega⟩
      · rintro (h | h)
        · exact hc h
        · exact absurd hH.far (not_lt.2 h.2)
    rcases hk with ⟨hA, hn⟩ | ⟨hB', hn⟩
    · refine step (fun h => ?_) (Or.inl hA) (by omega)
      have h1 := hC.critA s.mu s.x mu0 hH.near hH.fine
      rw [← hA.1] at h1
      exact absurd hA.2 (not_lt.2 (h1.trans h))
    · by_cases hc : e.innerCrit s.x (e.mult s.mu s.prevV s.x).1 ≤ s.innerTol
      · -- no step: the multipliers are updated
        obtain ⟨c1, c2⟩ := hC.critB s.mu s.prevV s.x mu0 hH.ok hH.near hH.fine hB'.1
        obtain ⟨s2, hil, a1, a2, a3, a4, a5, a6, a7, a8, a9, a10, a11⟩ := innerLoop_no_step hni hw hc
        have hv0 : 0 < C.viol s.x := lt_of_le_of_lt hq.tol hH.far
        have h1t : 0 < 1 - p.muFactor := by have := hq.theta2; linarith
        have hprim : C.viol s.x ≤ s.primTol := by
          have h1 := c1.trans hc
          rw [hB'.2.1] at h1
          rcases le_max_iff.1 h1 with h2 | h2
          · have h3 := hq.sched j (by omega)
            rw [← hmu] at h3
            have h4 := le_of_mul_le_mul_left (h2.trans h3) h1t
            rw [hB'.2.2]
            exact h4.trans (le_max_left _ _)
          · have h4 := le_of_mul_le_mul_left (h2.trans hq.tols) h1t
            exact absurd hH.far (not_lt.2 h4)
        obtain ⟨F, a', b', hb', -, h2⟩ := outer_success hb hni hil (by rw [a4]; exact mu0)
          (by rw [a10]; exact lt_of_lt_of_le (mul_pos h1t hv0) c1) (by rw [a8, a6]; exact hprim)
        rw [a10] at hb'
        have hg0 : 0.01 * p.targetDual < C.viol s.x := by
          have h1 := hq.tols
          have : (1 - p.muFactor) * p.targetTol ≤ p.targetTol := by nlinarith [hq.tol]
          have := hH.far
          linarith
        have key := ih m { s2 with primTol := max a' p.targetTol, innerTol := max b' (0.01 * p.targetDual), prevV := e.nextV s2.x s2.ws, alIter := s2.alIter + 1 }
          ?_ (Or.inl ⟨⟨?_, ?_⟩, by omega⟩) (by show s2.numIters + m + 2 ≤ _; rw [a11]; exact hit)
        · obtain ⟨F', hF'⟩ := key
          refine ⟨max F F', fun fuel hf => ?_⟩
          obtain ⟨s', r1, r2, r3, r4, r5⟩ := hF' fuel (le_trans (le_max_right _ _) hf)
          refine ⟨s', ?_, r2, r3, ?_, r5⟩
          · rw [h2 (fun h => absurd hH.far (not_lt.2 (by rw [← a8]; exact h.2))) n fuel (le_trans (le_max_left _ _) hf)]
            exact r1
          · have : s'.numIters ≤ s2.numIters + m + 1 := r4
            rw [a11] at this
            exact this
        · refine ⟨?_, ?_, ?_, ?_, ?_, ⟨k, j, B, hkm, hj, ?_, hB, ?_, ?_, ?_⟩, le_max_right _ _, le_max_right _ _⟩
          · show C.Near s2.x; rw [a1]; exact hH.near
          · show C.Fine s2.mu s2.x; rw [a1, a4]; exact hH.fine
          · show _ < C.viol s2.x; rw [a1]; exact hH.far
          · show C.Ok (e.nextV s2.x s2.ws); rw [hC.nextV, a1]; exact hC.okvs _ hH.near
          · show p.regMin ≤ s2.pregLast ∧ s2.pregLast ≤ _; rw [a7]; exact hH.reg
          · show s2.mu = _; rw [a4]; exact hmu
          · show s2.pregLast * C.eX s2.x + s2.mu * C.eV (e.nextV s2.x s2.ws) ≤ _
            rw [hC.nextV, a1, a7, a4]; exact hE2
          · show s2.pregLast * C.eX s2.x + s2.mu * C.eV (C.vs s2.x) ≤ _
            rw [a1, a7, a4]; exact hE2
          · show s2.mu * B ≤ _
            rw [a4]; exact hprog
        · show e.nextV s2.x s2.ws = C.vs s2.x
          rw [hC.nextV]
        · show max b' (0.01 * p.targetDual) < C.viol s2.x
          rw [a1]
          refine max_lt (lt_of_le_of_lt (hb'.trans c2) (max_lt hg0 ?_)) hg0
          have : 0 < p.muFactor * C.viol s.x := mul_pos th0 hv0
          linarith
      · exact step hc (Or.inr hB') (by omega)

end Aligator.ProxDDP
