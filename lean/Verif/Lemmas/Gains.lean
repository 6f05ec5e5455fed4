import Verif.Spec.Gains
import Verif.Lemmas.Parallel
import Verif.Lemmas.DenseRiccati

/-! # Lemmas on stored gains -/

namespace Aligator.Gains

open Matrix Aligator.Gar

variable {𝕜 : Type*} [Field 𝕜] {nth : ℕ}

theorem affine_mk {r c : ℕ} (a : Vec 𝕜 r) (M : Mat 𝕜 r c) (x : Vec 𝕜 c) :
    affine (fun i => Fin.cons (a i) (M i)) x = a + M *ᵥ x := by
  funext i
  simp [affine, mulVec, dotProduct]

theorem vcat_mulVec {a b m : ℕ} (Y : Mat 𝕜 a m) (Z : Mat 𝕜 b m) (x : Vec 𝕜 m) :
    vcat Y Z *ᵥ x = Fin.append (Y *ᵥ x) (Z *ᵥ x) := by
  funext i
  refine Fin.addCases (fun i => ?_) (fun i => ?_) i <;>
    simp [vcat, mulVec, dotProduct]

theorem append_add {a b : ℕ} (u u' : Vec 𝕜 a) (v v' : Vec 𝕜 b) :
    (Fin.append u v + Fin.append u' v' : Vec 𝕜 (a + b)) = Fin.append (u + u') (v + v') := by
  funext i
  refine Fin.addCases (fun i => ?_) (fun i => ?_) i <;> simp

theorem storeStage_spec {checks : Bool} {g : Gain 𝕜} {s : Shown 𝕜} {r : ℕ} (hr : g.rows = r)
    (hle : r ≤ s.rows) (hk : checks = false ∨ r = s.rows) (hc : g.ndx = s.ndx) :
    ∃ e : Matrix (Fin r) (Fin (s.ndx + 1)) 𝕜, storeStage checks g s = some ⟨r, s.ndx, e⟩ ∧
      ∀ x i, affine e x i = (s.ff + s.fb *ᵥ x) (Fin.castLE hle i) := by
  obtain ⟨gr, gc, ge⟩ := g
  dsimp only at hr hc
  subst hr hc
  have hn : ¬ (checks = true ∧ ¬ (gr = s.rows)) := by
    rcases hk with h | h
    · simp [h]
    · simp [h]
  refine ⟨fun i => Fin.cons (s.ff (Fin.castLE hle i)) (s.fb (Fin.castLE hle i)), ?_, fun x i => ?_⟩
  · unfold storeStage
    simp only [hle, Nat.le_refl, and_self, and_true, dite_true]
    rw [if_neg hn]
    rfl
  · exact congrFun (affine_mk (fun i => s.ff (Fin.castLE hle i))
      (fun i j => s.fb (Fin.castLE hle i) j) x) i

theorem storeLast_spec {checks : Bool} {g : Gain 𝕜} {s : Shown 𝕜} {r : ℕ} (hr : g.rows = r)
    (he : r = s.rows) (hc : g.ndx = s.ndx) :
    ∃ e : Matrix (Fin r) (Fin (s.ndx + 1)) 𝕜, storeLast checks g s = some ⟨r, s.ndx, e⟩ ∧
      ∀ x i, affine e x i = (s.ff + s.fb *ᵥ x) (Fin.cast he i) := by
  obtain ⟨gr, gc, ge⟩ := g
  obtain ⟨sr, sc, sf, sb⟩ := s
  dsimp only at hr hc he
  subst hr hc he
  refine ⟨fun i => Fin.cons (sf i) (sb i), ?_, fun x i => ?_⟩
  · unfold storeLast
    simp
  · rw [affine_mk]; rfl

theorem storeStage_checked {g : Gain 𝕜} {s : Shown 𝕜} (h : g.rows ≠ s.rows) :
    storeStage true g s = none := by
  unfold storeStage
  split
  · simp [h]
  · rfl

/-! ### Solutions in terms of the factors -/

section serial

variable [DecidableEq 𝕜]

theorem solvable_of_facs {mueq : 𝕜} {nx : ℕ} (ch : Chain 𝕜 nth nx) (hs : ch.Symm) (F : Facs ch)
    (hF : FacsOK mueq ch F) : Solvable mueq ch := fun x =>
  ⟨_, _, forwardImpl_tailKKT 0 ch hs (gvZero_zero ch) F hF x, forwardImpl_x0 0 F x⟩

theorem stage_affine {mueq : 𝕜} {nx nu nc nx2 : ℕ} {k : Knot 𝕜 nth nx nu nc nx2} {tl : Chain 𝕜 nth nx2}
    (hs : (Chain.cons k tl).Symm) (F : Factor 𝕜 nth nx nu nc nx2) (Ft : Facs tl)
    (hF : FacsOK mueq (.cons k tl) (.cons F Ft)) {p} {n : Node 𝕜 nx nu nc} {lam t}
    (h : TailKKT mueq 0 (.cons k tl) p (.cons n lam t)) :
    n.u = F.kff + F.K *ᵥ n.x ∧ n.v = F.zff + F.Z *ᵥ n.x ∧ t.x0 = F.yff + F.Aff *ᵥ n.x := by
  have e := (tailKKT_unique 0 _ hs (gvZero_zero _) _ hF _ _ h).2
  simp only [Traj.x0, forwardImpl, mulVec_zero, add_zero, Traj.cons.injEq] at e
  obtain ⟨e1, e2, e3⟩ := e
  refine ⟨congrArg Node.u e1, congrArg Node.v e1, ?_⟩
  rw [e3, forwardImpl_x0]

theorem last_affine {mueq : 𝕜} {nx nu nc nx2 : ℕ} {k : Knot 𝕜 nth nx nu nc nx2}
    (hs : (Chain.last k).Symm) (F : Factor 𝕜 nth nx nu nc nx2)
    (hF : FacsOK mueq (.last k) (.last F)) {p} {n : Node 𝕜 nx nu nc}
    (h : TailKKT mueq 0 (.last k) p (.last n)) :
    n.u = F.kff + F.K *ᵥ n.x ∧ n.v = F.zff + F.Z *ᵥ n.x := by
  have e := (tailKKT_unique 0 _ hs (gvZero_zero _) _ hF _ _ h).2
  simp only [Traj.x0, forwardImpl, mulVec_zero, add_zero, Traj.last.injEq] at e
  exact ⟨congrArg Node.u e, congrArg Node.v e⟩

theorem shownFactor_affine {nx nu nc nx2 : ℕ} (F : Factor 𝕜 nth nx nu nc nx2) (x : Vec 𝕜 nx) :
    ((shownFactor F).ff + (shownFactor F).fb *ᵥ x : Vec 𝕜 (nu + nc + nx2)) =
      Fin.append (Fin.append (F.kff + F.K *ᵥ x) (F.zff + F.Z *ᵥ x)) (F.yff + F.Aff *ᵥ x) := by
  show (Fin.append (Fin.append F.kff F.zff) F.yff + vcat (vcat F.K F.Z) F.Aff *ᵥ x :
    Vec 𝕜 (nu + nc + nx2)) = _
  rw [vcat_mulVec, vcat_mulVec, append_add, append_add]

theorem shownFacs_ne_nil {nx : ℕ} {ch : Chain 𝕜 nth nx} (F : Facs ch) : (shownFacs F).isEmpty = false := by
  cases F <;> rfl

end serial

section dense

variable [DecidableEq 𝕜]

theorem dsolvable {mueq : 𝕜} {nx : ℕ} (ch : Chain 𝕜 nth nx) (hs : ch.Symm) (F : Dense.DFacs ch)
    (hF : Dense.DFacsOK mueq ch F) : Solvable mueq ch := fun x =>
  ⟨_, _, Dense.forwardStages_tailKKT 0 ch hs F hF x, by cases F <;> rfl⟩

theorem dstage_affine {mueq : 𝕜} {nx nu nc nx2 : ℕ} {k : Knot 𝕜 nth nx nu nc nx2} {tl : Chain 𝕜 nth nx2}
    (hs : (Chain.cons k tl).Symm) (F : Dense.DFactor 𝕜 nth nx nu nc nx2) (Ft : Dense.DFacs tl)
    (hF : Dense.DFacsOK mueq (.cons k tl) (.cons F Ft)) {p} {n : Node 𝕜 nx nu nc} {lam t}
    (h : TailKKT mueq 0 (.cons k tl) p (.cons n lam t)) :
    n.u = F.kff + F.K *ᵥ n.x ∧ n.v = F.zff + F.Z *ᵥ n.x ∧ lam = F.lff + F.L *ᵥ n.x := by
  have e := (Dense.dtailKKT_unique 0 _ hs _ hF _ _ h).2
  simp only [Traj.x0, Dense.forwardStages, mulVec_zero, add_zero, Traj.cons.injEq] at e
  obtain ⟨e1, e2, e3⟩ := e
  exact ⟨congrArg Node.u e1, congrArg Node.v e1, e2⟩

theorem dlast_affine {mueq : 𝕜} {nx nu nc nx2 : ℕ} {k : Knot 𝕜 nth nx nu nc nx2}
    (hs : (Chain.last k).Symm) (F : Dense.DFactor 𝕜 nth nx nu nc nx2)
    (hF : Dense.DFacsOK mueq (.last k) (.last F)) {p} {n : Node 𝕜 nx nu nc}
    (h : TailKKT mueq 0 (.last k) p (.last n)) : n.v = F.zff + F.Z *ᵥ n.x := by
  have e := (Dense.dtailKKT_unique 0 _ hs _ hF _ _ h).2
  simp only [Traj.x0, Dense.forwardStages, mulVec_zero, add_zero, Traj.last.injEq] at e
  exact congrArg Node.v e

theorem shownDense_affine {nx nu nc nx2 : ℕ} (F : Dense.DFactor 𝕜 nth nx nu nc nx2) (x : Vec 𝕜 nx) :
    ((shownDense F).ff + (shownDense F).fb *ᵥ x : Vec 𝕜 (nu + nc + nx2 + nx2)) =
      Fin.append (Fin.append (Fin.append (F.kff + F.K *ᵥ x) (F.zff + F.Z *ᵥ x)) (F.lff + F.L *ᵥ x))
        (F.yff + F.Y *ᵥ x) := by
  show (Fin.append (Fin.append (Fin.append F.kff F.zff) F.lff) F.yff +
    vcat (vcat (vcat F.K F.Z) F.L) F.Y *ᵥ x : Vec 𝕜 (nu + nc + nx2 + nx2)) = _
  rw [vcat_mulVec, vcat_mulVec, vcat_mulVec, append_add, append_add, append_add]

theorem shownDFacs_ne_nil {nx : ℕ} {ch : Chain 𝕜 nth nx} (F : Dense.DFacs ch) :
    (shownDFacs F).isEmpty = false := by
  cases F <;> rfl

end dense

/-! ### Storing -/

theorem store_cons {checks : Bool} {g : Gain 𝕜} {gs : List (Gain 𝕜)} {s : Shown 𝕜} {ss : List (Shown 𝕜)}
    {g' : Gain 𝕜} {gs' : List (Gain 𝕜)} (hss : ss.isEmpty = false) (h1 : storeStage checks g s = some g')
    (h2 : store checks gs ss = some gs') : store checks (g :: gs) (s :: ss) = some (g' :: gs') := by
  simp [store, hss, h1, h2]

theorem store_one {checks : Bool} {g : Gain 𝕜} {gs : List (Gain 𝕜)} {s : Shown 𝕜}
    {g' : Gain 𝕜} (h1 : storeLast checks g s = some g') :
    store checks (g :: gs) [s] = some (g' :: gs) := by
  simp [store, h1]

/-- what the sizes say about a list of gains -/
theorem sizes_cons {gs : List (Gain 𝕜)} {r c : ℕ} {l : List (ℕ × ℕ)}
    (h : gs.map (fun g => (g.rows, g.ndx)) = (r, c) :: l) :
    ∃ g gs', gs = g :: gs' ∧ g.rows = r ∧ g.ndx = c ∧ gs'.map (fun g => (g.rows, g.ndx)) = l := by
  cases gs with
  | nil => cases h
  | cons g gs' =>
    simp only [List.map_cons, List.cons.injEq, Prod.mk.injEq] at h
    exact ⟨g, gs', rfl, h.1.1, h.1.2, h.2⟩

section main

variable [DecidableEq 𝕜]

theorem store_serial {mueq : 𝕜} (checks : Bool) {nx : ℕ} (ch : Chain 𝕜 nth nx) (hs : ch.Symm)
    (hT : PlainTerminal ch) (F : Facs ch) (hF : FacsOK mueq ch F) (gs : List (Gain 𝕜))
    (hg : gs.map (fun g => (g.rows, g.ndx)) = sizes ch) :
    ∃ gs', store checks gs (shownFacs F) = some gs' ∧ GainsFor mueq (fun _ x' => x') ch gs' := by
  induction ch generalizing gs with
  | last k =>
    rename_i nx nu nc nx2
    obtain ⟨h1, h2⟩ := hT
    subst h1 h2
    cases F with
    | last F =>
      obtain ⟨g, gs', rfl, hr, hc, hl⟩ := sizes_cons hg
      have hl : gs' = [] := by simpa using hl
      subst hl
      have he : nc = (shownFactor F).rows := by simp [shownFactor]
      obtain ⟨e, h1, h2⟩ := storeLast_spec (checks := checks) (s := shownFactor F) hr he hc
      refine ⟨_, store_one h1, e, rfl, solvable_of_facs _ hs _ hF, fun p n hn => ?_⟩
      obtain ⟨-, hv⟩ := last_affine hs F hF hn
      funext i
      rw [hv]
      refine Eq.trans ?_ (h2 n.x i).symm
      rw [shownFactor_affine]
      have : Fin.cast he i = (Fin.castAdd 0 (Fin.natAdd 0 i) : Fin (0 + nc + 0)) := by
        ext; simp
      rw [this, Fin.append_left, Fin.append_right]
  | cons k tl ih =>
    rename_i nx nu nc nx2
    cases F with
    | cons F Ft =>
      obtain ⟨g, gs', rfl, hr, hc, hl⟩ := sizes_cons hg
      obtain ⟨gs'', h3, h4⟩ := ih hs.2 hT Ft hF.2.2 gs' hl
      obtain ⟨e, h1, h2⟩ := storeStage_spec (checks := checks) (s := shownFactor F) hr (Nat.le_refl _)
        (Or.inr rfl) hc
      refine ⟨_, store_cons (shownFacs_ne_nil Ft) h1 h3, e, gs'', rfl, solvable_of_facs _ hs _ hF,
        fun p n lam t hn => ?_, h4⟩
      obtain ⟨hu, hv, hx⟩ := stage_affine hs F Ft hF hn
      funext i
      refine Eq.trans ?_ (h2 n.x i).symm
      rw [shownFactor_affine, hu, hv, hx]
      rfl

theorem store_dense {mueq : 𝕜} {nx : ℕ} (ch : Chain 𝕜 nth nx) (hs : ch.Symm)
    (hT : PlainTerminal ch) (F : Dense.DFacs ch) (hF : Dense.DFacsOK mueq ch F) (gs : List (Gain 𝕜))
    (hg : gs.map (fun g => (g.rows, g.ndx)) = sizes ch) :
    ∃ gs', store false gs (shownDFacs F) = some gs' ∧ GainsFor mueq (fun lam _ => lam) ch gs' := by
  induction ch generalizing gs with
  | last k =>
    rename_i nx nu nc nx2
    obtain ⟨h1, h2⟩ := hT
    subst h1 h2
    cases F with
    | last F =>
      obtain ⟨g, gs', rfl, hr, hc, hl⟩ := sizes_cons hg
      have hl : gs' = [] := by simpa using hl
      subst hl
      have he : nc = (shownDense F).rows := by simp [shownDense]
      obtain ⟨e, h1, h2⟩ := storeLast_spec (checks := false) (s := shownDense F) hr he hc
      refine ⟨_, store_one h1, e, rfl, dsolvable _ hs _ hF, fun p n hn => ?_⟩
      have hv := dlast_affine hs F hF hn
      funext i
      rw [hv]
      refine Eq.trans ?_ (h2 n.x i).symm
      rw [shownDense_affine]
      have : Fin.cast he i = (Fin.castAdd 0 (Fin.castAdd 0 (Fin.natAdd 0 i)) : Fin (0 + nc + 0 + 0)) := by
        ext; simp
      rw [this, Fin.append_left, Fin.append_left, Fin.append_right]
  | cons k tl ih =>
    rename_i nx nu nc nx2
    cases F with
    | cons F Ft =>
      obtain ⟨g, gs', rfl, hr, hc, hl⟩ := sizes_cons hg
      obtain ⟨gs'', h3, h4⟩ := ih hs.2 hT Ft hF.2.2 gs' hl
      obtain ⟨e, h1, h2⟩ := storeStage_spec (checks := false) (s := shownDense F) hr
        (Nat.le_add_right _ nx2) (Or.inl rfl) hc
      refine ⟨_, store_cons (shownDFacs_ne_nil Ft) h1 h3, e, gs'', rfl, dsolvable _ hs _ hF,
        fun p n lam t hn => ?_, h4⟩
      obtain ⟨hu, hv, hx⟩ := dstage_affine hs F Ft hF hn
      funext i
      refine Eq.trans ?_ (h2 n.x i).symm
      rw [shownDense_affine, hu, hv, hx]
      have : Fin.castLE (Nat.le_add_right _ nx2) i = Fin.castAdd nx2 i := rfl
      exact (Fin.append_left _ _ i).symm

theorem store_dense_checked {nx : ℕ} (ch : Chain 𝕜 nth nx) (hH : HasState ch) (F : Dense.DFacs ch)
    (gs : List (Gain 𝕜)) (hg : gs.map (fun g => (g.rows, g.ndx)) = sizes ch) :
    store true gs (shownDFacs F) = none := by
  induction ch generalizing gs with
  | last k => exact hH.elim
  | cons k tl ih =>
    rename_i nx nu nc nx2
    cases F with
    | cons F Ft =>
      obtain ⟨g, gs', rfl, hr, hc, hl⟩ := sizes_cons hg
      simp only [shownDFacs, store, shownDFacs_ne_nil, Bool.false_eq_true, if_false]
      by_cases h0 : nx2 = 0
      · have hH : HasState tl := by
          rcases hH with h | h
          · exact (h h0).elim
          · exact h
        rw [ih hH Ft gs' hl]
        cases storeStage true g (shownDense F) <;> rfl
      · have : storeStage true g (shownDense F) = none := by
          apply storeStage_checked
          rw [hr]
          simp only [shownDense]
          omega
        rw [this]

/-- From the primal-dual gains to the control gains. -/
theorem policies_of_gains {mueq : 𝕜} {sel : ∀ {n : ℕ}, Vec 𝕜 n → Vec 𝕜 n → Vec 𝕜 n} {nx : ℕ}
    (ch : Chain 𝕜 nth nx) (gs : List (Gain 𝕜)) (h : GainsFor mueq sel ch gs) :
    ∃ as Ks, ctrlFeedforwards (nus ch) gs = some as ∧ ctrlFeedbacks (nus ch) gs = some Ks ∧
      Policies mueq ch as Ks := by
  induction ch generalizing gs with
  | last k => exact ⟨[], [], rfl, rfl, rfl, rfl⟩
  | cons k tl ih =>
    rename_i nx nu nc nx2
    obtain ⟨e, gs', rfl, hsol, haff, htl⟩ := h
    obtain ⟨as, Ks, h1, h2, h3⟩ := ih gs' htl
    have hle : nu ≤ nu + nc + nx2 := by omega
    refine ⟨⟨nu, fun i => e (Fin.castLE hle i) 0⟩ :: as,
      ⟨nu, nx, fun i j => e (Fin.castLE hle i) j.succ⟩ :: Ks, ?_, ?_, _, _, as, Ks, rfl, rfl, hsol,
      fun p n lam t hn => ?_, h3⟩
    · simp [nus, ctrlFeedforwards, hle, h1, Gain.ff]
    · simp [nus, ctrlFeedbacks, hle, h2, Gain.fb]
    · have := haff p n lam t hn
      funext i
      have hi := congrFun this (Fin.castAdd nx2 (Fin.castAdd nc i))
      rw [Fin.append_left, Fin.append_left] at hi
      rw [hi]
      rfl

/-! ### Parallel -/

/-- sizes of the gains of a leg -/
def legSizes : {nx : ℕ} → Chain 𝕜 nth nx → List (ℕ × ℕ)
  | nx, .last (nu := nu) (nc := nc) (nx2 := nx2) _ => [(nu + nc + nx2, nx)]
  | nx, .cons (nu := nu) (nc := nc) (nx2 := nx2) _ tl => (nu + nc + nx2, nx) :: legSizes tl

theorem sizes_append {nx m : ℕ} (s : Seg 𝕜 nth nx m) (ch : Chain 𝕜 nth m) :
    sizes (s.append ch) = legSizes s.leg ++ sizes ch := by
  induction s with
  | one k => rfl
  | cons k s ih =>
    show (_, _) :: sizes (s.append ch) = (_, _) :: legSizes s.leg ++ sizes ch
    rw [ih]; rfl

theorem store_leg {mueq : 𝕜} (checks : Bool) {nx : ℕ} (ch : Chain 𝕜 nth nx) (hs : ch.Symm)
    (F : Facs ch) (hF : FacsOK mueq ch F) (gs gs' gb : List (Gain 𝕜)) (bs : List (Shown 𝕜))
    (hbs : bs.isEmpty = false) (hb : store checks gs' bs = some gb)
    (hg : gs.map (fun g => (g.rows, g.ndx)) = legSizes ch) :
    ∃ ga, store checks (gs ++ gs') (shownFacs F ++ bs) = some (ga ++ gb) ∧ ChainGains mueq ch ga := by
  induction ch generalizing gs with
  | last k =>
    rename_i nx nu nc nx2
    cases F with
    | last F =>
      obtain ⟨g, gl, rfl, hr, hc, hl⟩ := sizes_cons hg
      have hl : gl = [] := by simpa using hl
      subst hl
      obtain ⟨e, h1, h2⟩ := storeStage_spec (checks := checks) (s := shownFactor F) hr (Nat.le_refl _)
        (Or.inr rfl) hc
      refine ⟨[_], store_cons hbs h1 hb, e, rfl, solvable_of_facs _ hs _ hF, fun p n hn => ?_⟩
      obtain ⟨hu, hv⟩ := last_affine hs F hF hn
      funext i
      refine Eq.trans ?_ (h2 n.x (Fin.castAdd nx2 i)).symm
      rw [shownFactor_affine, hu, hv]
      exact (Fin.append_left _ _ i).symm
  | cons k tl ih =>
    rename_i nx nu nc nx2
    cases F with
    | cons F Ft =>
      obtain ⟨g, gl, rfl, hr, hc, hl⟩ := sizes_cons hg
      obtain ⟨ga, h3, h4⟩ := ih hs.2 Ft hF.2.2 gl hl
      obtain ⟨e, h1, h2⟩ := storeStage_spec (checks := checks) (s := shownFactor F) hr (Nat.le_refl _)
        (Or.inr rfl) hc
      refine ⟨_ :: ga, store_cons ?_ h1 h3, e, ga, rfl, solvable_of_facs _ hs _ hF,
        fun p n lam t hn => ?_, h4⟩
      · have := shownFacs_ne_nil Ft
        cases hq : shownFacs Ft with
        | nil => rw [hq] at this; cases this
        | cons => rfl
      · obtain ⟨hu, hv, hx⟩ := stage_affine hs F Ft hF hn
        funext i
        refine Eq.trans ?_ (h2 n.x (Fin.castAdd nx2 i)).symm
        rw [shownFactor_affine, hu, hv]
        exact (Fin.append_left _ _ i).symm

theorem shownLegs_ne_nil {nx : ℕ} {L : Legs 𝕜 nth nx} (F : LegFacs L) :
    (shownLegs F).isEmpty = false := by
  cases F with
  | last F => exact shownFacs_ne_nil F
  | cons F FL =>
    have := shownFacs_ne_nil F
    show (shownFacs F ++ shownLegs FL).isEmpty = false
    cases hq : shownFacs F with
    | nil => rw [hq] at this; cases this
    | cons => rfl

theorem plainTerminal_append {nx m : ℕ} (s : Seg 𝕜 nth nx m) (ch : Chain 𝕜 nth m) :
    PlainTerminal (s.append ch) ↔ PlainTerminal ch := by
  induction s with
  | one k => rfl
  | cons k s ih => exact ih ch

theorem store_legs {mueq : 𝕜} (checks : Bool) {nx : ℕ} (L : Legs 𝕜 nth nx) (hs : L.join.Symm)
    (hT : PlainTerminal L.join) (F : LegFacs L) (hF : LegsOK mueq F) (gs : List (Gain 𝕜))
    (hg : gs.map (fun g => (g.rows, g.ndx)) = sizes L.join) :
    ∃ gs', store checks gs (shownLegs F) = some gs' ∧ LegGains mueq L gs' := by
  induction L generalizing gs with
  | last ch =>
    cases F with
    | last F => exact store_serial checks ch hs hT F hF.1 gs hg
  | cons s L ih =>
    cases F with
    | cons F FL =>
      change PlainTerminal (s.append L.join) at hT
      rw [plainTerminal_append] at hT
      change _ = sizes (s.append L.join) at hg
      rw [sizes_append] at hg
      have h1 := s.leg_symm _ hs
      have h2 : L.join.Symm := s.append_all _ _ hs
      obtain ⟨ga, gb, rfl, ha, hb⟩ := List.map_eq_append_iff.1 hg
      obtain ⟨gb', h3, h4⟩ := ih h2 hT FL hF.2 gb hb
      obtain ⟨ga', h5, h6⟩ := store_leg checks s.leg h1 F hF.1.1 ga gb gb' (shownLegs FL)
        (shownLegs_ne_nil FL) h3 ha
      exact ⟨_, h5, ga', gb', rfl, h6, h4⟩

end main

end Aligator.Gains
