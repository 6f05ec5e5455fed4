import Verif.Spec.ProxMem
import Verif.Props.Cycle

/-!
# Lemmas: sizes of the buffers of the ProxDDP solver
-/

namespace Aligator.PMem

open Cycle (rotateLeft setAt frontFromBack KnotDim)

theorem allM_some {n : ℕ} {f : ℕ → Option Unit} (h : ∀ i < n, f i = some ()) : allM n f = some () := by
  induction n with
  | zero => rfl
  | succ n ih => simp only [allM, ih fun i hi => h i (by omega), h n (by omega)]

theorem allM_get {n : ℕ} {f : ℕ → Option Unit} {u : Unit} (h : allM n f = some u) : ∀ i < n, f i = some () := by
  induction n with
  | zero => intro i hi; omega
  | succ n ih =>
    intro i hi
    simp only [allM] at h
    cases e : allM n f with
    | none => rw [e] at h; simp at h
    | some v =>
      rw [e] at h
      rcases Nat.lt_succ_iff_lt_or_eq.1 hi with hi | rfl
      · exact ih e i hi
      · exact h

theorem map_rep {α β : Type*} {l : List α} {f : α → β} {c : β} (h : ∀ a ∈ l, f a = c) :
    l.map f = List.replicate l.length c := by
  rw [List.eq_replicate_iff]; simpa using h

theorem map_at {α β : Type*} {l : List α} {i : ℕ} {s : α} (f : α → β) (h : l[i]? = some s) :
    (l.map f)[i]? = some (f s) := by rw [List.getElem?_map, h]; rfl

theorem mapt_at {α β : Type*} {l : List α} {i : ℕ} {s : α} (f : α → β) (t : β) (h : l[i]? = some s) :
    (l.map f ++ [t])[i]? = some (f s) := by
  have hi := (List.getElem?_eq_some_iff.1 h).1
  rw [List.getElem?_append_left (by simpa using hi), map_at f h]

theorem mapt_end {α β : Type*} (l : List α) (f : α → β) (t : β) : (l.map f ++ [t])[l.length]? = some t := by
  rw [List.getElem?_append_right (by simp)]; simp

theorem stage_ex {P : Prob} {i : ℕ} (hi : i < P.stages.length) : ∃ s, P.stages[i]? = some s :=
  ⟨_, List.getElem?_eq_getElem hi⟩

/-- `n + 1` vectors of the same size. -/
def XS (c : ℕ) (P : Prob) : List ℕ := List.replicate (P.stages.length + 1) c
/-- States. -/
def XN (P : Prob) : List ℕ := P.initNx :: P.stages.map (·.nx2)
/-- Controls. -/
def US (P : Prob) : List ℕ := P.stages.map (·.nu)
/-- Constraint multipliers. -/
def VS (P : Prob) : List ℕ := P.stages.map Stage.nc ++ [P.termNc]
/-- Costates. -/
def LS (ndx : ℕ) (P : Prob) : List ℕ := P.initNr :: List.replicate P.stages.length ndx
/-- Knots. -/
def KN (ndx : ℕ) (P : Prob) : List KnotDim :=
  (P.stages.map fun s => (ndx, s.nu, s.nc, ndx)) ++ [(ndx, 0, P.termNc, 0)]
/-- Blocks of the product sets. -/
def PS (P : Prob) : List (List ℕ) := P.stages.map (fun s => s.cstrs.map (·.1)) ++ [P.termCstrs.map (·.1)]
/-- Projected Jacobians. -/
def PJ (ndx : ℕ) (P : Prob) : List (List ℕ × ℕ × ℕ) :=
  (P.stages.map fun s => (s.cstrs.map (·.1), ndx, s.nu)) ++ [(P.termCstrs.map (·.1), ndx, 0)]
/-- Stage data. -/
def SD (ndx : ℕ) (P : Prob) : List SData :=
  P.stages.map fun s => ⟨s.nx2, (ndx, ndx, s.nu), (ndx, s.nu), s.cstrs⟩
/-- Gains. -/
def GN (ndx : ℕ) (P : Prob) : List (ℕ × ℕ) :=
  (P.stages.map fun s => (s.nu + s.nc + ndx, ndx + 1)) ++ [(P.termNc, ndx + 1)]

/-- The memory of a problem that fits. -/
def uni (ndx : ℕ) (P : Prob) : Mem :=
  { nsteps := P.stages.length
    sd := SD ndx P
    termData := ndx
    termCstrs := P.termCstrs.map fun c => (c.1, ndx)
    initData := (P.initNr, ndx)
    ws := { trial_xs := XN P, trial_us := US P, trial_vs := VS P, trial_lams := LS ndx P
            prev_xs := XN P, prev_us := US P, prev_vs := VS P
            vs_plus := VS P, lams_plus := LS ndx P, dyn_slacks := LS ndx P
            stage_infeasibilities := VS P, shifted_constraints := VS P
            knots := KN ndx P, nc0 := P.initNr
            product_sets := PS P, proj_jacs := PJ ndx P
            active := VS P, dxs := XS ndx P, dus := US P, dvs := VS P, dlams := LS ndx P }
    vs_pdal := VS P
    Lxs := XS ndx P, Lus := US P, Lvs := VS P, lxCorr := XS ndx P, luCorr := US P
    solver := { datas := KN ndx P, kkt0 := (ndx, P.initNr) }
    xs := XN P, us := US P, vs := VS P, lams := LS ndx P
    gains := GN ndx P }

section lookups
variable {nx ndx i : ℕ} {P : Prob} {s : Stage}

theorem XS_at (hi : i ≤ P.stages.length) : (XS nx P)[i]? = some nx := by
  simp [XS, List.getElem?_replicate, Nat.lt_succ_of_le hi]
theorem XS_zero : (XS nx P)[0]? = some nx := XS_at (Nat.zero_le _)
theorem XN_zero : (XN P)[0]? = some P.initNx := rfl
theorem XN_succ (hs : P.stages[i]? = some s) : (XN P)[i + 1]? = some s.nx2 := map_at _ hs
theorem XN_at (h : Fits ndx P) (hs : P.stages[i]? = some s) : (XN P)[i]? = some s.nx1 := by
  cases i with
  | zero => rw [XN_zero, h.first s hs]
  | succ i =>
    have hi := (List.getElem?_eq_some_iff.1 hs).1
    obtain ⟨s', hs'⟩ := stage_ex (P := P) (i := i) (by omega)
    rw [XN_succ hs', h.chain i s' s hs' hs]
theorem XN_end (h : Fits ndx P) : (XN P)[P.stages.length]? = some P.termNx := by
  have hp := List.length_pos_iff.2 h.ne
  obtain ⟨s, hs⟩ := stage_ex (P := P) (i := P.stages.length - 1) (by omega)
  have := XN_succ hs
  rw [Nat.sub_add_cancel hp] at this
  rw [this, h.last s hs]
theorem XN_len : (XN P).length = P.stages.length + 1 := by simp [XN]
theorem US_at (hs : P.stages[i]? = some s) : (US P)[i]? = some s.nu := map_at _ hs
theorem VS_at (hs : P.stages[i]? = some s) : (VS P)[i]? = some s.nc := mapt_at _ _ hs
theorem VS_end : (VS P)[P.stages.length]? = some P.termNc := mapt_end ..
theorem LS_zero : (LS ndx P)[0]? = some P.initNr := rfl
theorem LS_succ (hi : i < P.stages.length) : (LS ndx P)[i + 1]? = some ndx := by
  simp [LS, List.getElem?_replicate, hi]
theorem KN_at (hs : P.stages[i]? = some s) : (KN ndx P)[i]? = some (ndx, s.nu, s.nc, ndx) := mapt_at _ _ hs
theorem KN_end : (KN ndx P)[P.stages.length]? = some (ndx, 0, P.termNc, 0) := mapt_end ..
theorem PS_at (hs : P.stages[i]? = some s) : (PS P)[i]? = some (s.cstrs.map (·.1)) := mapt_at _ _ hs
theorem PS_end : (PS P)[P.stages.length]? = some (P.termCstrs.map (·.1)) := mapt_end ..
theorem PJ_at (hs : P.stages[i]? = some s) : (PJ ndx P)[i]? = some (s.cstrs.map (·.1), ndx, s.nu) := mapt_at _ _ hs
theorem PJ_end : (PJ ndx P)[P.stages.length]? = some (P.termCstrs.map (·.1), ndx, 0) := mapt_end ..
theorem SD_at (hs : P.stages[i]? = some s) :
    (SD ndx P)[i]? = some ⟨s.nx2, (ndx, ndx, s.nu), (ndx, s.nu), s.cstrs⟩ := map_at _ hs
theorem GN_at (hs : P.stages[i]? = some s) : (GN ndx P)[i]? = some (s.nu + s.nc + ndx, ndx + 1) := mapt_at _ _ hs
theorem GN_end : (GN ndx P)[P.stages.length]? = some (P.termNc, ndx + 1) := mapt_end ..
theorem XS_len : (XS nx P).length = P.stages.length + 1 := by simp [XS]
theorem US_len : (US P).length = P.stages.length := by simp [US]
theorem VS_len : (VS P).length = P.stages.length + 1 := by simp [VS]
theorem LS_len : (LS ndx P).length = P.stages.length + 1 := by simp [LS]
theorem KN_len : (KN ndx P).length = P.stages.length + 1 := by simp [KN]
theorem PJ_len : (PJ ndx P).length = P.stages.length + 1 := by simp [PJ]
theorem SD_len : (SD ndx P).length = P.stages.length := by simp [SD]

end lookups

variable {nx ndx : ℕ} {P : Prob}

theorem create_uni (h : Fits ndx P) : Mem.create P P.initNx = uni ndx P := by
  have e2 : P.stages.map (fun s => s.ndx2) = List.replicate P.stages.length ndx :=
    map_rep fun s hs => (h.stages s hs).ndx2
  have e3 : P.stages.map (fun s => s.ndx1) = List.replicate P.stages.length ndx :=
    map_rep fun s hs => (h.stages s hs).ndx1
  have e4 : P.stages.map SData.create =
      P.stages.map fun s => ⟨s.nx2, (ndx, ndx, s.nu), (ndx, s.nu), s.cstrs⟩ :=
    List.map_congr_left fun s hs => by
      obtain ⟨c, b, d, e, f, g⟩ := h.stages s hs
      cases hb : s.assigns with
      | false => simp [SData.create, hb, b hb, d, e, f]
      | true => simp [SData.create, hb, d, e, f]
  have e5 : P.termCstrs.map (fun c => (c.1, c.2.1)) = P.termCstrs.map fun c => (c.1, ndx) :=
    List.map_congr_left fun c hc => by rw [(h.term c hc).1]
  have e6 : (P.stages.map fun s => ((s.ndx1, s.nu, (s.cstrs.map (·.1)).sum, s.ndx1) : KnotDim)) =
      P.stages.map fun s => (ndx, s.nu, s.nc, ndx) :=
    List.map_congr_left fun s hs => by rw [(h.stages s hs).ndx1]; rfl
  have e7 : (P.stages.map fun s => (s.cstrs.map (·.1), s.ndx1, s.nu)) =
      P.stages.map fun s => (s.cstrs.map (·.1), ndx, s.nu) :=
    List.map_congr_left fun s hs => by rw [(h.stages s hs).ndx1]
  have e8 : (P.stages.map fun s => (s.nu + s.nc + s.ndx2, s.ndx1 + 1)) =
      P.stages.map fun s => (s.nu + s.nc + ndx, ndx + 1) :=
    List.map_congr_left fun s hs => by rw [(h.stages s hs).ndx1, (h.stages s hs).ndx2]
  have e9 : ((P.stages.map fun s : Stage => ((ndx, s.nu, s.nc, ndx) : KnotDim)) ++ [(ndx, 0, P.termNc, 0)]).head?.map
      (fun k : KnotDim => k.1) = some ndx := by cases P.stages <;> simp
  have r1 : List.replicate P.stages.length ndx ++ [ndx] = List.replicate (P.stages.length + 1) ndx := by
    rw [List.replicate_succ']
  simp only [Mem.create, Cycle.Workspace.create, Prob.toCycle, List.map_map, Function.comp_def, Stage.toCycle,
    Cycle.Stage.nc, Cycle.lqrInit, Cycle.SerialSolver.create, Cycle.Prob.termNc, uni, XN, XS, US, VS, LS, KN, PS, PJ, SD, GN]
  simp only [e2, e4, e5, e6, e7, e8, h.initNdx, h.termNdx]
  have e9' : Option.map (fun x : KnotDim => x.1) ((P.stages.map fun s : Stage => ((ndx, s.nu, s.nc, ndx) : KnotDim)) ++
    [(ndx, 0, (P.termCstrs.map fun c : ℕ × ℕ × Option ℕ => c.1).sum, 0)]).head? = some ndx := e9
  simp only [e9', Option.getD_some, List.map_append, List.map_map, Function.comp_def, List.map_cons, List.map_nil,
    List.getLast?_append, List.getLast?_singleton, Option.some_or, Option.map_some, if_true, List.dropLast_concat,
    map_rep (l := P.stages) (f := fun _ => ndx) (c := ndx) (fun _ _ => rfl), r1, ← List.replicate_succ]
  rfl

theorem toC_integrity (h : Fits ndx P) : P.toCycle.checkIntegrity = true := by
  rw [Cycle.C30_integrity_iff _ (by simp [Prob.toCycle])]
  have get : ∀ (i : ℕ) (t : Cycle.Stage), P.toCycle.stages[i]? = some t → ∃ s, P.stages[i]? = some s ∧ t = Stage.toCycle s := by
    intro i t ht
    simp only [Prob.toCycle, List.getElem?_map, Option.map_eq_some_iff] at ht
    obtain ⟨s, hs, rfl⟩ := ht
    exact ⟨s, hs, rfl⟩
  refine ⟨fun t ht => ?_, fun i t t' ht ht' => ?_, fun t ht => ?_⟩
  · rw [List.head?_eq_getElem?] at ht
    obtain ⟨s, hs, rfl⟩ := get 0 t ht
    exact (h.stages s (List.mem_of_getElem? hs)).ndx1.trans h.initNdx.symm
  · obtain ⟨s, hs, rfl⟩ := get i t ht
    obtain ⟨s', hs', rfl⟩ := get (i + 1) t' ht'
    exact ⟨h.chain i s s' hs hs', (h.stages s (List.mem_of_getElem? hs)).ndx2.trans
      (h.stages s' (List.mem_of_getElem? hs')).ndx1.symm⟩
  · rw [List.getLast?_eq_getElem?] at ht
    obtain ⟨s, hs, rfl⟩ := get _ t ht
    have hl : P.toCycle.stages.length = P.stages.length := by simp [Prob.toCycle]
    rw [hl] at hs
    exact ⟨h.last s hs, (h.stages s (List.mem_of_getElem? hs)).ndx2.trans h.termNdx.symm⟩

theorem setup_uni (h : Fits ndx P) : setup P = some (uni ndx P) := by
  have hi := toC_integrity h
  have hx0 : x0Size P = some P.initNx := by
    unfold x0Size
    cases e : P.x0 with
    | some x => simp [h.x0 x e]
    | none =>
      obtain ⟨s, ss, hs⟩ := List.exists_cons_of_ne_nil h.ne
      simp only [hs]
      rw [h.first s (by rw [hs]; rfl)]
  simp only [setup, hi, Bool.true_eq_false, if_false, hx0, create_uni h]

theorem problemCall_uni (h : Fits ndx P) :
    problemCall P (uni ndx P) (uni ndx P).xs (uni ndx P).us = some () := by
  have e0 : P.x0.all (· == P.initNx) = true := by
    cases e : P.x0 with
    | none => rfl
    | some x => simp [h.x0 x e]
  have e1 : (P.termCstrs.all fun c => c.2.2.all (· == P.termNu)) = true := by
    rw [List.all_eq_true]
    intro c hc
    cases e : c.2.2 with
    | none => rfl
    | some k => simp [(h.term c hc).2 k e]
  have e5 : P.termCstrs.map (fun c => (c.1, c.2.1)) = P.termCstrs.map fun c => (c.1, ndx) :=
    List.map_congr_left fun c hc => by rw [(h.term c hc).1]
  unfold problemCall
  rw [allM_some]
  · simp [-getElem?_pos, uni, guard, e0, e1, e5, h.initNdx, h.termNdx,
      XN_len, US_len, XN_zero, XN_end h]
  · intro i hi
    obtain ⟨s, hs⟩ := stage_ex hi
    obtain ⟨c, b, d, e, f, g⟩ := h.stages s (List.mem_of_getElem? hs)
    simp [uni, guard, hs, c, d, e, f, XN_at h hs, US_at hs, SD_at hs]

theorem setPre_append (a b : List ℕ) : setPre (a ++ b) a = a ++ b := by simp [setPre]

theorem VS_pre : setPre (VS P) (P.stages.map Stage.nc ++ if P.termCstrs = [] then [] else [P.termNc]) = VS P := by
  unfold VS
  split
  · rw [List.append_nil, setPre_append]
  · simpa using setPre_append (P.stages.map Stage.nc ++ [P.termNc]) []

theorem multipliers_uni (h : Fits ndx P) :
    multipliers P (uni ndx P) (uni ndx P).xs (uni ndx P).lams (uni ndx P).vs = some (uni ndx P) := by
  have e2 : P.stages.map (fun s => s.ndx2) = List.replicate P.stages.length ndx :=
    map_rep fun s hs => (h.stages s hs).ndx2
  have e3 : setPre (LS ndx P) (P.initNr :: List.replicate P.stages.length ndx) = LS ndx P := by simp [setPre, LS]
  have e4 : setPre (LS ndx P) [P.initNr] = LS ndx P := by simp [setPre, LS]
  unfold multipliers
  rw [allM_some]
  · simp only [uni]
    by_cases ht : P.termCstrs = []
    · have := VS_pre (P := P)
      simp only [ht, if_true, List.append_nil] at this
      simp [-getElem?_pos, guard, ht, LS_zero, VS_len, LS_len, e2, e3, e4, this]
    · have := VS_pre (P := P)
      simp only [ht, if_false] at this
      simp [-getElem?_pos, guard, ht, LS_zero, VS_len, LS_len, e2, e3, e4, this, VS_end, PS_end, Function.comp_def]
  · intro i hi
    obtain ⟨s, hs⟩ := stage_ex hi
    obtain ⟨c, b, d, e, f, g⟩ := h.stages s (List.mem_of_getElem? hs)
    have hi' : i < P.stages.length := hi
    simp [uni, guard, hs, c, d, e, f, VS_at hs, LS_succ hi', XN_succ hs, SD_at hs, PS_at hs]

theorem setPre_all (l : List ℕ) : setPre l l = l := by simp [setPre]

theorem meritCall_uni : meritCall P (uni ndx P) = some () := by
  simp [meritCall, uni, guard, LS_len, VS_len]

theorem lxAt_uni {i : ℕ} (hi : i ≤ P.stages.length) : lxAt (uni ndx P) (LS ndx P) i = some ndx := by
  unfold lxAt
  cases i with
  | zero => rfl
  | succ i => simp only [Nat.succ_ne_zero, if_false]; exact LS_succ hi

theorem all_ndx {l : List (ℕ × ℕ)} (h : ∀ c ∈ l, c.2 = ndx) : l.all (fun c => c.2 == ndx) = true := by
  rw [List.all_eq_true]; intro c hc; simp [h c hc]

theorem lagrangian_uni (h : Fits ndx P) :
    lagrangian P (uni ndx P) (LS ndx P) (VS P) = some (uni ndx P) := by
  have e1 : setPre (XS ndx P) (ndx :: ((LS ndx P).drop 1).take P.stages.length) = XS ndx P := by
    simp [setPre, XS, LS, List.replicate_succ]
  have e2 : setPre (US P) (((SD ndx P).take P.stages.length).map fun d => d.cost.2) = US P := by
    have : ((SD ndx P).take P.stages.length).map (fun d => d.cost.2) = US P := by
      simp [SD, US, Function.comp_def, ← List.map_take]
    rw [this, setPre_all]
  unfold lagrangian
  dsimp only
  rw [allM_some, lxAt_uni le_rfl]
  · simp only [uni]
    simp [-getElem?_pos, guard, XS_len, US_len, LS_zero, VS_end, Function.comp_def, e1, e2, -List.map_take, -List.drop_one]
  · intro i hi
    obtain ⟨s, hs⟩ := stage_ex hi
    obtain ⟨c, b, d, e, f, g⟩ := h.stages s (List.mem_of_getElem? hs)
    have hi' : i < P.stages.length := hi
    rw [lxAt_uni hi'.le]
    have := all_ndx g
    simp [uni, guard, hs, SD_at hs, LS_succ hi', VS_at hs]
    simpa using g

theorem criterion_uni : criterion (uni ndx P) = some () := by
  simp [criterion, uni, guard, XS_len, US_len, LS_len, VS_len]

theorem projectedJacobians_uni (h : Fits ndx P) :
    projectedJacobians P (uni ndx P) = some (uni ndx P) := by
  have e1 : ∀ n ≤ P.stages.length + 1, setPre (XS ndx P) (((PJ ndx P).take n).map fun j => j.2.1) = XS ndx P := by
    intro n hn
    have : (PJ ndx P).map (fun j => j.2.1) = XS ndx P := by
      simp [PJ, XS, List.replicate_succ', Function.comp_def]
    rw [List.map_take, this]
    simp [setPre, XS_len, hn]
  have e2 : setPre (US P) (((PJ ndx P).take P.stages.length).map fun j => j.2.2) = US P := by
    have : ((PJ ndx P).take P.stages.length).map (fun j => j.2.2) = US P := by
      simp [PJ, US, Function.comp_def]
    rw [this, setPre_all]
  unfold projectedJacobians
  rw [allM_some]
  · simp only [uni]
    by_cases ht : P.termCstrs = []
    · simp [-getElem?_pos, guard, ht, XS_len, US_len, e1, e2, -List.map_take]
    · simp [-getElem?_pos, guard, ht, XS_len, US_len, e1, e2, PJ_end, VS_end, PS_end,
        Function.comp_def, Prob.termNc, -List.map_take]
  · intro i hi
    obtain ⟨s, hs⟩ := stage_ex hi
    obtain ⟨c, b, d, e, f, g⟩ := h.stages s (List.mem_of_getElem? hs)
    have := all_ndx g
    simp only [uni, hs, SD_at hs, PJ_at hs, VS_at hs, PS_at hs, this]
    simp [guard, Stage.nc]
    rw [if_pos ⟨rfl, this, fun _ => rfl⟩]
    rfl

theorem stageLQ_uni (h : Fits ndx P) (exact : Bool) {i : ℕ} {s : Stage} (hs : P.stages[i]? = some s) :
    stageLQ exact (uni ndx P) i = some
      { A := (ndx, ndx), B := (ndx, s.nu), f := ndx, Q := ndx, S := (ndx, s.nu), R := s.nu, q := ndx, r := s.nu
        C := (s.nc, ndx), D := (s.nc, s.nu), d := s.nc } := by
  have hi := (List.getElem?_eq_some_iff.1 hs).1
  simp [stageLQ, uni, guard, SD_at hs, KN_at hs, LS_succ hi, XS_at hi.le, US_at hs, PJ_at hs, VS_at hs, Stage.nc]

theorem valueAt_uni {i : ℕ} (hi : i ≤ P.stages.length) : valueAt (uni ndx P) i = some (ndx, ndx) := by
  unfold valueAt
  split
  · rename_i e
    simp [uni, XS_at hi]
  · rename_i e
    have : i < P.stages.length := lt_of_le_of_ne hi e
    obtain ⟨s, hs⟩ := stage_ex this
    simp [uni, XS_at hi, SD_at hs]

theorem backward_uni (h : Fits ndx P) (exact : Bool) : backward exact (uni ndx P) = some () := by
  have ht : backwardTerm (uni ndx P) = some () := by
    simp [backwardTerm, termLQ, uni, guard, XS_at, PJ_end, VS_end, KN_end, Prob.termNc]
  have hb : allM (uni ndx P).nsteps (backwardStage exact (uni ndx P)) = some () := by
    refine allM_some fun i hi => ?_
    obtain ⟨s, hs⟩ := stage_ex hi
    have hi' : i + 1 ≤ P.stages.length := hi
    unfold backwardStage
    rw [stageLQ_uni h exact hs, valueAt_uni hi']
    simp [uni, guard, KN_at hs]
  unfold backward
  rw [ht, hb, valueAt_uni (Nat.zero_le _)]
  simp [uni, guard, KN_len]

theorem dxAt_uni {i : ℕ} (hi : i ≤ P.stages.length) : dxAt (uni ndx P) i = some ndx := by
  unfold dxAt
  cases i with
  | zero => simp [uni, XS_zero]
  | succ i =>
    obtain ⟨s, hs⟩ := stage_ex hi
    simp [uni, KN_at hs]

theorem forward_uni (h : Fits ndx P) : forward (uni ndx P) = some (uni ndx P) := by
  have e1 : setPre (XS ndx P) (ndx :: ((KN ndx P).take P.stages.length).map fun d => d.2.2.2) = XS ndx P := by
    simp [setPre, XS, KN, Function.comp_def, List.replicate_succ]
  unfold forward
  rw [allM_some]
  · simp [-getElem?_pos, uni, guard, XS_zero, LS_zero, e1, -List.map_take]
  · intro i hi
    have hi' : i ≤ P.stages.length := by simp [uni, KN_len] at hi; omega
    unfold forwardStage
    rw [dxAt_uni hi']
    rcases Nat.lt_or_eq_of_le hi' with hlt | rfl
    · obtain ⟨s, hs⟩ := stage_ex hlt
      rw [valueAt_uni hlt]
      simp [uni, guard, KN_at hs, VS_at hs, US_at hs, LS_succ hlt, XS_len, hlt]
    · simp [uni, guard, KN_end, VS_end]

theorem copyGains_uni (h : Fits ndx P) : copyGains (uni ndx P) = some () := by
  refine allM_some fun i hi => ?_
  have hi' : i ≤ P.stages.length := Nat.lt_succ_iff.1 hi
  rcases Nat.lt_or_eq_of_le hi' with hlt | rfl
  · obtain ⟨s, hs⟩ := stage_ex hlt
    simp [uni, guard, KN_at hs, GN_at hs, gainRows]
  · simp [uni, guard, KN_end, GN_end, gainRows]

theorem directional_uni (h : Fits ndx P) : directional P (uni ndx P) = some (uni ndx P) := by
  have e : lagrangian P (uni ndx P) (uni ndx P).ws.lams_plus (uni ndx P).ws.vs_plus = some (uni ndx P) :=
    lagrangian_uni h
  unfold directional
  rw [e]
  simp only [Option.bind_eq_bind, Option.bind_some]
  rw [allM_some]
  · simp [-getElem?_pos, uni, guard, XS_zero, LS_len, XS_len, US_len, VS_len]
  · intro i hi
    obtain ⟨s, hs⟩ := stage_ex hi
    have hi' : i + 1 ≤ P.stages.length := hi
    simp [uni, guard, XS_at hi', US_at hs]

theorem linearStep_uni (h : Fits ndx P) : linearStep P (uni ndx P) = some (uni ndx P) := by
  have hpos : 0 < P.stages.length := List.length_pos_iff.2 h.ne
  have hc := problemCall_uni h
  unfold linearStep
  rw [allM_some]
  · obtain ⟨s, hs⟩ := stage_ex (P := P) (i := P.stages.length - 1) (by omega)
    obtain ⟨c, b, d, e, f, g⟩ := h.stages s (List.mem_of_getElem? hs)
    have hx := XN_end h
    rw [← h.last s hs] at hx
    have hc' : problemCall P { uni ndx P with ws := { (uni ndx P).ws with
        trial_lams := (uni ndx P).lams, trial_vs := (uni ndx P).vs } } (XN P) (US P) = some () := hc
    simp only [uni] at hc'
    simp [-getElem?_pos, uni, guard, XN_len, LS_len, VS_len, US_len, hs, hpos, XS_at, hx, e,
      hc']
  · intro i hi
    obtain ⟨s, hs⟩ := stage_ex hi
    obtain ⟨c, b, d, e, f, g⟩ := h.stages s (List.mem_of_getElem? hs)
    have hi' : i < P.stages.length := hi
    simp [uni, guard, hs, XS_at hi'.le, XN_at h hs, US_at hs, d]

theorem trialXAt_uni {i : ℕ} (hi : i ≤ P.stages.length) : trialXAt (uni ndx P) i = (XN P)[i]? := by
  unfold trialXAt
  cases i with
  | zero => simp [uni, XN_zero]
  | succ i =>
    obtain ⟨s, hs⟩ := stage_ex hi
    simp [uni, SD_at hs, XN_succ hs]

theorem nonlinearStep_uni (h : Fits ndx P) :
    nonlinearStep P (uni ndx P) = some (uni ndx P) := by
  have hpos : 0 < P.stages.length := List.length_pos_iff.2 h.ne
  have e1 : (P.termCstrs.all fun c => c.2.2.all (· == P.termNu)) = true := by
    rw [List.all_eq_true]
    intro c hc
    cases e : c.2.2 with
    | none => rfl
    | some k => simp [(h.term c hc).2 k e]
  have e2 : setPre (XN P) (P.initNx :: ((SD ndx P).take P.stages.length).map (·.xnext)) = XN P := by
    simp [setPre, XN, SD, Function.comp_def, ← List.map_take]
  have e3 : setPre (LS ndx P) ((LS ndx P).take (P.stages.length + 1)) = LS ndx P := by
    rw [List.take_of_length_le (by rw [LS_len]), setPre_all]
  have e4 : setPre (US P) (P.stages.map (·.nu)) = US P := setPre_all _
  have e5 := VS_pre (P := P)
  unfold nonlinearStep
  have e6 : trialXAt (uni ndx P) (uni ndx P).nsteps = some P.termNx :=
    (trialXAt_uni le_rfl).trans (XN_end h)
  rw [allM_some, e6]
  · obtain ⟨s, hs⟩ := stage_ex hpos
    obtain ⟨c, b, d, e, f, g⟩ := h.stages s (List.mem_of_getElem? hs)
    have h0 := h.first s hs
    by_cases ht : P.termCstrs = []
    · simp only [ht, if_true, List.append_nil] at e5
      simp [-getElem?_pos, uni, guard, hs, XN_zero, h0, XS_zero, LS_zero, LS_len, VS_len, XN_len, US_len, ht, d, e2, e3, e4, e5, -List.map_take]
    · simp only [ht, if_false] at e5
      simp [-getElem?_pos, uni, guard, hs, XN_zero, h0, XS_zero, LS_zero, LS_len, VS_len, XN_len, US_len, ht, d, e1, e2, e3, e4, e5,
        KN_end, XS_at, VS_end, gainRows, -List.map_take]
  · intro i hi
    obtain ⟨s, hs⟩ := stage_ex hi
    obtain ⟨c, b, d, e, f, g⟩ := h.stages s (List.mem_of_getElem? hs)
    have hi' : i < P.stages.length := hi
    rw [trialXAt_uni hi'.le, XN_at h hs]
    simp [uni, guard, hs, SD_at hs, KN_at hs, XS_at hi'.le, XS_at (Nat.succ_le_of_lt hi'), US_at hs, VS_at hs, LS_succ hi', XN_succ hs, c, d, e, f, gainRows]


theorem forwardPass_uni (h : Fits ndx P) (c : Cfg) :
    forwardPass c P (uni ndx P) = some (uni ndx P) := by
  have e : multipliers P (uni ndx P) (uni ndx P).ws.trial_xs (uni ndx P).ws.trial_lams
      (uni ndx P).ws.trial_vs = some (uni ndx P) := multipliers_uni h
  unfold forwardPass
  rw [linearStep_uni h, nonlinearStep_uni h, ite_self]
  simp only [Option.bind_eq_bind, Option.bind_some, e, meritCall_uni]

theorem trials_uni (h : Fits ndx P) (c : Cfg) (n : ℕ) :
    trials c P n (uni ndx P) = some (uni ndx P) := by
  induction n with
  | zero => rfl
  | succ n ih => simp only [trials, forwardPass_uni h c, ih]

theorem direction_uni (h : Fits ndx P) (c : Cfg) : direction c P (uni ndx P) = some (uni ndx P) := by
  unfold direction
  simp only [projectedJacobians_uni h, Option.bind_eq_bind, Option.bind_some, backward_uni h, forward_uni h, copyGains_uni h,
    directional_uni h]

theorem iteration_uni (h : Fits ndx P) (c : Cfg) (t : Turn) :
    iteration c P t (uni ndx P) = some (uni ndx P) := by
  have e1 : problemCall P (uni ndx P) (uni ndx P).xs (uni ndx P).us = some () := problemCall_uni h
  have e2 : lagrangian P (uni ndx P) (uni ndx P).lams (uni ndx P).vs = some (uni ndx P) := lagrangian_uni h
  unfold iteration
  simp only [e1, e2, Option.bind_eq_bind, Option.bind_some, criterion_uni]
  cases t with
  | converged => rfl
  | flat => exact direction_uni h c
  | step n => simp only [direction_uni h, Option.bind_some, trials_uni h c]; rfl

theorem turns_uni (h : Fits ndx P) (c : Cfg) (ts : List Turn) :
    turns c P (uni ndx P) ts = some (uni ndx P) := by
  induction ts with
  | nil => rfl
  | cons t ts ih => simp only [turns, ih, iteration_uni h c]

theorem innerLoop_uni (h : Fits ndx P) (c : Cfg) (ts : List Turn) :
    innerLoop c P ts (uni ndx P) = some (uni ndx P) := by
  have e1 : problemCall P (uni ndx P) (uni ndx P).xs (uni ndx P).us = some () := problemCall_uni h
  have e2 : multipliers P (uni ndx P) (uni ndx P).xs (uni ndx P).lams (uni ndx P).vs = some (uni ndx P) :=
    multipliers_uni h
  unfold innerLoop
  simp only [e1, e2, Option.bind_eq_bind, Option.bind_some, meritCall_uni, turns_uni h c]

theorem outer_uni (u : Upd) : outer u (uni ndx P) = uni ndx P := by cases u <;> rfl

theorem start_uni (h : Fits ndx P) (c : Cfg) (hf : c.forced = true → P.x0 ≠ none) :
    start c P (uni ndx P) = some (uni ndx P) := by
  have e : setAt (XN P) 0 P.initNx = some (XN P) := by simp [XN, setAt]
  have l : LS ndx P ≠ [] := by simp [LS]
  unfold start
  cases hc : c.forced with
  | false => rfl
  | true =>
    cases hx : P.x0 with
    | none => exact absurd hx (hf hc)
    | some x =>
      obtain rfl := h.x0 x hx
      simp only [uni, if_true, if_neg l, e]
      rfl

theorem outerLoop_uni (h : Fits ndx P) (c : Cfg) (loops : List (List Turn × Upd)) :
    outerLoop c P (uni ndx P) loops = some (uni ndx P) := by
  induction loops with
  | nil => rfl
  | cons l loops ih =>
    obtain ⟨ts, u⟩ := l
    simp only [outerLoop, ih, innerLoop_uni h c, Option.map_some, outer_uni]

theorem run_uni (h : Fits ndx P) (c : Cfg) (hf : c.forced = true → P.x0 ≠ none)
    (loops : List (List Turn × Upd)) : run c P loops (uni ndx P) = some (uni ndx P) := by
  unfold run
  simp only [start_uni h c hf, Option.bind_eq_bind, Option.bind_some, outerLoop_uni h c]

theorem rot_set {α β : Type*} (s a : α) (ss : List α) (f : α → β) (t : β) (n : ℕ) (hn : n = ss.length) :
    ∃ v, rotateLeft ((s :: ss).map f ++ [t]) 0 1 = some v ∧ setAt v n (f a) = some ((ss ++ [a]).map f ++ [t]) := by
  refine ⟨_, Cycle.rotateLeft_tail1 (f s) (ss.map f) t, ?_⟩
  have := Cycle.setAt_append (ss.map f) (f s) (f a) [t] n (by simpa using hn)
  simpa using this

theorem setAt_last {α : Type*} (l : List α) (a b : α) (n : ℕ) (hn : n = l.length) : setAt (l ++ [a]) n b = some (l ++ [b]) :=
  Cycle.setAt_append l a b [] n hn

theorem front_rep (n c : ℕ) : frontFromBack (List.replicate (n + 1) c) = some (List.replicate (n + 1) c) := by
  have : ∀ x ∈ c :: List.replicate n c, x = c := by simp
  simp only [List.replicate_succ, frontFromBack]
  rw [this _ (List.getLast_mem (by simp))]

theorem resultsCycle_uni (h : Fits ndx P) {k : ℕ} (hk : ∀ s ∈ P.stages, Same nx k s) (a : Stage)
    (ha : StageFits ndx a) (hak : Same nx k a) (hin : P.initNx = nx) :
    resultsCycle (uni ndx P) (P.shift a) nx =
      some (XN (P.shift a), US (P.shift a), VS (P.shift a), LS ndx (P.shift a), GN ndx (P.shift a)) := by
  obtain ⟨s, ss, hst⟩ := List.exists_cons_of_ne_nil h.ne
  have hsh : (P.shift a).stages = ss ++ [a] := by simp [Prob.shift, hst]
  have hk' : ∀ t ∈ (P.shift a).stages, Same nx k t := by
    intro t ht
    rw [hsh] at ht
    rcases List.mem_append.1 ht with ht | ht
    · exact hk t (by rw [hst]; exact List.mem_cons_of_mem _ ht)
    · rw [List.mem_singleton.1 ht]; exact hak
  have hx : XN P = List.replicate (ss.length + 2) nx := by
    rw [XN, map_rep (f := fun s : Stage => s.nx2) fun t ht => (hk t ht).nx2, hin]; simp [hst, List.replicate_succ]
  have hx' : XN (P.shift a) = List.replicate (ss.length + 2) nx := by
    have : (P.shift a).initNx = nx := hin
    rw [XN, map_rep (f := fun s : Stage => s.nx2) fun t ht => (hk' t ht).nx2, this]; simp [hsh, List.replicate_succ]
  have hu : US P = List.replicate (ss.length + 1) k := by
    rw [US, map_rep (f := fun s : Stage => s.nu) fun t ht => (hk t ht).nu]; simp [hst]
  have hu' : US (P.shift a) = List.replicate (ss.length + 1) k := by
    rw [US, map_rep (f := fun s : Stage => s.nu) fun t ht => (hk' t ht).nu]; simp [hsh]
  have hl : LS ndx P = P.initNr :: List.replicate ss.length ndx ++ [ndx] := by
    simp [LS, hst, List.replicate_succ']
  have hl' : LS ndx (P.shift a) = P.initNr :: List.replicate ss.length ndx ++ [ndx] := by
    rw [LS, hsh]; simp [List.replicate_succ']; rfl
  obtain ⟨v, hv1, hv2⟩ := rot_set s a ss Stage.nc P.termNc ss.length rfl
  obtain ⟨g, hg1, hg2⟩ := rot_set s a ss (fun s => (s.nu + s.nc + ndx, ndx + 1)) (P.termNc, ndx + 1) ss.length rfl
  have eV : VS (P.shift a) = (ss ++ [a]).map Stage.nc ++ [P.termNc] := by simp [VS, hsh]; rfl
  have eG : GN ndx (P.shift a) = (ss ++ [a]).map (fun s => (s.nu + s.nc + ndx, ndx + 1)) ++ [(P.termNc, ndx + 1)] := by
    simp [GN, hsh]; rfl
  rw [← eV] at hv2
  rw [← eG] at hg2
  have eV0 : VS P = (s :: ss).map Stage.nc ++ [P.termNc] := by simp [VS, hst]
  have eG0 : GN ndx P = (s :: ss).map (fun s => (s.nu + s.nc + ndx, ndx + 1)) ++ [(P.termNc, ndx + 1)] := by
    simp [GN, hst]
  rw [← eV0] at hv1
  rw [← eG0] at hg1
  have hsm : (P.shift a).stages[ss.length]? = some a := by rw [hsh]; simp
  have hlen : (P.shift a).stages.length = ss.length + 1 := by simp [hsh]
  have r1 : rotateLeft (XN P) 0 0 = some (XN P) := by rw [hx]; exact Cycle.rotateLeft_replicate0 nx _ (by omega)
  have r2 : rotateLeft (US P) 0 0 = some (US P) := by rw [hu]; exact Cycle.rotateLeft_replicate0 k _ (by omega)
  have f1 : frontFromBack (XN P) = some (XN P) := by rw [hx]; exact front_rep _ _
  have f2 : frontFromBack (US P) = some (US P) := by rw [hu]; exact front_rep _ _
  have s1 : setAt (XN P) 0 nx = some (XN P) := by simp [hx, setAt, List.replicate_succ]
  have rl : rotateLeft (LS ndx P) 0 0 = some (List.replicate ss.length ndx ++ [ndx] ++ [P.initNr]) := by
    rw [hl]; exact Cycle.rotateLeft_all _ _
  have sl : setAt (List.replicate ss.length ndx ++ [ndx] ++ [P.initNr]) (ss.length + 1) ndx =
      some (List.replicate ss.length ndx ++ [ndx] ++ [ndx]) := setAt_last _ _ _ _ (by simp)
  have sl0 : setAt (List.replicate ss.length ndx ++ [ndx] ++ [ndx]) 0 P.initNr = some (LS ndx (P.shift a)) := by
    rw [hl']
    cases ss with
    | nil => simp [setAt]
    | cons t ts => simp [setAt, List.replicate_succ, ← List.replicate_succ']
  have eN : (P.shift a).initNr = P.initNr := rfl
  have eT : (P.shift a).termCstrs = P.termCstrs := rfl
  have eTn : (P.shift a).termNc = P.termNc := rfl
  have eTd : (P.shift a).termNdx = ndx := h.termNdx
  have sv : setAt (VS (P.shift a)) (ss.length + 1) P.termNc = some (VS (P.shift a)) := by
    rw [eV]; exact setAt_last _ _ _ _ (by simp)
  have sg : setAt (GN ndx (P.shift a)) (ss.length + 1) (P.termNc, ndx + 1) = some (GN ndx (P.shift a)) := by
    rw [eG]; exact setAt_last _ _ _ _ (by simp)
  unfold resultsCycle
  simp only [uni, f1, f2, Option.bind_eq_bind, Option.bind_some, r1, r2, hv1, rl, hg1, s1, hsm, hlen, ha.ndx1, ha.ndx2,
    Nat.add_sub_cancel, hv2, hg2, sl, sl0, eN, eT, eTn, eTd, sv, sg]
  rw [hx', ← hx, hu', ← hu]
  split_ifs <;> rfl

theorem shift_toCycle (a : Stage) : (P.shift a).toCycle = P.toCycle.shift a.toCycle := by
  simp [Prob.shift, Prob.toCycle, Cycle.Prob.shift, List.map_tail]

theorem shift_fits (h : Fits ndx P) {k : ℕ} (hk : ∀ s ∈ P.stages, Same nx k s) (hin : P.initNx = nx) {a : Stage}
    (ha : StageFits ndx a) (hak : Same nx k a) :
    Fits ndx (P.shift a) ∧ (∀ s ∈ (P.shift a).stages, Same nx k s) ∧ (P.shift a).stages.length = P.stages.length := by
  have hp := List.length_pos_iff.2 h.ne
  have hk' : ∀ s ∈ (P.shift a).stages, Same nx k s := by
    intro s hs
    rcases List.mem_append.1 hs with hs | hs
    · exact hk s (List.mem_of_mem_tail hs)
    · rw [List.mem_singleton.1 hs]; exact hak
  have hl : (P.shift a).stages.length = P.stages.length := by simp [Prob.shift]; omega
  have ht : P.termNx = nx := by
    obtain ⟨s, hs⟩ := stage_ex (P := P) (i := P.stages.length - 1) (by omega)
    rw [← h.last s hs]; exact (hk s (List.mem_of_getElem? hs)).nx2
  refine ⟨⟨by simp [Prob.shift], fun s hs => ?_, fun s hs => ?_, fun i s s' hs hs' => ?_, fun s hs => ?_, h.x0, h.initNdx,
    h.termNdx, h.term⟩, hk', hl⟩
  · rcases List.mem_append.1 hs with hs | hs
    · exact h.stages s (List.mem_of_mem_tail hs)
    · rw [List.mem_singleton.1 hs]; exact ha
  · exact (hk' s (List.mem_of_getElem? hs)).nx1.trans hin.symm
  · rw [(hk' s (List.mem_of_getElem? hs)).nx2, (hk' s' (List.mem_of_getElem? hs')).nx1]
  · exact (hk' s (List.mem_of_getElem? hs)).nx2.trans ht.symm

theorem cycle_uni (h : Fits ndx P) {k : ℕ} (hk : ∀ s ∈ P.stages, Same nx k s) (hin : P.initNx = nx)
    (hN : 2 ≤ P.stages.length) (hx : P.x0 = some nx) (a : Stage) (ha : StageFits ndx a) (hak : Same nx k a) :
    cycle (uni ndx P) (P.shift a) (SData.create a) = some (uni ndx (P.shift a)) := by
  have hne : P.stages ≠ [] := by intro e; rw [e] at hN; simp at hN
  have h' := (shift_fits h hk hin ha hak).1
  have hin' : (P.shift a).initNx = nx := hin
  have hw : (uni ndx P).ws.cycleAppend (P.shift a).toCycle = some (some (uni ndx (P.shift a)).ws) := by
    rw [← create_uni h, ← create_uni h', hin, hin', shift_toCycle]
    have hc : (P.toCycle.shift a.toCycle).checkIntegrity = true := by rw [← shift_toCycle]; exact toC_integrity h'
    rw [Mem.create, Mem.create]
    dsimp only
    rw [shift_toCycle]
    refine Cycle.C31_workspace_dims_partial P.toCycle a.toCycle nx k ndx (by simpa [Prob.toCycle] using hN) ?_ hc
    intro t ht
    have : ∃ u : Stage, t = u.toCycle ∧ StageFits ndx u ∧ Same nx k u := by
      rcases List.mem_append.1 ht with ht | ht
      · obtain ⟨u, hu, rfl⟩ := List.mem_map.1 ht
        exact ⟨u, rfl, h.stages u hu, hk u hu⟩
      · exact ⟨a, List.mem_singleton.1 ht, ha, hak⟩
    obtain ⟨u, rfl, hu, huk⟩ := this
    exact ⟨huk.nx2, huk.nu, hu.ndx2⟩
  obtain ⟨s, ss, hst⟩ := List.exists_cons_of_ne_nil hne
  have hsh : (P.shift a).stages = ss ++ [a] := by simp [Prob.shift, hst]
  have hn : (uni ndx P).nsteps = ss.length + 1 := by simp [uni, hst]
  have hsd : (uni ndx P).sd = SD ndx P := rfl
  have hsd1 : rotateLeft (SD ndx P) 0 0 =
      some (ss.map (fun s => ⟨s.nx2, (ndx, ndx, s.nu), (ndx, s.nu), s.cstrs⟩) ++ [⟨s.nx2, (ndx, ndx, s.nu), (ndx, s.nu), s.cstrs⟩]) := by
    rw [SD, hst]; exact Cycle.rotateLeft_all _ _
  have hca : SData.create a = ⟨a.nx2, (ndx, ndx, a.nu), (ndx, a.nu), a.cstrs⟩ := by
    simp [SData.create, hak.nx1, hak.nx2, ha.ndx1, ha.ndx2, ha.cndx]
  have hsd2 : setAt (ss.map (fun s : Stage => (⟨s.nx2, (ndx, ndx, s.nu), (ndx, s.nu), s.cstrs⟩ : SData)) ++
      [⟨s.nx2, (ndx, ndx, s.nu), (ndx, s.nu), s.cstrs⟩]) ss.length (SData.create a) = some (SD ndx (P.shift a)) := by
    rw [hca, setAt_last _ _ _ _ (by simp), SD, hsh]; simp
  have hkn : (KN ndx (P.shift a))[ss.length]? = some (ndx, a.nu, a.nc, ndx) := KN_at (by rw [hsh]; simp)
  obtain ⟨kv, hk1, hk2⟩ := rot_set s a ss (fun s => ((ndx, s.nu, s.nc, ndx) : KnotDim)) (ndx, 0, P.termNc, 0) ss.length rfl
  have eK0 : KN ndx P = (s :: ss).map (fun s => ((ndx, s.nu, s.nc, ndx) : KnotDim)) ++ [(ndx, 0, P.termNc, 0)] := by
    simp [KN, hst]
  have eK : KN ndx (P.shift a) = (ss ++ [a]).map (fun s => ((ndx, s.nu, s.nc, ndx) : KnotDim)) ++ [(ndx, 0, P.termNc, 0)] := by
    simp [KN, hsh]; rfl
  rw [← eK0] at hk1
  rw [← eK] at hk2
  have hlen : (KN ndx (P.shift a)).length - 2 = ss.length := by rw [KN_len, hsh]; simp
  have hsol : (uni ndx P).solver.cycleAppend (KN ndx (P.shift a)) (ndx, a.nu, a.nc, ndx) =
      some ⟨KN ndx (P.shift a), (ndx, P.initNr)⟩ := by
    simp only [Cycle.SerialSolver.cycleAppend, uni, hk1, Option.bind_eq_bind, Option.bind_some, hlen, hk2]; rfl
  have hwk : (uni ndx (P.shift a)).ws.knots = KN ndx (P.shift a) := rfl
  have hx' : (P.shift a).x0 = some nx := hx
  unfold cycle
  simp only [hx', Option.bind_eq_bind, Option.bind_some, resultsCycle_uni h hk a ha hak hin, hsd, hsd1, hn, Nat.add_sub_cancel,
    hsd2, hw, hwk, hkn, hsol]
  simp only [uni, hst, hsh, List.length_cons, List.length_append, List.length_nil]
  rfl


/-! ### What a defined run says about the problem -/

theorem gd {p : Prop} [Decidable p] {u : Unit} : (guard p : Option Unit) = some u ↔ p := by
  unfold guard; split <;> simp_all

/-- The parts of the memory that an iteration does not change before its first trial. -/
structure Keeps (m m' : Mem) : Prop where
  nsteps : m'.nsteps = m.nsteps
  sd : m'.sd = m.sd
  initData : m'.initData = m.initData
  termData : m'.termData = m.termData
  termCstrs : m'.termCstrs = m.termCstrs
  solver : m'.solver = m.solver
  knots : m'.ws.knots = m.ws.knots
  xs : m'.xs = m.xs
  us : m'.us = m.us
  lams : m'.lams = m.lams
  vs : m'.vs = m.vs

theorem Keeps.trans {a b c : Mem} (h : Keeps a b) (h' : Keeps b c) : Keeps a c :=
  ⟨h'.1.trans h.1, h'.2.trans h.2, h'.3.trans h.3, h'.4.trans h.4, h'.5.trans h.5, h'.6.trans h.6, h'.7.trans h.7,
    h'.8.trans h.8, h'.9.trans h.9, h'.10.trans h.10, h'.11.trans h.11⟩

theorem start_keeps {c : Cfg} {m m' : Mem} (h : start c P m = some m') : Keeps m m' := by
  unfold start at h
  have key : ∀ tx m', some { m with ws := { m.ws with
      trial_xs := tx, prev_xs := m.xs, prev_us := m.us, prev_vs := m.vs } } = some m' → Keeps m m' := by
    intro tx m' h
    obtain rfl := Option.some.inj h
    constructor <;> rfl
  cases hc : c.forced with
  | false => rw [hc] at h; exact key _ _ h
  | true =>
    cases hx : P.x0 with
    | none => rw [hc, hx] at h; cases h
    | some x =>
      rw [hc, hx] at h
      simp only [if_true] at h
      by_cases hl : m.ws.trial_lams = []
      · rw [if_pos hl] at h; cases h
      rw [if_neg hl] at h
      cases hs : setAt m.ws.trial_xs 0 x with
      | none => rw [hs] at h; cases h
      | some tx => rw [hs] at h; exact key _ _ h

theorem multipliers_keeps {m m' : Mem} {xs lams vs : List ℕ} (h : multipliers P m xs lams vs = some m') : Keeps m m' := by
  unfold multipliers at h
  by_cases ht : P.termCstrs = []
  · simp only [ht, ne_eq, not_true_eq_false, if_false, Option.bind_eq_bind, Option.bind_eq_some_iff, Option.some.injEq] at h
    obtain ⟨_, _, _, _, _, _, _, _, rfl⟩ := h
    constructor <;> rfl
  · simp only [ht, ne_eq, not_false_eq_true, if_true, Option.bind_eq_bind, Option.bind_eq_some_iff, Option.some.injEq] at h
    obtain ⟨_, _, _, _, _, _, _, _, _, _, _, _, _, _, _, _, rfl⟩ := h
    constructor <;> rfl

theorem lagrangian_keeps {m m' : Mem} {lams vs : List ℕ} (h : lagrangian P m lams vs = some m') : Keeps m m' := by
  simp only [lagrangian, Option.bind_eq_bind, Option.bind_eq_some_iff, Option.some.injEq] at h
  obtain ⟨_, _, _, _, _, _, _, _, _, _, _, _, rfl⟩ := h
  constructor <;> rfl

theorem projectedJacobians_keeps {m m' : Mem} (h : projectedJacobians P m = some m') : Keeps m m' := by
  unfold projectedJacobians at h
  by_cases ht : P.termCstrs = []
  · simp only [ht, ne_eq, not_true_eq_false, if_false, Option.bind_eq_bind, Option.bind_eq_some_iff, Option.some.injEq] at h
    obtain ⟨_, _, _, _, rfl⟩ := h
    constructor <;> rfl
  · simp only [ht, ne_eq, not_false_eq_true, if_true, Option.bind_eq_bind, Option.bind_eq_some_iff, Option.some.injEq] at h
    obtain ⟨_, _, _, _, _, _, _, _, _, _, _, _, rfl⟩ := h
    constructor <;> rfl

/-- A defined run that reaches a trial has passed through these operations. -/
theorem run_parts {c : Cfg} {m r : Mem} {n : ℕ} {u : Upd} (h : run c P [([.step (n + 1)], u)] m = some r) :
    ∃ m2 m3 m4, Keeps m m2 ∧ Keeps m m4 ∧ problemCall P m2 m2.xs m2.us = some () ∧
      lagrangian P m2 m2.lams m2.vs = some m3 ∧ backward c.exact m4 = some () ∧ P.stages ≠ [] := by
  simp only [run, Option.bind_eq_bind, Option.bind_eq_some_iff] at h
  obtain ⟨m1, hs, h⟩ := h
  have k1 := start_keeps hs
  simp only [outerLoop, Option.map_eq_some_iff, innerLoop, Option.bind_eq_bind, Option.bind_eq_some_iff] at h
  obtain ⟨_, ⟨_, _, m2, hm2, _, _, h⟩, _⟩ := h
  have k2 := k1.trans (multipliers_keeps hm2)
  simp only [turns, iteration, Option.bind_eq_bind, Option.bind_eq_some_iff, direction] at h
  obtain ⟨_, hp, m3, hl, _, _, m5, ⟨m4, hj, _, hb, m6, hf, _, hg, hd⟩, m7, ht, _⟩ := h
  have k3 := k2.trans (lagrangian_keeps hl)
  have k4 := k3.trans (projectedJacobians_keeps hj)
  refine ⟨m2, m3, m4, k2, k4, hp, hl, hb, ?_⟩
  intro e
  have hf : forwardPass c P m5 = none := by
    unfold forwardPass
    have e1 : linearStep P m5 = none := by
      cases hh : linearStep P m5 with
      | none => rfl
      | some w =>
        simp only [linearStep, Option.bind_eq_bind, Option.bind_eq_some_iff, e, List.getElem?_nil] at hh
        obtain ⟨_, _, _, _, _, _, _, _, _, _, _, hn, _⟩ := hh
        cases hn
    have e2 : nonlinearStep P m5 = none := by simp [nonlinearStep, e]
    rw [e1, e2, ite_self]; rfl
  simp only [trials, hf] at ht
  cases ht

theorem run_needs {c : Cfg} {m r : Mem} {n : ℕ} {u : Upd} (hm : setup P = some m)
    (h : run c P [([.step (n + 1)], u)] m = some r) : Fits P.initNdx P := by
  obtain ⟨m2, m3, m4, k2, k4, hp, hl, hb, hne⟩ := run_parts h
  unfold setup at hm
  split_ifs at hm with hi
  have hi : P.toCycle.checkIntegrity = true := by simpa using hi
  rw [Cycle.C30_integrity_iff _ (by simp [Prob.toCycle])] at hi
  obtain ⟨i1, i2, i3⟩ := hi
  cases hx : x0Size P with
  | none => rw [hx] at hm; cases hm
  | some nx0 =>
    rw [hx] at hm
    obtain rfl := Option.some.inj hm
    have hsd : ∀ (i : ℕ) (s : Stage), P.stages[i]? = some s → (P.stages.map SData.create)[i]? = some (SData.create s) :=
      fun i s hs => map_at _ hs
    have msd : m2.sd = P.stages.map SData.create := k2.sd
    have mid : m2.initData = (P.initNr, P.initNdx) := k2.initData
    have mt : m2.termCstrs = P.termCstrs.map fun c => (c.1, c.2.1) := k2.termCstrs
    have mtd : m2.termData = P.termNdx := k2.termData
    have tc : ∀ (i : ℕ) (s : Stage), P.stages[i]? = some s → P.toCycle.stages[i]? = some s.toCycle := fun i s hs => map_at _ hs
    have hp0 := List.length_pos_iff.2 hne
    -- the chain of tangent sizes
    have hA : ∀ (i : ℕ) (s : Stage), P.stages[i]? = some s → s.ndx2 = s.ndx1 := by
      intro i s hs
      have hi := (List.getElem?_eq_some_iff.1 hs).1
      simp only [backward, Option.bind_eq_bind, Option.bind_eq_some_iff, gd] at hb
      obtain ⟨_, _, _, _, _, _, _, _, _, hall, _⟩ := hb
      have hn : m4.nsteps = P.stages.length := k4.nsteps
      have hst := allM_get hall i (by rw [hn]; exact hi)
      simp only [backwardStage, stageLQ, Option.bind_eq_bind, Option.bind_eq_some_iff, gd, Option.some.injEq, exists_and_left,
        exists_const] at hst
      have hkn : m4.ws.knots = (Mem.create P nx0).ws.knots := k4.knots
      have hk : m4.ws.knots[i]? = some (s.ndx1, s.nu, s.nc, s.ndx1) := by
        rw [hkn]
        simp only [Mem.create, Cycle.Workspace.create, Prob.toCycle, List.map_map]
        exact mapt_at _ _ hs
      have hs4 : m4.sd[i]? = some (SData.create s) := by
        have : m4.sd = P.stages.map SData.create := k4.sd
        rw [this]; exact hsd i s hs
      rw [hk, hs4] at hst
      simp only [Option.some.injEq] at hst
      grind [SData.create]
    have hB : ∀ (i : ℕ) (s : Stage), P.stages[i]? = some s → s.ndx1 = P.initNdx := by
      intro i
      induction i with
      | zero =>
        intro s hs
        have := i1 s.toCycle (by rw [List.head?_eq_getElem?]; exact tc 0 s hs)
        exact this
      | succ i ih =>
        intro s hs
        have hi := (List.getElem?_eq_some_iff.1 hs).1
        obtain ⟨s', hs'⟩ := stage_ex (P := P) (i := i) (by omega)
        have := (i2 i s'.toCycle s.toCycle (tc i s' hs') (tc (i + 1) s hs)).2
        have h2 : s'.ndx2 = s.ndx1 := this
        rw [← h2, hA i s' hs', ih s' hs']
    have hlast : ∀ s : Stage, P.stages[P.stages.length - 1]? = some s → s.nx2 = P.termNx ∧ s.ndx2 = P.termNdx := by
      intro s hs
      have hl : P.toCycle.stages.length = P.stages.length := by simp [Prob.toCycle]
      exact i3 s.toCycle (by rw [List.getLast?_eq_getElem?, hl]; exact tc _ s hs)
    have hT : P.termNdx = P.initNdx := by
      obtain ⟨s, hs⟩ := stage_ex (P := P) (i := P.stages.length - 1) (by omega)
      rw [← (hlast s hs).2, hA _ s hs, hB _ s hs]
    simp only [problemCall, Option.bind_eq_bind, Option.bind_eq_some_iff, gd, exists_and_left, exists_const] at hp
    obtain ⟨_, ⟨hp1, hp2, _⟩, _, hp3, ⟨hp4, _⟩, _, hp6⟩ := hp
    simp only [lagrangian, Option.bind_eq_bind, Option.bind_eq_some_iff, gd, exists_and_left, exists_const] at hl
    obtain ⟨_, _, _, hl3, lx, hlx, ⟨hl4, _⟩, ⟨_, hl5⟩, _⟩ := hl
    have stg : ∀ (i : ℕ) (s : Stage), P.stages[i]? = some s → s.cnx = s.nx1 ∧ m2.xs[i]? = some s.nx1 ∧
        (s.assigns = false → s.nx1 = s.nx2) := by
      intro i s hs
      have := allM_get hp3 i (List.getElem?_eq_some_iff.1 hs).1
      simp only [Option.bind_eq_some_iff, gd, msd, hs, hsd i s hs, Option.some.injEq, exists_eq_left',
        exists_and_left, exists_const] at this
      obtain ⟨⟨a, _, b⟩, d, _⟩ := this
      refine ⟨b, a, fun hf => ?_⟩
      simpa [SData.create, hf] using d
    have stl : ∀ (i : ℕ) (s : Stage), P.stages[i]? = some s → s.cndx = s.ndx1 ∧ ∀ c ∈ s.cstrs, c.2 = s.ndx1 := by
      intro i s hs
      have := allM_get hl3 i (List.getElem?_eq_some_iff.1 hs).1
      simp only [Option.bind_eq_some_iff, gd, msd, hs, hsd i s hs, Option.some.injEq, exists_eq_left',
        exists_and_left, exists_const] at this
      obtain ⟨x, _, e1, ⟨_, e2, _⟩, _, e3⟩ := this
      simp only [SData.create] at e1 e2 e3
      rw [List.all_eq_true] at e3
      refine ⟨e1.trans e2.symm, fun c hc => ?_⟩
      have := e3 c hc
      rw [beq_iff_eq] at this
      rw [this, e2]
    refine ⟨hne, fun s hs => ?_, fun s hs => ?_, fun i s s' hs hs' => ?_, fun s hs => (hlast s hs).1, fun x hx => ?_, rfl, hT,
      fun c hc => ⟨?_, fun k hk => ?_⟩⟩
    · obtain ⟨i, hi⟩ := List.getElem?_of_mem hs
      obtain ⟨a, b, d⟩ := stg i s hi
      obtain ⟨e, f⟩ := stl i s hi
      have h1 := hB i s hi
      exact ⟨a, d, h1, (hA i s hi).trans h1, e.trans h1, fun c hc => (f c hc).trans h1⟩
    · have := (stg 0 s hs).2.1
      rw [hp1] at this
      exact (Option.some.inj this).symm
    · exact (i2 i s.toCycle s'.toCycle (tc i s hs) (tc _ s' hs')).1
    · rw [hx] at hp2; simpa using hp2
    · rw [mt, List.all_eq_true] at hl5
      have := hl5 (c.1, c.2.1) (List.mem_map_of_mem hc)
      rw [beq_iff_eq] at this
      dsimp only at this
      rw [this, ← hl4, mtd, hT]
    · rw [List.all_eq_true] at hp6
      have := hp6 c hc
      rw [hk] at this
      simpa using this

theorem setup_create {m : Mem} (h : setup P = some m) : ∃ x, m = Mem.create P x := by
  unfold setup at h
  split_ifs at h
  cases hx : x0Size P with
  | none => rw [hx] at h; cases h
  | some x => rw [hx] at h; exact ⟨x, (Option.some.inj h).symm⟩

end Aligator.PMem
