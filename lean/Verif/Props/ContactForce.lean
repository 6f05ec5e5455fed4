import Verif.Lemmas.ContactDynamics
import Verif.Props.Multibody
import Verif.Props.Centroidal

/-!
# C61: residuals of contact forces in constrained dynamics
-/

namespace Aligator.MB

open Matrix Aligator.Deriv Aligator.Centroidal.Spec Spec

variable {nu r nq nv nc : ℕ} {S : Type}

/-! ### Finding the contact -/

theorem contactId_range (names : List String) (n : String) (m : ℕ) (hm : m ≤ names.length) :
    let r := (List.range m).foldl (fun id i => if names[i]? = some n then some i else id) none
    (∀ k, r = some k ↔ k < m ∧ names[k]? = some n ∧ ∀ j, k < j → j < m → names[j]? ≠ some n) := by
  induction m with
  | zero => intro r k; simp [r]
  | succ m ih =>
    intro r k
    have ih' := ih (by omega)
    dsimp only at ih'
    have e : r = if names[m]? = some n then some m else
        (List.range m).foldl (fun id i => if names[i]? = some n then some i else id) none := by
      simp only [r, List.range_succ, List.foldl_append, List.foldl_cons, List.foldl_nil]
    rw [e]
    split_ifs with h
    · constructor
      · intro hk
        obtain rfl := Option.some.inj hk
        exact ⟨by omega, h, fun j h1 h2 => by omega⟩
      · rintro ⟨h1, h2, h3⟩
        by_contra hne
        exact h3 m (by have : k ≠ m := fun e => hne (by rw [e]); omega) (by omega) h
    · rw [ih']
      constructor
      · rintro ⟨h1, h2, h3⟩
        refine ⟨by omega, h2, fun j hj hjm => ?_⟩
        rcases Nat.lt_succ_iff_lt_or_eq.1 hjm with h' | rfl
        · exact h3 j hj h'
        · exact h
      · rintro ⟨h1, h2, h3⟩
        have : k ≠ m := fun e => h (e ▸ h2)
        exact ⟨by omega, h2, fun j hj hjm => h3 j hj (by omega)⟩

theorem contactId_some (names : List String) (n : String) (k : ℕ) :
    contactId names n = some k ↔ names[k]? = some n ∧ ∀ j, k < j → names[j]? ≠ some n := by
  refine (contactId_range names n names.length le_rfl k).trans ⟨?_, ?_⟩
  · rintro ⟨_, h2, h3⟩
    refine ⟨h2, fun j hj => ?_⟩
    by_cases h : j < names.length
    · exact h3 j hj h
    · rw [List.getElem?_eq_none (by omega)]; simp
  · rintro ⟨h2, h3⟩
    exact ⟨(List.getElem?_eq_some_iff.1 h2).1, h2, fun j hj _ => h3 j hj⟩

theorem contactId_none (names : List String) (n : String) : contactId names n = none ↔ n ∉ names := by
  constructor
  · intro h hm
    obtain ⟨i, hi⟩ := List.getElem?_of_mem hm
    -- the last occurrence
    have : ∀ m, ∀ i, i + m = names.length → names[i]? = some n → ∃ k, contactId names n = some k := by
      intro m
      induction m using Nat.strong_induction_on with
      | _ m ih =>
        intro i hi hn
        by_cases h' : ∃ j, i < j ∧ names[j]? = some n
        · obtain ⟨j, hj, hn'⟩ := h'
          have := (List.getElem?_eq_some_iff.1 hn').1
          exact ih (names.length - j) (by omega) j (by omega) hn'
        · push Not at h'
          exact ⟨i, (contactId_some _ _ _).2 ⟨hn, h'⟩⟩
    obtain ⟨k, hk⟩ := this (names.length - i) i (by have := (List.getElem?_eq_some_iff.1 hi).1; omega) hi
    rw [h] at hk
    exact absurd hk (by simp)
  · intro h
    rcases hc : contactId names n with _ | k
    · rfl
    · exact absurd (List.mem_of_getElem? ((contactId_some _ _ _).1 hc).1) h

/-- C61: the constructors reject an actuation matrix of the wrong height and an unknown contact, and nothing else; else the
contact is the last one of that name. -/
theorem C61_contact_lookup {rows : ℕ} (act : Mat rows nu) (names : List String) (s : S) (n : String) :
    ((contactCtor nv act names s n = .error .actuation ↔ nv ≠ rows) ∧
     (contactCtor nv act names s n = .error .contactName ↔ nv = rows ∧ n ∉ names)) ∧
    ∀ m, contactCtor nv act names s n = .ok m →
      HEq m.actuation_matrix act ∧ m.prox_settings = s ∧ names[m.contact_id]? = some n ∧
      ∀ j, m.contact_id < j → names[j]? ≠ some n := by
  unfold contactCtor
  by_cases h : nv = rows
  · subst h
    rw [dif_pos rfl]
    rcases hc : contactId names n with _ | k
    · refine ⟨⟨by simp, by simpa using (contactId_none _ _).1 hc⟩, fun m hm => by simp at hm⟩
    · have hk := (contactId_some _ _ _).1 hc
      refine ⟨⟨by simp, by simpa using List.mem_of_getElem? hk.1⟩, fun m hm => ?_⟩
      obtain rfl := Except.ok.inj hm
      exact ⟨HEq.rfl, rfl, hk.1, hk.2⟩
  · rw [dif_neg h]
    exact ⟨⟨by simpa using h, by simp [h]⟩, fun m hm => by simp at hm⟩

/-- The second of two contacts. -/
example : ∃ m, contactCtor 1 (1 : Mat 1 1) ["left", "right"] () "right" = .ok m ∧ m.contact_id = 1 := ⟨_, rfl, rfl⟩

/-! ### The residuals -/

theorem start_eq (cs : Constraints) (fs : ℕ) : ∀ k, (∀ j < k, ∃ n, cs[j]? = some (n, fs)) → cs.start k = k * fs := by
  intro k
  induction k with
  | zero => intro _; simp [Constraints.start]
  | succ k ih =>
    intro h
    obtain ⟨n, hn⟩ := h k (by omega)
    have := ih (fun j hj => h j (by omega))
    unfold Constraints.start at this ⊢
    rw [List.take_succ, hn, List.map_append, List.sum_append, this]
    simp [Nat.succ_mul]

theorem start_le (cs : Constraints) (k fs : ℕ) (n : String) (h : cs[k]? = some (n, fs)) : cs.start k + fs ≤ cs.size := by
  have e : cs = cs.take k ++ (n, fs) :: cs.drop (k + 1) := by
    obtain ⟨hk, he⟩ := List.getElem?_eq_some_iff.1 h
    rw [← he, ← List.drop_eq_getElem_cons hk, List.take_append_drop]
  have : cs.size = cs.start k + (fs + ((cs.drop (k + 1)).map Prod.snd).sum) := by
    unfold Constraints.size Constraints.start
    conv_lhs => rw [e]
    simp
  omega

/-- The contact is in range, when all constraints up to it have the same number of rows. -/
theorem inRange (cs : Constraints) (k fs : ℕ) (h : ∀ j ≤ k, ∃ n, cs[j]? = some (n, fs)) : k * fs + fs ≤ cs.size := by
  obtain ⟨n, hn⟩ := h k le_rfl
  rw [← start_eq cs fs k (fun j hj => h j hj.le)]
  exact start_le cs k fs n hn

theorem part_eq (s fs : ℕ) (l : Vec nc) (h : s + fs ≤ nc) : part fs s l = segment s fs h l := by
  funext c
  unfold part Centroidal.Spec.get segment
  rw [dif_pos (by omega)]

variable {integ : Vec nq → Vec nv → Vec nq} {Q : Vec nq → Prop} {X : Vec (nq + nv) → Vec (nv + nv) → Vec (nq + nv)}

/-- C61: the contact-force residual is the force of its contact minus the reference, with its Jacobians in state and control,
when all constraints up to the contact have as many rows as the reference; the forces are those of the dynamics with default
settings.  Missing: other settings than the default ones (`C61_settings_negation`), constraints of different sizes
(`C61_mixed_sizes_negation`, `C61_out_of_range`). -/
theorem C61_contact_force_partial (cs : Constraints) (D : Dyn nq nv cs.size S) (dflt : S) (hD : DynLaw D integ Q dflt)
    (hX : Moves integ X) (m : ContactModel nv nu S) (sol0 : Sol nq nv cs.size) (fs : ℕ)
    (hc : ∀ j ≤ m.contact_id, ∃ n, cs[j]? = some (n, fs)) :
    Right (contactForce D dflt m sol0 fs (inRange cs _ fs hc)) X (fun _ x => Q (fst x)) (fun _ _ => True)
      (fun p x u => part fs (cs.start m.contact_id) (D.lam dflt (fst x) (snd x) (m.actuation_matrix *ᵥ u)) - p) := by
  have hr := inRange cs _ fs hc
  refine right_of_inv _ _ _ _ _ (fun _ _ => True) (fun _ => trivial) (fun _ _ _ _ _ _ _ => trivial)
    (fun _ _ _ _ _ _ _ => trivial) ?_
  intro p x u d hx _
  have es : cs.start m.contact_id = m.contact_id * fs := start_eq cs fs _ (fun j hj => hc j hj.le)
  simp only [es, part_eq _ _ _ hr]
  refine ⟨rfl, rfl, rfl, rfl, ?_⟩
  have hJ := IsJac_sub_const (isJac_torque hX m.actuation_matrix ((hD.lam (fst x) (snd x) (m.actuation_matrix *ᵥ u) hx).rows _ hr)) p
  have eX : setBlock (setBlock (FoData.toFData d).Jx 0 0
      (rowsAt (m.contact_id * fs) fs hr (D.lamDq dflt (fst x) (snd x) (m.actuation_matrix *ᵥ u)))) 0 nv
      (rowsAt (m.contact_id * fs) fs hr (D.lamDv dflt (fst x) (snd x) (m.actuation_matrix *ᵥ u))) = _ := setBlock_both _ _ _
  rw [← eX] at hJ
  exact hJ

/-- C61: the wrench-cone residual is nonpositive exactly when the wrench of the contact is in the contact wrench cone, and its
Jacobians are those of its value; for constraints of six rows up to the contact, and the dynamics with default settings. -/
theorem C61_wrench_cone_partial (cs : Constraints) (D : Dyn nq nv cs.size S) (dflt : S) (hD : DynLaw D integ Q dflt)
    (hX : Moves integ X) (m : ContactModel nv nu S) (mu hL hW : ℝ) (sol0 : Sol nq nv cs.size)
    (hc : ∀ j ≤ m.contact_id, ∃ n, cs[j]? = some (n, 6)) :
    ∃ F : Vec (nq + nv) → Vec nu → Vec 17,
      Right (wrenchConeMB D dflt m mu hL hW sol0 (inRange cs _ 6 hc)) X (fun _ x => Q (fst x)) (fun _ _ => True)
        (fun _ x u => F x u) ∧
      ∀ x u, (∀ i, F x u i ≤ 0) ↔ InWrenchCone mu hL hW
        (three (D.lam dflt (fst x) (snd x) (m.actuation_matrix *ᵥ u)) (cs.start m.contact_id))
        (three (D.lam dflt (fst x) (snd x) (m.actuation_matrix *ᵥ u)) (cs.start m.contact_id + 3)) := by
  have hr := inRange cs _ 6 hc
  have es : cs.start m.contact_id = m.contact_id * 6 := start_eq cs 6 _ (fun j hj => hc j hj.le)
  refine ⟨fun x u => acone mu hL hW *ᵥ segment (m.contact_id * 6) 6 hr (D.lam dflt (fst x) (snd x) (m.actuation_matrix *ᵥ u)), ?_, ?_⟩
  · refine right_of_inv _ _ _ _ _ (fun _ _ => True) (fun _ => trivial) (fun _ _ _ _ _ _ _ => trivial)
      (fun _ _ _ _ _ _ _ => trivial) ?_
    intro p x u d hx _
    refine ⟨rfl, rfl, rfl, rfl, ?_⟩
    have hJ := isJac_torque hX m.actuation_matrix
      (((hD.lam (fst x) (snd x) (m.actuation_matrix *ᵥ u) hx).rows _ hr).linear (acone mu hL hW))
    have eX : setBlock (setBlock (FoData.toFData d).Jx 0 0 (acone mu hL hW *
        rowsAt (m.contact_id * 6) 6 hr (D.lamDq dflt (fst x) (snd x) (m.actuation_matrix *ᵥ u)))) 0 nv
        (acone mu hL hW * rowsAt (m.contact_id * 6) 6 hr (D.lamDv dflt (fst x) (snd x) (m.actuation_matrix *ᵥ u))) = _ :=
      setBlock_both _ _ _
    rw [← eX, Matrix.mul_assoc] at hJ
    exact hJ
  · intro x u
    rw [es]
    refine (Centroidal.wrench_iff mu hL hW _).trans (Iff.of_eq ?_)
    rw [← Centroidal.three_eq (m.contact_id * 6) (by omega), ← Centroidal.three_eq (m.contact_id * 6 + 3) (by omega)]
    congr 1
    · funext c
      fin_cases c <;> rfl
    · funext c
      fin_cases c <;> rfl

/-! ### Friction -/

theorem rightOn_of {P : Type} {nx ndx : ℕ} (f : Resid P nx ndx nu r) (X : Vec nx → Vec ndx → Vec nx) (ok : P → Vec nx → Vec nu → Prop)
    (bad : f.Data → Prop) (F : P → Vec nx → Vec nu → Vec r)
    (main : ∀ p x u d, ok p x u →
      (f.base (f.evaluate p x u d)).value = F p x u ∧
      (f.base (f.evaluate p x u d)).Jx = (f.base d).Jx ∧ (f.base (f.evaluate p x u d)).Ju = (f.base d).Ju ∧
      (f.base (f.computeJacobians p x u (f.evaluate p x u d))).value = F p x u ∧
      ¬ bad (f.computeJacobians p x u (f.evaluate p x u d)) ∧
      IsJac (fun z w => F p (X x z) (u + w)) (f.base (f.computeJacobians p x u (f.evaluate p x u d))).Jx
        (f.base (f.computeJacobians p x u (f.evaluate p x u d))).Ju 0 0) :
    RightOn f X ok bad F := fun cs p x u hx => main p x u _ hx

/-- The friction cone as a function of the force. -/
noncomputable def coneOf (mu : ℝ) (f : Vec 3) : Vec 2 := ![-f 2, Real.sqrt (f 0 ^ 2 + f 1 ^ 2) - mu * f 2]

theorem isJacobian_cone (mu : ℝ) (f : Vec 3) (h : f 0 ^ 2 + f 1 ^ 2 ≠ 0) :
    IsJacobian (coneOf mu) (!![0, 0, -1; f 0 / Real.sqrt (f 0 ^ 2 + f 1 ^ 2), f 1 / Real.sqrt (f 0 ^ 2 + f 1 ^ 2), -mu]) f := by
  have g := fun c : Fin 3 => IsGradient.coord c f
  intro i
  fin_cases i
  · refine (g 2).neg.congr_of rfl ?_
    funext c
    fin_cases c <;> simp
  · have h1 := ((g 0).mul (g 0)).add ((g 1).mul (g 1))
    have e : f 0 * f 0 + f 1 * f 1 = f 0 ^ 2 + f 1 ^ 2 := by ring
    have h2 := IsGradient.comp (φ := Real.sqrt) (Real.hasDerivAt_sqrt (by rw [e]; exact h)) h1
    have h3 := h2.sub ((g 2).smul mu)
    refine h3.congr_of ?_ ?_
    · funext y
      show Real.sqrt (y 0 * y 0 + y 1 * y 1) - _ = Real.sqrt (y 0 ^ 2 + y 1 ^ 2) - _
      rw [show y 0 * y 0 + y 1 * y 1 = y 0 ^ 2 + y 1 ^ 2 by ring]
    · have hs : Real.sqrt (f 0 ^ 2 + f 1 ^ 2) ≠ 0 :=
        (Real.sqrt_ne_zero (by positivity)).2 h
      rw [e]
      funext c
      fin_cases c <;> simp <;> field_simp <;> ring

theorem setBlock_rows (M : Mat 2 (nv + nv)) (a a' b b' : Mat 1 nv) :
    setBlock (setBlock (setBlock (setBlock M 0 0 a) 0 nv a') 1 0 b) 1 nv b' =
      beside (Fin.append a b : Mat 2 nv) (Fin.append a' b' : Mat 2 nv) := by
  funext i j
  refine Fin.addCases (m := 1) (n := 1) (fun i => ?_) (fun i => ?_) i <;>
  refine Fin.addCases (fun j => ?_) (fun j => ?_) j <;> fin_cases i
  · refine Eq.trans ?_ ((beside_left _ _ _ _).trans (congrFun (Fin.append_left a b 0) j)).symm
    simp [setBlock, Centroidal.setBlock]
  · refine Eq.trans ?_ ((beside_right _ _ _ _).trans (congrFun (Fin.append_left a' b' 0) j)).symm
    simp [setBlock, Centroidal.setBlock]
  · refine Eq.trans ?_ ((beside_left _ _ _ _).trans (congrFun (Fin.append_right a b 0) j)).symm
    simp [setBlock, Centroidal.setBlock]
  · refine Eq.trans ?_ ((beside_right _ _ _ _).trans (congrFun (Fin.append_right a' b' 0) j)).symm
    simp [setBlock, Centroidal.setBlock]

theorem setBlock_rows' (M : Mat 2 nu) (a b : Mat 1 nu) :
    setBlock (setBlock M 0 0 a) 1 0 b = (Fin.append a b : Mat 2 nu) := by
  funext i j
  refine Fin.addCases (m := 1) (n := 1) (fun i => ?_) (fun i => ?_) i <;> fin_cases i
  · refine Eq.trans ?_ (congrFun (Fin.append_left a b 0) j).symm
    simp [setBlock, Centroidal.setBlock]
  · refine Eq.trans ?_ (congrFun (Fin.append_right a b 0) j).symm
    simp [setBlock, Centroidal.setBlock]

theorem rows_mul {n : ℕ} (mu a b : ℝ) (M : Mat 3 n) :
    (Fin.append (fun (_ : Fin 1) j => -M 2 j) ((!![a, b, -mu] : Mat 1 3) * M) : Mat 2 n) = (!![0, 0, -1; a, b, -mu] : Mat 2 3) * M := by
  funext i j
  refine Fin.addCases (m := 1) (n := 1) (fun i => ?_) (fun i => ?_) i <;> fin_cases i
  · refine (congrFun (Fin.append_left _ _ 0) j).trans ?_
    rw [Matrix.mul_apply, Fin.sum_univ_three]
    simp
  · refine (congrFun (Fin.append_right _ _ 0) j).trans ?_
    rw [Matrix.mul_apply, Matrix.mul_apply, Fin.sum_univ_three, Fin.sum_univ_three]
    simp

/-- C61: the friction-cone residual, where the tangential force is not zero: minus the normal force, and the tangential force
minus its bound, with their Jacobians; for constraints of three rows up to the contact, and the dynamics with default settings.
Missing: zero tangential force (`C61_friction_cone_nan`), and what is missing in `C61_contact_force_partial`. -/
theorem C61_friction_cone_partial (cs : Constraints) (D : Dyn nq nv cs.size S) (dflt : S) (hD : DynLaw D integ Q dflt)
    (hX : Moves integ X) (m : ContactModel nv nu S) (mu : ℝ) (sol0 : Sol nq nv cs.size)
    (hc : ∀ j ≤ m.contact_id, ∃ n, cs[j]? = some (n, 3)) :
    RightOn (frictionConeMB D dflt m mu sol0 (inRange cs _ 3 hc)) X
      (fun _ x u => Q (fst x) ∧
        let f := three (D.lam dflt (fst x) (snd x) (m.actuation_matrix *ᵥ u)) (cs.start m.contact_id)
        f 0 ≠ 0 ∨ f 1 ≠ 0)
      (fun d : FrData nq nv cs.size nu => d.nan)
      (fun _ x u =>
        let f := three (D.lam dflt (fst x) (snd x) (m.actuation_matrix *ᵥ u)) (cs.start m.contact_id)
        ![-f 2, Real.sqrt (f 0 ^ 2 + f 1 ^ 2) - mu * f 2]) := by
  have hr := inRange cs _ 3 hc
  have es : cs.start m.contact_id = m.contact_id * 3 := start_eq cs 3 _ (fun j hj => hc j hj.le)
  have e3 : ∀ l : Vec cs.size, three l (cs.start m.contact_id) = segment (m.contact_id * 3) 3 hr l := by
    intro l
    rw [es, ← Centroidal.three_eq (m.contact_id * 3) (by omega)]
    rfl
  simp only [e3]
  refine rightOn_of _ _ _ _ _ ?_
  intro p x u d hx
  have hne : (segment (m.contact_id * 3) 3 hr (D.lam dflt (fst x) (snd x) (m.actuation_matrix *ᵥ u))) 0 ^ 2 +
      (segment (m.contact_id * 3) 3 hr (D.lam dflt (fst x) (snd x) (m.actuation_matrix *ᵥ u))) 1 ^ 2 ≠ 0 := by
    intro h
    rcases hx.2 with h' | h'
    · have := sq_nonneg ((segment (m.contact_id * 3) 3 hr (D.lam dflt (fst x) (snd x) (m.actuation_matrix *ᵥ u))) 1)
      have := (sq_pos_iff.2 h')
      linarith
    · have := sq_nonneg ((segment (m.contact_id * 3) 3 hr (D.lam dflt (fst x) (snd x) (m.actuation_matrix *ᵥ u))) 0)
      have := (sq_pos_iff.2 h')
      linarith
  have ev : ((frictionConeMB D dflt m mu sol0 hr).base ((frictionConeMB D dflt m mu sol0 hr).evaluate p x u d)).value =
      coneOf mu (segment (m.contact_id * 3) 3 hr (D.lam dflt (fst x) (snd x) (m.actuation_matrix *ᵥ u))) := by
    funext i
    fin_cases i
    · rfl
    · show -mu * _ + Real.sqrt _ = Real.sqrt _ - mu * _
      rw [neg_mul, neg_add_eq_sub]
      rfl
  refine ⟨ev, rfl, rfl, ev, ?_, ?_⟩
  · show ¬ (Real.sqrt _ = 0)
    rw [Real.sqrt_eq_zero (by positivity)]
    exact hne
  · have hd := hD.lam (fst x) (snd x) (m.actuation_matrix *ᵥ u) hx.1
    have hJ := isJac_torque hX m.actuation_matrix ((hd.rows _ hr).then (hD.integ_zero _ hx.1) (isJacobian_cone mu _ hne))
    set F3 := segment (m.contact_id * 3) 3 hr (D.lam dflt (fst x) (snd x) (m.actuation_matrix *ᵥ u)) with hF3
    set lq := rowsAt (m.contact_id * 3) 3 hr (D.lamDq dflt (fst x) (snd x) (m.actuation_matrix *ᵥ u)) with hlq
    set lv := rowsAt (m.contact_id * 3) 3 hr (D.lamDv dflt (fst x) (snd x) (m.actuation_matrix *ᵥ u)) with hlv
    set lt := rowsAt (m.contact_id * 3) 3 hr (D.lamDtau dflt (fst x) (snd x) (m.actuation_matrix *ᵥ u)) with hlt
    have eX := (setBlock_rows (FoData.toFData (FrData.toFoData d)).Jx _ _ _ _).trans
      (congrArg₂ beside (rows_mul mu (F3 0 / Real.sqrt (F3 0 ^ 2 + F3 1 ^ 2)) (F3 1 / Real.sqrt (F3 0 ^ 2 + F3 1 ^ 2)) lq)
        (rows_mul mu (F3 0 / Real.sqrt (F3 0 ^ 2 + F3 1 ^ 2)) (F3 1 / Real.sqrt (F3 0 ^ 2 + F3 1 ^ 2)) lv))
    have eU := (setBlock_rows' (FoData.toFData (FrData.toFoData d)).Ju _ _).trans
      (rows_mul mu (F3 0 / Real.sqrt (F3 0 ^ 2 + F3 1 ^ 2)) (F3 1 / Real.sqrt (F3 0 ^ 2 + F3 1 ^ 2)) (lt * m.actuation_matrix))
    rw [Matrix.mul_assoc] at hJ
    rw [← eX, ← eU] at hJ
    exact hJ

/-- C61: whatever calls came before, the friction-cone residual is nonpositive exactly when the force of the contact is in the
friction cone; same conditions as in `C61_contact_force_partial`. -/
theorem C61_friction_cone_set_partial (cs : Constraints) (D : Dyn nq nv cs.size S) (dflt : S) (m : ContactModel nv nu S) (mu : ℝ)
    (sol0 : Sol nq nv cs.size) (hc : ∀ j ≤ m.contact_id, ∃ n, cs[j]? = some (n, 3)) (ks : List (Call Unit (nq + nv) nu))
    (x : Vec (nq + nv)) (u : Vec nu) :
    let R := frictionConeMB D dflt m mu sol0 (inRange cs _ 3 hc)
    (∀ i, (R.base (R.evaluate () x u (ks.foldl R.call R.new))).value i ≤ 0) ↔
      InFrictionCone mu 0 (three (D.lam dflt (fst x) (snd x) (m.actuation_matrix *ᵥ u)) (cs.start m.contact_id)) := by
  intro R
  have hr := inRange cs _ 3 hc
  have es : cs.start m.contact_id = m.contact_id * 3 := start_eq cs 3 _ (fun j hj => hc j hj.le)
  rw [es, ← Centroidal.three_eq (m.contact_id * 3) (by omega)]
  rw [Fin.forall_fin_two]
  show (-_ ≤ (0 : ℝ) ∧ -mu * _ + Real.sqrt _ ≤ 0) ↔ _
  rw [neg_mul, neg_add_eq_sub, sub_nonpos, neg_nonpos]
  rfl

/-- C61: with zero tangential force, the friction-cone residual has no Jacobian: zero is divided by zero, whatever the normal
force. -/
theorem C61_friction_cone_nan (cs : Constraints) (D : Dyn nq nv cs.size S) (dflt : S) (m : ContactModel nv nu S) (mu : ℝ)
    (sol0 : Sol nq nv cs.size) (hc : ∀ j ≤ m.contact_id, ∃ n, cs[j]? = some (n, 3)) (ks : List (Call Unit (nq + nv) nu))
    (x : Vec (nq + nv)) (u : Vec nu) :
    let R := frictionConeMB D dflt m mu sol0 (inRange cs _ 3 hc)
    let f := three (D.lam dflt (fst x) (snd x) (m.actuation_matrix *ᵥ u)) (cs.start m.contact_id)
    f 0 = 0 → f 1 = 0 →
      FrData.nan (R.computeJacobians () x u (R.evaluate () x u (ks.foldl R.call R.new)) : FrData nq nv cs.size nu) := by
  intro R f
  have hr := inRange cs _ 3 hc
  have es : cs.start m.contact_id = m.contact_id * 3 := start_eq cs 3 _ (fun j hj => hc j hj.le)
  simp only [f]
  rw [es, ← Centroidal.three_eq (m.contact_id * 3) (by omega)]
  intro h0 h1
  show Real.sqrt (_ ^ 2 + _ ^ 2) = 0
  refine (congrArg₂ (fun a b : ℝ => Real.sqrt (a ^ 2 + b ^ 2)) h0 h1).trans ?_
  simp

/-! ### Robots -/

/-- Dynamics linear in the torque. -/
def linDyn {nv nc : ℕ} {S : Type} (A : S → Mat nv nv) (L : S → Mat nc nv) : Dyn nv nv nc S where
  ddq s _ _ tau := A s *ᵥ tau
  ddqDq _ _ _ _ := 0
  ddqDv _ _ _ _ := 0
  ddqDtau s _ _ _ := A s
  lam s _ _ tau := L s *ᵥ tau
  lamDq _ _ _ _ := 0
  lamDv _ _ _ _ := 0
  lamDtau s _ _ _ := L s

theorem derivQVT_torque {integ : Vec nq → Vec nv → Vec nq} (L : Mat r nv) (q : Vec nq) (v tau : Vec nv) :
    DerivQVT integ (fun _ _ tau => L *ᵥ tau) 0 0 L q v tau := by
  have h := ((isJacobian_snd (n := nv + nv) (m := nv) 0).mulVec L).add (IsJacobian.const (L *ᵥ tau) 0)
  refine h.congr_of' ?_ ?_
  · funext z
    simp only [Matrix.mulVec_add]
    exact add_comm _ _
  · rw [add_zero, mul_selSnd]
    funext i j
    refine Fin.addCases (fun j => ?_) (fun j => ?_) j
    · refine (Fin.append_left _ _ _).trans ((beside_left _ _ _ _).trans ?_).symm
      refine Fin.addCases (fun j => ?_) (fun j => ?_) j
      · exact beside_left _ _ _ _
      · exact beside_right _ _ _ _
    · exact (Fin.append_right _ _ _).trans (beside_right _ _ _ _).symm

theorem linDyn_law {nv nc : ℕ} {S : Type} (A : S → Mat nv nv) (L : S → Mat nc nv) (s : S) :
    DynLaw (linDyn A L) (fun q z => q + z) (fun _ => True) s where
  integ_zero q _ := add_zero q
  ddq q v tau _ := derivQVT_torque (A s) q v tau
  lam q v tau _ := derivQVT_torque (L s) q v tau

/-- The fraction of the torque a proximal method has found after `n` iterations. -/
noncomputable def found (mu : ℝ) : ℕ → ℝ
  | 0 => 0
  | n + 1 => (mu * found mu n + 1) / (1 + mu)

/-- A point mass held by one contact in three directions, by a proximal method; the settings are its parameter and the number
of iterations. -/
noncomputable def heldPoint : Dyn 3 3 3 (ℝ × ℕ) :=
  linDyn (fun s => (1 - found s.1 s.2) • (1 : Mat 3 3)) (fun s => -found s.1 s.2 • (1 : Mat 3 3))

theorem heldPoint_lam (s : ℝ × ℕ) (q v tau : Vec 3) : heldPoint.lam s q v tau = -found s.1 s.2 • tau := by
  show (-found s.1 s.2 • (1 : Mat 3 3)) *ᵥ tau = _
  rw [Matrix.smul_mulVec, Matrix.one_mulVec]

theorem heldPoint_ddq (s : ℝ × ℕ) (q v tau : Vec 3) : heldPoint.ddq s q v tau = tau + heldPoint.lam s q v tau := by
  rw [heldPoint_lam]
  show ((1 - found s.1 s.2) • (1 : Mat 3 3)) *ᵥ tau = _
  rw [Matrix.smul_mulVec, Matrix.one_mulVec, sub_smul, one_smul, neg_smul, sub_eq_add_neg]

theorem found_default : found 0 1 = 1 := by simp [found]

/-- The state moves by sums. -/
theorem moves_add {n : ℕ} : Moves (nq := n) (nv := n) (fun q z => q + z) (fun x z => x + z) where
  config _ _ := rfl
  velocity _ _ := rfl

/-- The contact-force residual of a held point mass. -/
example (x : Vec 6) (u : Vec 3) (sol0 : Sol 3 3 3) (p : Vec 3) :
    let R := contactForce heldPoint (0, 1) ⟨(1 : Mat 3 3), (0, 1), 0⟩ sol0 3 (by decide)
    (R.base (R.evaluate p x u R.new)).value = -u - p ∧
    IsJac (fun _ w => -(u + w) - p)
      (R.base (R.computeJacobians p x u (R.evaluate p x u R.new))).Jx
      (R.base (R.computeJacobians p x u (R.evaluate p x u R.new))).Ju (0 : Vec 6) 0 := by
  intro R
  have h := C61_contact_force_partial [("foot", 3)] heldPoint (0, 1) (linDyn_law _ _ _) moves_add
    ⟨(1 : Mat 3 3), (0, 1), 0⟩ sol0 3 (by intro j hj; obtain rfl : j = 0 := by simpa using hj
                                          exact ⟨_, rfl⟩) [] p x u trivial (by simp)
  have e : ∀ (x : Vec 6) (u : Vec 3), part 3 0 (heldPoint.lam (0, 1) (fst (n := 3) (m := 3) x) (snd (n := 3) (m := 3) x) ((1 : Mat 3 3) *ᵥ u)) = -u := by
    intro x u
    rw [part_eq 0 3 _ (by decide), heldPoint_lam, found_default, Matrix.one_mulVec]
    funext c
    simp [segment]
  refine ⟨h.1.trans (congrArg (· - p) (e x u)), ?_⟩
  refine IsJacobian.congr_of' h.2.2.2.2 ?_ rfl
  funext y
  exact congrArg (· - p) (e _ _)

/-- A force in the friction cone, with a tangential component. -/
example : InFrictionCone 1 0 (three (heldPoint.lam (0, 1) 0 0 ![1, 0, -2]) 0) ∧
    three (heldPoint.lam (0, 1) 0 0 ![1, 0, -2]) 0 0 ≠ 0 := by
  rw [heldPoint_lam, found_default]
  simp [InFrictionCone, three, Centroidal.Spec.get]

/-- C61: with zero tangential force and a positive normal force, strictly inside the cone, the Jacobian is not a number. -/
example : InFrictionCone 1 0 (three (heldPoint.lam (0, 1) 0 0 ![0, 0, -1]) 0) ∧
    three (heldPoint.lam (0, 1) 0 0 ![0, 0, -1]) 0 0 = 0 ∧ three (heldPoint.lam (0, 1) 0 0 ![0, 0, -1]) 0 1 = 0 := by
  rw [heldPoint_lam, found_default]
  simp [InFrictionCone, three, Centroidal.Spec.get]

/-- A wrench in the wrench cone. -/
example : InWrenchCone 1 1 1 (three ((linDyn (fun _ : Unit => 0) (fun _ => (-1 : Mat 6 6))).lam () 0 0 ![0, 0, -2, 1, 0, 0]) 0)
    (three ((linDyn (fun _ : Unit => 0) (fun _ => (-1 : Mat 6 6))).lam () 0 0 ![0, 0, -2, 1, 0, 0]) 3) := by
  have : (linDyn (fun _ : Unit => 0) (fun _ => (-1 : Mat 6 6))).lam () 0 0 ![0, 0, -2, 1, 0, 0] = ![0, 0, 2, -1, 0, 0] := by
    show (-1 : Mat 6 6) *ᵥ _ = _
    rw [Matrix.neg_mulVec, Matrix.one_mulVec]
    simp
  rw [this]
  simp [InWrenchCone, three, Centroidal.Spec.get]
  norm_num

/-! ### What does not hold -/

/-- C61: the proximal settings given to a residual have no effect: the contact force is that of the default settings, not the
one of the dynamics with the settings given. -/
theorem C61_settings_negation :
    ∃ (D : Dyn 3 3 3 (ℝ × ℕ)) (dflt s : ℝ × ℕ) (m : ContactModel 3 3 (ℝ × ℕ)) (h : m.contact_id * 3 + 3 ≤ 3)
      (sol0 : Sol 3 3 3) (x : Vec 6) (u : Vec 3),
      (∀ s, DynLaw D (fun q z => q + z) (fun _ => True) s) ∧ (∀ s q v tau, D.ddq s q v tau = tau + D.lam s q v tau) ∧
      contactCtor 3 (1 : Mat 3 3) ["foot"] s "foot" = .ok m ∧
      (let R := contactForce D dflt m sol0 3 h
       (R.base (R.evaluate 0 x u R.new)).value ≠ D.lam s (fst (n := 3) (m := 3) x) (snd (n := 3) (m := 3) x) u ∧
       (R.base (R.evaluate 0 x u R.new)).value ≠ D.ddq s (fst (n := 3) (m := 3) x) (snd (n := 3) (m := 3) x) u - u) := by
  refine ⟨heldPoint, (0, 1), (1, 1), ⟨1, (1, 1), 0⟩, by decide, ⟨0, 0, 0, 0⟩, 0, ![1, 0, 0], fun s => linDyn_law _ _ _,
    heldPoint_ddq, rfl, ?_⟩
  intro R
  have hv : (R.base (R.evaluate 0 0 ![1, 0, 0] R.new)).value 0 = -1 := by
    show heldPoint.lam (0, 1) 0 0 ((1 : Mat 3 3) *ᵥ ![1, 0, 0]) ⟨0 + 0, _⟩ - 0 = -1
    rw [heldPoint_lam, found_default, Matrix.one_mulVec]
    simp
  have hl : heldPoint.lam (1, 1) (fst (n := 3) (m := 3) 0) (snd (n := 3) (m := 3) 0) ![1, 0, 0] 0 = -(1 / 2) := by
    rw [heldPoint_lam]
    simp [found]
    norm_num
  constructor
  · intro h
    have := congrFun h 0
    rw [hv, hl] at this
    norm_num at this
  · intro h
    have := congrFun h 0
    rw [hv, heldPoint_ddq, add_sub_cancel_left, hl] at this
    norm_num at this

/-- A foot in the air of six degrees of freedom and a hand of three, both held: the forces are the opposite of the torques. -/
def footAndHand (nc : ℕ) : Dyn nc nc nc Unit := linDyn (fun _ => 0) (fun _ => -1)

theorem footAndHand_lam (q v tau : Vec nc) : (footAndHand nc).lam () q v tau = -tau := by
  show (-1 : Mat nc nc) *ᵥ tau = _
  rw [Matrix.neg_mulVec, Matrix.one_mulVec]

/-- C61: behind a contact of another size, the residual reads the force of another contact.  Foot of six rows, then hand of
three: the residual of the hand gives the torque on the foot. -/
theorem C61_mixed_sizes_negation :
    ∃ (cs : Constraints) (D : Dyn 9 9 cs.size Unit) (m : ContactModel 9 9 Unit) (h : m.contact_id * 3 + 3 ≤ cs.size)
      (sol0 : Sol 9 9 cs.size),
      DynLaw D (fun q z => q + z) (fun _ => True) () ∧ cs[m.contact_id]? = some ("hand", 3) ∧
      contactCtor 9 (1 : Mat 9 9) (cs.map Prod.fst) () "hand" = .ok m ∧
      (∃ x u, (((contactForce D () m sol0 3 h).base ((contactForce D () m sol0 3 h).evaluate 0 x u (contactForce D () m sol0 3 h).new)).value) ≠
        part 3 (cs.start m.contact_id) (D.lam () (fst (n := 9) (m := 9) x) (snd (n := 9) (m := 9) x) u)) ∧
      ∀ x u, (((contactForce D () m sol0 3 h).base ((contactForce D () m sol0 3 h).evaluate 0 x u (contactForce D () m sol0 3 h).new)).value) =
        part 3 (cs.start 0 + 3) (D.lam () (fst (n := 9) (m := 9) x) (snd (n := 9) (m := 9) x) u) := by
  have hv : ∀ (x : Vec 18) (u : Vec 9) (i : Fin 3) (h : 1 * 3 + 3 ≤ 9), ((contactForce (footAndHand 9) () ⟨(1 : Mat 9 9), (), 1⟩ ⟨0, 0, 0, 0⟩ 3 h).base
      ((contactForce (footAndHand 9) () ⟨(1 : Mat 9 9), (), 1⟩ ⟨0, 0, 0, 0⟩ 3 h).evaluate 0 x u
        (contactForce (footAndHand 9) () ⟨(1 : Mat 9 9), (), 1⟩ ⟨0, 0, 0, 0⟩ 3 h).new)).value i = -u ⟨3 + i, by omega⟩ := by
    intro x u i h
    show (footAndHand 9).lam () 0 0 ((1 : Mat 9 9) *ᵥ u) ⟨1 * 3 + i, _⟩ - 0 = _
    rw [footAndHand_lam, Matrix.one_mulVec, sub_zero]
    rfl
  refine ⟨[("foot", 6), ("hand", 3)], footAndHand 9, ⟨1, (), 1⟩, by decide, ⟨0, 0, 0, 0⟩, linDyn_law _ _ _, rfl, rfl, ?_, ?_⟩
  · refine ⟨0, fun i => if i = 6 then 1 else 0, fun h => ?_⟩
    have := (hv _ _ 0 (by decide)).symm.trans (congrFun h 0)
    rw [footAndHand_lam] at this
    unfold part Centroidal.Spec.get at this
    rw [dif_pos (by decide)] at this
    have e : -(if (⟨3, by decide⟩ : Fin 9) = 6 then (1 : ℝ) else 0) = -(if (⟨6, by decide⟩ : Fin 9) = 6 then (1 : ℝ) else 0) := this
    rw [if_neg (by decide), if_pos (by decide)] at e
    norm_num at e
  · intro x u
    funext i
    refine (hv _ _ i (by decide)).trans ?_
    rw [footAndHand_lam]
    unfold part Centroidal.Spec.get
    simp only [Constraints.start, List.take_zero, List.map_nil, List.sum_nil]
    rw [dif_pos (by show 0 + 3 + (i : ℕ) < 9; omega)]
    simp only [zero_add]
    rfl

/-- C61: behind a contact with fewer rows, the constructor accepts a contact whose force the residual then reads behind the end
of the forces.  Hand of three rows, then foot of six. -/
theorem C61_out_of_range :
    ∃ (cs : Constraints) (m : ContactModel 9 9 Unit), contactCtor 9 (1 : Mat 9 9) (cs.map Prod.fst) () "foot" = .ok m ∧
      cs[m.contact_id]? = some ("foot", 6) ∧ cs.start m.contact_id + 6 = cs.size ∧ cs.size < m.contact_id * 6 + 6 :=
  ⟨[("hand", 3), ("foot", 6)], ⟨1, (), 1⟩, rfl, rfl, rfl, by decide⟩

end Aligator.MB
