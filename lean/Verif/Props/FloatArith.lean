import Verif.Spec.FloatArith

/-!
# C22: the numbers of the line searches follow the extended reals

The comparisons and operations on merit values (infinite or not a number included) that the other theorems about
line searches use are those of the extended reals where these are defined, and not a number elsewhere.
-/

namespace Aligator.Linesearch

open Fl

theorem val_some {a : Fl} {x : EReal} (h : a.val = Option.some x) :
    (a = .inf true ∧ x = ⊥) ∨ (a = .inf false ∧ x = ⊤) ∨ ∃ r : ℝ, a = .fin r ∧ x = (r : EReal) := by
  rcases a with _ | b | r
  · simp [Fl.val] at h
  · cases b
    · simp [Fl.val] at h; simp [h]
    · simp [Fl.val] at h; simp [h]
  · simp [Fl.val] at h; simp [h]

/-- **C22**: comparisons of merit values are those of the extended reals, and false with NaN. -/
theorem C22_merit_comparisons (a b : Fl) :
    (le a b ↔ ∃ x y, a.val = Option.some x ∧ b.val = Option.some y ∧ x ≤ y) ∧
    (lt a b ↔ ∃ x y, a.val = Option.some x ∧ b.val = Option.some y ∧ x < y) := by
  rcases a with _ | (_ | _) | r <;> rcases b with _ | (_ | _) | s <;>
    simp [le, lt, Fl.val, EReal.bot_lt_coe, EReal.coe_lt_top]

theorem val_neg {a : Fl} {x : EReal} (ha : a.val = Option.some x) : (neg a).val = Option.some (-x) := by
  rcases val_some ha with ⟨rfl, rfl⟩ | ⟨rfl, rfl⟩ | ⟨r, rfl, rfl⟩ <;> simp [neg, Fl.val]

theorem val_add {a b : Fl} {x y : EReal} (ha : a.val = Option.some x) (hb : b.val = Option.some y) :
    (SumDefined x y → (add a b).val = Option.some (x + y)) ∧ (¬ SumDefined x y → add a b = .nan) := by
  rcases val_some ha with ⟨rfl, rfl⟩ | ⟨rfl, rfl⟩ | ⟨r, rfl, rfl⟩ <;>
    rcases val_some hb with ⟨rfl, rfl⟩ | ⟨rfl, rfl⟩ | ⟨s, rfl, rfl⟩ <;> simp [add, Fl.val, SumDefined]

theorem val_mul {a b : Fl} {x y : EReal} (ha : a.val = Option.some x) (hb : b.val = Option.some y) :
    (ProdDefined x y → (mul a b).val = Option.some (x * y)) ∧ (¬ ProdDefined x y → mul a b = .nan) := by
  rcases val_some ha with ⟨rfl, rfl⟩ | ⟨rfl, rfl⟩ | ⟨r, rfl, rfl⟩ <;>
    rcases val_some hb with ⟨rfl, rfl⟩ | ⟨rfl, rfl⟩ | ⟨s, rfl, rfl⟩
  · simp [mul, Fl.val, ProdDefined]
  · simp [mul, Fl.val, ProdDefined]
  · rcases lt_trichotomy s 0 with h | h | h
    · simp [mul, Fl.val, ProdDefined, sgn, h, h.ne, EReal.bot_mul_coe_of_neg h]
    · simp [mul, Fl.val, ProdDefined, h]
    · simp [mul, Fl.val, ProdDefined, sgn, h.le, h.ne', EReal.bot_mul_coe_of_pos h]
  · simp [mul, Fl.val, ProdDefined]
  · simp [mul, Fl.val, ProdDefined]
  · rcases lt_trichotomy s 0 with h | h | h
    · simp [mul, Fl.val, ProdDefined, sgn, h, h.ne, EReal.top_mul_coe_of_neg h]
    · simp [mul, Fl.val, ProdDefined, h]
    · simp [mul, Fl.val, ProdDefined, sgn, h.le, h.ne', EReal.top_mul_coe_of_pos h]
  · rcases lt_trichotomy r 0 with h | h | h
    · simp [mul, Fl.val, ProdDefined, sgn, h, h.ne, EReal.coe_mul_bot_of_neg h]
    · simp [mul, Fl.val, ProdDefined, h]
    · simp [mul, Fl.val, ProdDefined, sgn, h.le, h.ne', EReal.coe_mul_bot_of_pos h]
  · rcases lt_trichotomy r 0 with h | h | h
    · simp [mul, Fl.val, ProdDefined, sgn, h, h.ne, EReal.coe_mul_top_of_neg h]
    · simp [mul, Fl.val, ProdDefined, h]
    · simp [mul, Fl.val, ProdDefined, sgn, h.le, h.ne', EReal.coe_mul_top_of_pos h]
  · simp [mul, Fl.val, ProdDefined]

theorem val_div {a b : Fl} {x y : EReal} (ha : a.val = Option.some x) (hb : b.val = Option.some y) :
    (QuotDefined x y → (div a b).val = Option.some (x / y)) ∧
    (y = 0 → (div a b = .nan ↔ x = 0) ∧ (0 < x → (div a b).val = Option.some ⊤) ∧
      (x < 0 → (div a b).val = Option.some ⊥)) := by
  rcases val_some ha with ⟨rfl, rfl⟩ | ⟨rfl, rfl⟩ | ⟨r, rfl, rfl⟩ <;>
    rcases val_some hb with ⟨rfl, rfl⟩ | ⟨rfl, rfl⟩ | ⟨s, rfl, rfl⟩
  · simp [QuotDefined]
  · simp [QuotDefined]
  · rcases lt_trichotomy s 0 with h | h | h
    · simp [div, Fl.val, QuotDefined, sgn, h, h.ne, EReal.bot_div_of_neg_ne_bot (EReal.coe_neg'.2 h)]
    · simp [div, Fl.val, QuotDefined, sgn, h]
    · simp [div, Fl.val, QuotDefined, sgn, h.le, h.ne', EReal.bot_div_of_pos_ne_top (EReal.coe_pos.2 h)]
  · simp [QuotDefined]
  · simp [QuotDefined]
  · rcases lt_trichotomy s 0 with h | h | h
    · simp [div, Fl.val, QuotDefined, sgn, h, h.ne, EReal.top_div_of_neg_ne_bot (EReal.coe_neg'.2 h)]
    · simp [div, Fl.val, QuotDefined, sgn, h]
    · simp [div, Fl.val, QuotDefined, sgn, h.le, h.ne', EReal.top_div_of_pos_ne_top (EReal.coe_pos.2 h)]
  · simp [div, Fl.val]
  · simp [div, Fl.val]
  · by_cases h : s = 0
    · rcases lt_trichotomy r 0 with hr | hr | hr
      · simp [div, Fl.val, QuotDefined, sgn, h, hr, hr.ne, hr.le]
      · simp [div, Fl.val, QuotDefined, sgn, h, hr]
      · simp [div, Fl.val, QuotDefined, sgn, h, hr, hr.ne', hr.le]
    · simp [div, Fl.val, QuotDefined, h, EReal.coe_div]

/-- **C22**: negation, sums, differences, products and quotients of merit values. -/
theorem C22_merit_arithmetic (a b : Fl) {x y : EReal} (ha : a.val = Option.some x) (hb : b.val = Option.some y) :
    (neg a).val = Option.some (-x) ∧
    (SumDefined x y → (add a b).val = Option.some (x + y)) ∧ (¬ SumDefined x y → add a b = .nan) ∧
    (SumDefined x (-y) → (sub a b).val = Option.some (x - y)) ∧
    (ProdDefined x y → (mul a b).val = Option.some (x * y)) ∧ (¬ ProdDefined x y → mul a b = .nan) ∧
    (QuotDefined x y → (div a b).val = Option.some (x / y)) ∧
    (y = 0 → (div a b = .nan ↔ x = 0) ∧ (0 < x → (div a b).val = Option.some ⊤) ∧
      (x < 0 → (div a b).val = Option.some ⊥)) :=
  ⟨val_neg ha, (val_add ha hb).1, (val_add ha hb).2,
    fun h => by rw [sub, sub_eq_add_neg]; exact (val_add ha (val_neg hb)).1 h,
    (val_mul ha hb).1, (val_mul ha hb).2, (val_div ha hb).1, (val_div ha hb).2⟩

/-- **C22**: roots of merit values. -/
theorem C22_merit_root (a : Fl) :
    (∀ r : ℝ, a.val = Option.some ((r ^ 2 : ℝ) : EReal) → (sqrt a).val = Option.some ((|r| : ℝ) : EReal)) ∧
    (a.val = Option.some ⊤ → (sqrt a).val = Option.some ⊤) ∧
    (∀ x, a.val = Option.some x → x < 0 → sqrt a = .nan) := by
  refine ⟨fun r h => ?_, fun h => ?_, fun x h hx => ?_⟩
  · rcases val_some h with ⟨rfl, e⟩ | ⟨rfl, e⟩ | ⟨s, rfl, e⟩
    · exact absurd e (EReal.coe_ne_bot _)
    · exact absurd e (EReal.coe_ne_top _)
    · have e' : r ^ 2 = s := EReal.coe_injective e
      subst e'
      simp [sqrt, Fl.val, not_lt.2 (sq_nonneg r), Real.sqrt_sq_eq_abs]
  · rcases val_some h with ⟨rfl, e⟩ | ⟨rfl, e⟩ | ⟨s, rfl, e⟩
    · simp at e
    · simp [sqrt, Fl.val]
    · exact absurd e.symm (EReal.coe_ne_top _)
  · rcases val_some h with ⟨rfl, e⟩ | ⟨rfl, e⟩ | ⟨s, rfl, e⟩
    · rfl
    · subst e; simp at hx
    · subst e
      simp [sqrt, EReal.coe_neg'.1 hx]

/-- Non-trivial values. -/
example : (mul (.inf false) (.fin (-2))).val = Option.some ⊥ := by
  have := (C22_merit_arithmetic (.inf false) (.fin (-2)) (x := ⊤) (y := ((-2 : ℝ) : EReal)) rfl rfl).2.2.2.2.1
    ⟨by simp, by norm_num⟩
  rw [this, EReal.top_mul_coe_of_neg (by norm_num)]

end Aligator.Linesearch
