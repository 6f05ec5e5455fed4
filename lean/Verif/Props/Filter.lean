import Verif.Lemmas.Filter
import Mathlib.Data.Rat.Defs
import Mathlib.Algebra.Order.Ring.Rat
import Mathlib.Algebra.Field.Rat

/-!
# C25 — the filter holds exactly the Pareto front of the candidates it has seen
-/

set_option linter.unusedSectionVars false

namespace Aligator.Filter

variable {R : Type*} [Field R] [LinearOrder R] [IsStrictOrderedRing R]

/-- State of a filter created (or reset) with margin `0` and then shown the candidates `cs`. -/
def after (alphaMin : R) (n : Nat) (cs : List (R × R)) : State R :=
  cs.foldl (fun s f => step s (.accept f)) (reset 0 alphaMin n)

theorem after_inv (alphaMin : R) (n : Nat) (cs : List (R × R)) : Inv (after alphaMin n cs) cs := by
  have h := foldl_inv (reset_inv alphaMin n) cs
  rw [List.nil_append] at h
  exact h

/-- **C25a** Whatever candidates were shown, the stored pairs are exactly the Pareto-minimal candidates,
each stored once. -/
theorem C25_filter_is_pareto_front (alphaMin : R) (n : Nat) (cs : List (R × R)) :
    (∀ e, e ∈ (after alphaMin n cs).pairs ↔ ParetoMinimal cs e) ∧
    (after alphaMin n cs).pairs.Nodup := by
  have h := after_inv alphaMin n cs
  exact ⟨h.front, h.nodup⟩

/-- **C25b** No stored pair dominates another stored pair. -/
theorem C25_filter_antichain (alphaMin : R) (n : Nat) (cs : List (R × R)) :
    ∀ e ∈ (after alphaMin n cs).pairs, ∀ f ∈ (after alphaMin n cs).pairs,
      Dominates e f → e = f := by
  intro e he f hf hd
  obtain ⟨h, _⟩ := C25_filter_is_pareto_front alphaMin n cs
  exact ((h f).1 hf).2 e ((h e).1 he).1 hd

/-- **C25c** A candidate is rejected exactly when some candidate shown since the last reset dominates
it: no information is lost by removing dominated pairs. -/
theorem C25_filter_rejects_iff (alphaMin : R) (n : Nat) (cs : List (R × R)) (f : R × R) :
    (acceptPair (after alphaMin n cs) f).2 = false ↔ ∃ c ∈ cs, Dominates c f := by
  rw [← Bool.not_eq_true, acceptPair_flag (after_inv alphaMin n cs) f]
  push Not
  rfl

/-- **C25** One candidate, for any margin `beta` and any stored pairs: it is accepted exactly when every stored pair exceeds it
in one of the coordinates after both coordinates of the pair have been raised by `beta` times its second coordinate, and then
the stored pairs are those that it does not dominate, followed by the candidate; otherwise nothing changes. -/
theorem C25_accept_with_margin (s : State R) (f : R × R) :
    ((acceptPair s f).2 = true ↔ ∀ e ∈ s.pairs, f.1 < e.1 + s.beta * e.2 ∨ f.2 < e.2 + s.beta * e.2) ∧
    ((acceptPair s f).2 = false → (acceptPair s f).1 = s) ∧
    ((acceptPair s f).2 = true → (∀ e, e ∈ (acceptPair s f).1.pairs ↔ e = f ∨ e ∈ s.pairs ∧ ¬ Dominates f e) ∧
      (acceptPair s f).1.beta = s.beta) := by
  have hany : s.pairs.any (fun e => blocks s.beta e f) = true ↔
      ¬ ∀ e ∈ s.pairs, f.1 < e.1 + s.beta * e.2 ∨ f.2 < e.2 + s.beta * e.2 := by
    simp [blocks, List.any_eq_true]
  unfold acceptPair
  by_cases hb : s.pairs.any (fun e => blocks s.beta e f) = true
  · rw [if_pos hb]
    exact ⟨⟨fun h => by simp at h, fun h => absurd h (hany.1 hb)⟩, fun _ => rfl, fun h => by simp at h⟩
  · rw [if_neg hb]
    refine ⟨⟨fun _ => not_not.1 fun h => hb (hany.2 h), fun _ => rfl⟩, fun h => by simp at h, fun _ => ⟨fun e => ?_, rfl⟩⟩
    simp only [List.mem_append, List.mem_filter, List.mem_singleton, dominatedBy, Dominates]
    constructor
    · rintro (⟨h1, h2⟩ | h)
      · refine .inr ⟨h1, fun hc => ?_⟩
        simp [hc.1, hc.2] at h2
      · exact .inl h
    · rintro (h | ⟨h1, h2⟩)
      · exact .inr h
      · refine .inl ⟨h1, ?_⟩
        by_contra hc
        apply h2
        simpa using hc

/-- Non-vacuity: a margin of one raises the first coordinate by the second. -/
example : (acceptPair (⟨[((1 : ℚ), 2)], 1, 0, 0⟩ : State ℚ) (2, 5)).2 = true ∧
    (acceptPair (⟨[((1 : ℚ), 2)], 1, 0, 0⟩ : State ℚ) (3, 5)).2 = false := by
  refine ⟨(C25_accept_with_margin _ _).1.2 (by simp), ?_⟩
  rw [← Bool.not_eq_true, (C25_accept_with_margin _ _).1]
  simp; norm_num

/-- **C25d** Every candidate shown so far is dominated by a stored pair. -/
theorem C25_filter_covers (alphaMin : R) (n : Nat) (cs : List (R × R)) :
    ∀ c ∈ cs, ∃ e ∈ (after alphaMin n cs).pairs, Dominates e c := by
  exact (after_inv alphaMin n cs).cover

/-- **C25e** A reset forgets everything: after any prefix of operations, a reset with margin `0` followed
by the candidates `cs` leaves the same state as a new filter shown `cs`. -/
theorem C25_reset_forgets (s₀ : State R) (pre : List (Op R)) (alphaMin : R) (n : Nat)
    (cs : List (R × R)) :
    (pre ++ Op.reset 0 alphaMin n :: cs.map Op.accept).foldl step s₀ = after alphaMin n cs := by
  rw [List.foldl_append, List.foldl_cons, List.foldl_map]
  rfl

/-- **C25f** The line search driven by the filter terminates (for `alpha_min > 0`), and when the merit
function never throws it returns a step in `[alpha_min, 1]` together with the merit pair at that very
step; the pair was accepted by the filter (it is stored), or the step is `alpha_min`, or the step
budget ran out. -/
theorem C25_run_ok [Archimedean R] (phi : R → R × R) (s : State R)
    (h0 : 0 < s.alphaMin) (h1 : s.alphaMin ≤ 1) :
    ∃ fuel s' a, run (fun a => some (phi a)) fuel s = some (.ret s' a (phi a)) ∧
      s.alphaMin ≤ a ∧ a ≤ 1 ∧
      (phi a ∈ s'.pairs ∨ a = s.alphaMin ∨ a = (1 / 2) ^ s.maxNumSteps) := by
  have loop : ∀ (n : Nat) (s : State R) (a : R), 0 < s.alphaMin → s.alphaMin ≤ a → a ≤ 1 →
      ∃ s' a', runLoop (fun a => some (phi a)) n s a (phi a) = .ret s' a' (phi a') ∧
        s.alphaMin ≤ a' ∧ a' ≤ 1 ∧
        (phi a' ∈ s'.pairs ∨ a' = s.alphaMin ∨ a' = a * (1 / 2) ^ n) := by
    intro n
    induction n with
    | zero =>
      intro s a _ ha ha1
      exact ⟨s, a, rfl, ha, ha1, by right; right; simp⟩
    | succ n ih =>
      intro s a hs ha ha1
      rw [runLoop]
      cases hacc : acceptPair s (phi a) with
      | mk s' b =>
        cases b with
        | true =>
          refine ⟨s', a, rfl, ha, ha1, Or.inl ?_⟩
          unfold acceptPair at hacc
          split at hacc
          · simp at hacc
          · simp only [Prod.mk.injEq, and_true] at hacc
            subst hacc; simp
        | false =>
          have hs' : s' = s := by
            unfold acceptPair at hacc
            split at hacc
            · simpa using hacc.symm
            · simp at hacc
          subst hs'
          dsimp only
          split
          · exact ⟨s', s'.alphaMin, rfl, le_refl _, ha.trans ha1, Or.inr (Or.inl rfl)⟩
          · rename_i hlt
            push Not at hlt
            obtain ⟨s₂, a₂, e, l1, l2, l3⟩ := ih s' (a * (1 / 2)) hs hlt.le (by linarith)
            refine ⟨s₂, a₂, e, l1, l2, ?_⟩
            rcases l3 with l3 | l3 | l3
            · exact Or.inl l3
            · exact Or.inr (Or.inl l3)
            · right; right; rw [l3]; ring
  obtain ⟨s', a, e, l1, l2, l3⟩ := loop s.maxNumSteps s 1 h0 h1 (le_refl _)
  refine ⟨1, s', a, ?_, l1, l2, by simpa using l3⟩
  unfold run runFirst
  simp only
  rw [e]

/-- **C25g** (negative finding) When the merit function throws at every step length the search still
shows the filter a pair — the value-initialised `(0, 0)` — although the merit function never produced
it; from then on every pair with nonnegative entries is rejected. -/
theorem C25_throwing_merit_poisons_filter :
    ∃ fuel s' a, run (fun _ => none) fuel (reset (0 : ℚ) (1/4) 20) = some (.ret s' a (0, 0)) ∧
      s'.pairs = [(0, 0)] ∧
      ∀ f : ℚ × ℚ, 0 ≤ f.1 → 0 ≤ f.2 → (acceptPair s' f).2 = false := by
  refine ⟨2, ⟨[(0,0)], 0, 1/4, 20⟩, 1/4, ?_, rfl, ?_⟩
  · simp [run, runFirst, reset, runLoop, acceptPair]
    norm_num
  · intro f h1 h2
    simp [acceptPair, blocks, h1, h2]

/-- **C25h** (negative finding) With a positive margin the stored pairs may dominate one another, so the
antichain property needs margin `0` (the value used by the solver). -/
theorem C25_positive_margin_breaks_antichain :
    ∃ cs : List (ℚ × ℚ), ∃ e ∈ (cs.foldl (fun s f => step s (.accept f)) (reset (1 : ℚ) 0 0)).pairs,
      ∃ f ∈ (cs.foldl (fun s f => step s (.accept f)) (reset (1 : ℚ) 0 0)).pairs,
        Dominates e f ∧ e ≠ f := by
  refine ⟨[(1, 1), (2, 3/2)], (1, 1), ?_, (2, 3/2), ?_, ?_, ?_⟩ <;>
    norm_num [step, acceptPair, reset, blocks, dominatedBy, Dominates]

/-- Non-vacuity: a history with an acceptance, a rejection and a removal. -/
example : (after (1/4 : ℚ) 20 [(3, 1), (4, 2), (1, 3), (2, 1/2)]).pairs = [(1, 3), (2, 1/2)] ∧
    (acceptPair (after (1/4 : ℚ) 20 [(3, 1)]) (4, 2)).2 = false ∧
    (acceptPair (after (1/4 : ℚ) 20 [(3, 1)]) (1, 3)).2 = true := by
  refine ⟨?_, ?_, ?_⟩ <;>
    norm_num [after, step, acceptPair, reset, blocks, dominatedBy]

end Aligator.Filter
