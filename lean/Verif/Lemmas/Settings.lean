import Verif.Spec.Settings

/-!
# Invariant of a solver that was set up
-/

namespace Aligator.Settings
open Spec

variable {D : Type}

/-- Results, workspace and linear solver of one size. -/
structure Inv (s : St D) (c : Cfg) (k : Choice) (n : ℕ) (l : Option Strategy) (w : Sizes D) : Prop where
  cfg : s.cfg = c
  ls : s.ls = l
  res : s.res = some w
  ws : s.ws = some w
  lin : s.lin = some ⟨k, n, w⟩

theorem mkLin_some {mt : Bool} {c : Cfg} {w : Sizes D} (h : Supported mt c) :
    mkLin mt c w = some ⟨c.choice, linThreads c, w⟩ := by
  unfold mkLin
  cases hc : c.choice with
  | serial => simp [linThreads, hc]
  | stageDense => simp [linThreads, hc]
  | parallel =>
    obtain ⟨h1, h2, h3⟩ := h hc
    simp only [h1, h2, if_true, mkParallel, linThreads, hc]
    rw [if_neg (by omega)]

theorem mkLin_none {mt : Bool} {c : Cfg} {w : Sizes D} (h : ¬Supported mt c) : mkLin mt c w = none := by
  unfold mkLin
  cases hc : c.choice with
  | serial => exact absurd (fun e => by rw [hc] at e; cases e) h
  | stageDense => exact absurd (fun e => by rw [hc] at e; cases e) h
  | parallel =>
    cases hr : c.rollout with
    | nonlinear => rfl
    | linear =>
      cases mt with
      | false => rfl
      | true =>
        simp only [if_true, mkParallel]
        refine if_pos ?_
        by_contra hn
        exact h fun _ => ⟨hr, rfl, by omega⟩

theorem setup_ok {mt : Bool} {p : Prob D} {s : St D} (hp : Allocates p) (hc : Supported mt s.cfg) :
    setup mt p s = ({ s with
      ls := lineSearch s.cfg.strategy s.ls
      res := some p.sizes
      ws := some p.sizes
      lin := some ⟨s.cfg.choice, linThreads s.cfg, p.sizes⟩
      filterEmpty := true }, true) := by
  obtain ⟨h1, h2, h3⟩ := hp
  have hl : initLs s.cfg s.ls = lineSearch s.cfg.strategy s.ls := by
    unfold initLs lineSearch
    cases s.cfg.strategy <;> rfl
  unfold setup
  simp only [h1, h2, h3, Bool.not_true, Bool.false_eq_true, if_false, mkLin_some hc, hl]

theorem setup_rejects {mt : Bool} {p : Prob D} {s : St D} (hp : Allocates p) (hc : ¬Supported mt s.cfg) :
    setup mt p s = ({ s with
      ls := lineSearch s.cfg.strategy s.ls
      res := some p.sizes
      ws := some p.sizes }, false) := by
  obtain ⟨h1, h2, h3⟩ := hp
  have hl : initLs s.cfg s.ls = lineSearch s.cfg.strategy s.ls := by
    unfold initLs lineSearch
    cases s.cfg.strategy <;> rfl
  unfold setup
  simp only [h1, h2, h3, Bool.not_true, Bool.false_eq_true, if_false, mkLin_none hc, hl]

/-- Settings after one call. -/
def put (c : Cfg) : Op D → Cfg
  | .setChoice x => { c with choice := x }
  | .setRollout x => { c with rollout := x }
  | .setThreads x => { c with threads := x }
  | .setStrategy x => { c with strategy := x }
  | _ => c

theorem settings_cons (c : Cfg) (o : Op D) (h : List (Op D)) : settings c (o :: h) = settings (put c o) h := by
  cases o <;> simp only [settings, put, List.filterMap_cons, List.getLastD_cons, choice?, rollout?, threads?, strategy?]

/-- Sizes after one call. -/
def move (w : Sizes D) : Op D → Sizes D
  | .shift d _ => w.shift d
  | _ => w

theorem shifted_cons (w : Sizes D) (o : Op D) (h : List (Op D)) (hs : Shiftable w (o :: h)) :
    shifted w (o :: h) = shifted (move w o) h := by
  cases o with
  | shift d i =>
    obtain ⟨st, tm⟩ := w
    cases st with
    | nil => exact absurd rfl (hs rfl _ (by simp) d i)
    | cons x xs => simp [shifted, move, Sizes.shift, stage?]
  | _ => simp [shifted, move, stage?, List.filterMap_cons]

theorem inv_run {s : St D} {c : Cfg} {k : Choice} {n : ℕ} {l : Option Strategy} {w : Sizes D} (h : Inv s c k n l w) :
    run s = .uses k n c.threads c.rollout (accept s) := by
  unfold run
  simp only [h.ws, h.res, h.lin, h.cfg, and_self, if_true]

theorem inv_step {mt : Bool} {s : St D} {c : Cfg} {k : Choice} {n : ℕ} {l : Option Strategy} {w : Sizes D}
    (h : Inv s c k n l w) (o : Op D) (h1 : ∀ p, o ≠ .setup p) (h2 : ∀ d, o ≠ .shift d false)
    (h3 : w.stages = [] → ∀ d i, o ≠ .shift d i) :
    ∃ t, step mt s o = some t ∧ Inv t (put c o) k n l (move w o) ∧ (o ≠ .run → t.filterEmpty = s.filterEmpty) := by
  cases o with
  | setChoice x => exact ⟨_, rfl, ⟨by simp [put, h.cfg], h.ls, h.res, h.ws, h.lin⟩, fun _ => rfl⟩
  | setRollout x => exact ⟨_, rfl, ⟨by simp [put, h.cfg], h.ls, h.res, h.ws, h.lin⟩, fun _ => rfl⟩
  | setThreads x => exact ⟨_, rfl, ⟨by simp [put, h.cfg], h.ls, h.res, h.ws, h.lin⟩, fun _ => rfl⟩
  | setStrategy x => exact ⟨_, rfl, ⟨by simp [put, h.cfg], h.ls, h.res, h.ws, h.lin⟩, fun _ => rfl⟩
  | setup p => exact absurd rfl (h1 p)
  | run =>
    simp only [step, inv_run h]
    cases accept s with
    | filter e => exact ⟨_, rfl, ⟨h.cfg, h.ls, h.res, h.ws, h.lin⟩, fun e => absurd rfl e⟩
    | nan => exact ⟨_, rfl, h, fun _ => rfl⟩
    | search a => exact ⟨_, rfl, h, fun _ => rfl⟩
  | shift d i =>
    cases i with
    | false => exact absurd rfl (h2 d)
    | true =>
      have hne : w.stages ≠ [] := fun e => h3 e d true rfl
      have hlen : w.stages.length = (w.shift d).stages.length := by
        have := List.length_pos_iff.mpr hne
        simp [Sizes.shift]
        omega
      have hcy : (⟨k, n, w⟩ : Lin D).cycle (w.shift d) d = some ⟨k, n, w.shift d⟩ := by
        unfold Lin.cycle
        cases k <;> simp [hlen]
      simp only [step, cycle, h.res, h.ws, h.lin, hne, if_false, Bool.not_true, Bool.false_eq_true, hcy]
      exact ⟨_, rfl, ⟨h.cfg, h.ls, rfl, rfl, rfl⟩, fun _ => rfl⟩

theorem shiftable_tail {w : Sizes D} {o : Op D} {h : List (Op D)} (hs : Shiftable w (o :: h)) :
    Shiftable (move w o) h := by
  intro he q hq d i
  cases o with
  | shift d' i' => simp [move, Sizes.shift] at he
  | _ => exact hs he q (List.mem_cons_of_mem _ hq) d i

theorem inv_exec {mt : Bool} {k : Choice} {n : ℕ} {l : Option Strategy} (h : List (Op D)) :
    ∀ {s : St D} {c : Cfg} {w : Sizes D}, Inv s c k n l w → Continues h → Shiftable w h →
      ∃ t, exec mt s h = some t ∧ Inv t (settings c h) k n l (shifted w h) ∧
        ((∀ o ∈ h, o ≠ .run) → t.filterEmpty = s.filterEmpty) := by
  induction h with
  | nil =>
    intro s c w hi _ _
    exact ⟨s, rfl, by simpa [settings, shifted] using hi, fun _ => rfl⟩
  | cons o h ih =>
    intro s c w hi hc hs
    obtain ⟨t, h1, h2, h3⟩ := inv_step (mt := mt) hi o (hc o (by simp)).1 (hc o (by simp)).2
      (fun e => hs e o (by simp))
    obtain ⟨u, h4, h5, h6⟩ := ih h2 (fun q hq => hc q (List.mem_cons_of_mem _ hq)) (shiftable_tail hs)
    refine ⟨u, by simp [exec, h1, h4], by rw [settings_cons, shifted_cons _ _ _ hs]; exact h5, fun hr => ?_⟩
    rw [h6 fun q hq => hr q (List.mem_cons_of_mem _ hq), h3 (hr o (by simp))]

end Aligator.Settings
