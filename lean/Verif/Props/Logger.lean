import Verif.Lemmas.Logger

/-!
# C73: the printed table
-/

namespace Aligator.Log

variable {V : Type*}

/-- Whatever program declares columns with literal names, and none after a row with a hole, prints exactly the table it
describes, for every hash function, every growth of vectors and every formatting. -/
theorem C73_prints_the_table (env : Env V) (os : List (Op V)) {a : Table}
    (h : Table.init.run env.render os = some a) :
    ∃ s, exec env os St.init = .ok s ∧ s.out = a.out ∧ s.names = a.cols := by
  obtain ⟨s, e, g⟩ := run_agrees env os init_agrees h
  exact ⟨s, e, g.out, g.names⟩

/-! ### ProxDDP -/

/-- Over any sequence of runs, verbose or not, converged, given up or left by an exception, the ProxDDP solver prints for
each verbose run its headline and one row per completed iteration, with the number, the values of that iteration in the
columns that name them, and the final message; silent runs print nothing. -/
theorem C73_prox_prints_iterations (env : Env V) {ci : ℕ → ℕ → String} {cs cg : V → ℕ → String}
    (hp : Prints env.render ci cs cg) (rs : List (Run V)) :
    ∃ s, exec env (proxCtor ++ rs.flatMap proxRun) St.init = .ok s ∧ s.out = rs.flatMap (proxPrint ci cs cg) := by
  have all : ∀ (rs : List (Run V)) (a : Table), Ready a →
      ∃ a', a.run env.render (rs.flatMap proxRun) = some a' ∧ a'.out = a.out ++ rs.flatMap (proxPrint ci cs cg) := by
    intro rs
    induction rs with
    | nil => intro a _; exact ⟨a, rfl, by simp⟩
    | cons r rs ih =>
      intro a h
      obtain ⟨b, hb, rb, ob⟩ := run_ready hp r h
      obtain ⟨c, hc, oc⟩ := ih b rb
      refine ⟨c, ?_, ?_⟩
      · rw [List.flatMap_cons, run_append, hb, Option.bind_some, hc]
      · rw [oc, ob, List.flatMap_cons, List.append_assoc]
  obtain ⟨a, ha, ra, oa⟩ := ready_ctor env.render
  obtain ⟨b, hb, ob⟩ := all rs a ra
  obtain ⟨s, e, o, -⟩ := C73_prints_the_table env (proxCtor ++ rs.flatMap proxRun) (a := b) (by
    rw [run_append, ha, Option.bind_some, hb])
  exact ⟨s, e, by rw [o, ob, oa, List.nil_append]⟩

/-! ### FDDP -/

/-- All a first verbose run of FDDP prints, whatever its iterations and its end. -/
theorem C73_fddp_first_run_partial (env : Env V) {ci : ℕ → ℕ → String} {cs cg : V → ℕ → String}
    (hp : Prints env.render ci cs cg) (its : List (Iter V)) (e : Ending V) :
    ∃ s, exec env (fddpRun true its e) St.init = .ok s ∧
      s.out = fddpHead 1 :: fddpRows ci cs 0 its ++ fddpTail ci cs its e := by
  obtain ⟨a, ha, -, oa⟩ := first_table env hp its e
  obtain ⟨s, hs, os, -⟩ := C73_prints_the_table env _ ha
  exact ⟨s, hs, by rw [os, oa]⟩

/-- With vectors that double, a second verbose run of FDDP reads memory that has been given back, as soon as both runs
print a row. -/
theorem C73_fddp_second_run_undefined (env : Env V) {ci : ℕ → ℕ → String} {cs cg : V → ℕ → String}
    (hp : Prints env.render ci cs cg) (hg : ∀ c, env.grow c = max 1 (2 * c)) {its its' : List (Iter V)}
    {e e' : Ending V} (h : HasRow its e) (h' : HasRow its' e') :
    exec env (fddpRun true its e ++ fddpRun true its' e') St.init = .ub := by
  obtain ⟨a, ha, fa, -⟩ := first_table env hp its e
  obtain ⟨s1, e1, g1⟩ := run_agrees env _ init_agrees ha
  obtain ⟨s0, e0, c0, l0⟩ := first_head env hg
  -- the body of the first run
  have split1 : fddpRun true its e = (.setActive true :: (fddpKeys.map colOp ++ [.headline])) ++
      (fddpIters 0 its ++ fddpEnd its.length e) := by simp [fddpRun]
  have e1' := e1
  rw [split1, exec_append env _ _ e0] at e1'
  obtain ⟨c1, k1⟩ := body_keys env _ e1' (body_body its e) (by rw [l0]; simp)
  -- the key of the column "cost"
  have vc : (a.value "cost").isSome := by
    rw [split1, run_append, Option.bind_eq_some_iff] at ha
    obtain ⟨b, hb, ha⟩ := ha
    have hb' : b.cols = fddpKeys.map (·.1) ∧ b.active = true := by
      cases hb; exact ⟨rfl, rfl⟩
    exact body_filled env.render _ ha (body_body its e) (by rw [hb'.1]; simp [fddpKeys]) hb'.2 (Or.inr (body_log h))
  obtain ⟨x, hx, tx, ox⟩ : ∃ x ∈ s1.line, x.1.text = "cost" ∧ x.1.owner = .cell s1.gen := by
    rw [← g1.value] at vc
    unfold find at vc
    rw [Option.isSome_map, List.find?_isSome] at vc
    obtain ⟨x, hx, tx⟩ := vc
    have tx' : x.1.text = "cost" := by simpa using tx
    refine ⟨x, hx, tx', ?_⟩
    rcases g1.lineKeys x hx with q | q
    · exact absurd q (k1 x hx tx')
    · exact q.1
  have n1 : s1.names = fddpKeys.map (·.1) := g1.names.trans fa.2.1
  -- the first column of the second run moves the names
  rw [exec_append env _ _ e1]
  have st : step env { s1 with active := true } (colOp ("iter", "{: >{}d} ", 5)) = .ok { s1 with
      active := true, names := s1.names ++ ["iter"], cap := env.grow s1.cap, gen := s1.gen + 1 } := by
    simp only [colOp, step, addColumn]
    have hn : ¬ s1.names.length < s1.cap := by rw [n1, c1, c0]; simp [fddpKeys]
    rw [if_neg (by simp [St.alive, lit])]
    simp only [if_neg hn]
    rw [if_neg (by
      rw [probe_alive env _ _ _ (by intro y hy; simp [St.alive, g1.specKeys y hy])]; simp), if_pos]
    · rfl
    · have hi := fa.2.2.1.1 ("iter", "{: >{}d} ", 5) (by simp [fddpKeys])
      rw [show (lit "iter").text = "iter" from rfl, g1.spec, show a.spec "iter" = _ from hi]
      rfl
  rw [fddpRun, exec]
  dsimp only [step]
  rw [show (fddpKeys.map colOp ++ .headline :: (fddpIters 0 its' ++ fddpEnd its'.length e') : List (Op V)) =
    colOp ("iter", "{: >{}d} ", 5) :: (fddpKeys.tail.map colOp ++ .headline :: (fddpIters 0 its' ++ fddpEnd its'.length e'))
    from rfl, exec, st]
  dsimp only
  apply exec_doomed
  · refine ⟨⟨x, hx, tx, s1.gen, ox, Nat.lt_succ_self _⟩, rfl, by simp [n1, fddpKeys], ?_⟩
    have : find s1.specs = a.spec := funext g1.spec
    dsimp only
    rw [this]
    exact fa.2.2.1
  · intro o ho
    rcases List.mem_append.mp ho with q | q
    · obtain ⟨c, -, rfl⟩ := List.mem_map.mp q
      trivial
    · rcases List.mem_cons.mp q with rfl | q
      · trivial
      · exact late_body env hp its' e' o q
  · intro o ho k w f hk
    rcases List.mem_append.mp ho with q | q
    · simp only [fddpKeys, List.tail_cons, List.map_cons, List.map_nil, List.mem_cons, List.not_mem_nil, or_false,
        colOp] at q
      subst hk
      simp only [Op.addColumn.injEq] at q
      rcases q with q | q | q | q | q | q | q <;> rw [q.1] <;> simp [lit]
    · rcases List.mem_cons.mp q with q | q
      · subst hk; simp at q
      · have := body_body its' e' o q
        subst hk
        exact this.elim
  · obtain ⟨o, ho, rfl⟩ := body_log h'
    exact ⟨_, by simp [List.mem_append.mp ho], rfl⟩

/-- The columns pile up: the headline of a verbose run after `n` silent ones has all columns `n + 1` times. -/
theorem C73_fddp_columns_pile_up (env : Env V) {ci : ℕ → ℕ → String} {cs cg : V → ℕ → String}
    (hp : Prints env.render ci cs cg) (rs : List (List (Iter V) × Ending V)) (its : List (Iter V)) (e : Ending V) :
    ∃ s rest, exec env (rs.flatMap (fun r => fddpRun false r.1 r.2) ++ fddpRun true its e) St.init = .ok s ∧
      s.out = fddpHead (rs.length + 1) :: rest := by
  have silent : ∀ (rs : List (List (Iter V) × Ending V)) (a : Table), a.holes = false →
      (FSpec a.spec ∨ a.spec = fun _ => none) →
      ∃ a', a.run env.render (rs.flatMap fun r => fddpRun false r.1 r.2) = some a' ∧ a'.holes = false ∧
        (FSpec a'.spec ∨ a'.spec = fun _ => none) ∧ a'.out = a.out ∧
        a'.cols = a.cols ++ (List.replicate rs.length (fddpKeys.map (·.1))).flatten := by
    intro rs
    induction rs with
    | nil => intro a h1 h2; exact ⟨a, rfl, h1, h2, rfl, by simp⟩
    | cons r rs ih =>
      intro a h1 h2
      obtain ⟨b, hb, b1, b2, b3, b4, b5⟩ := columns_again env.render (a := { a with active := false }) h1 h2
      obtain ⟨c, ext, hc, c1, c2, c3, c4⟩ := body_table env (fddpIters 0 r.1 ++ fddpEnd r.1.length r.2) b1
        (body_body r.1 r.2) (late_body env hp r.1 r.2)
      obtain ⟨-, d2, d3⟩ := c4 b5
      obtain ⟨d, hd, e1, e2, e3, e4⟩ := ih c (d2.trans b4) (Or.inl c1)
      refine ⟨d, ?_, e1, e2, by rw [e3, c3, d3, b3]; simp, ?_⟩
      · rw [List.flatMap_cons, run_append, fddpRun, Table.run]
        dsimp only [Table.step]
        rw [Option.bind_some, run_append, hb, Option.bind_some, Table.run]
        dsimp only [Table.step]
        rw [if_neg (by rw [b5]; simp), Option.bind_some, hc, Option.bind_some, hd]
      · rw [e4, c2, b2, List.length_cons, List.replicate_succ, List.flatten_cons, List.append_assoc]
  obtain ⟨a, ha, a1, a2, a3, a4⟩ := silent rs Table.init rfl (Or.inr rfl)
  obtain ⟨b, hb, b1, b2, b3, b4, b5⟩ := columns_again env.render (a := { a with active := true }) a1 a2
  have hcols : b.cols = (List.replicate (rs.length + 1) (fddpKeys.map (·.1))).flatten := by
    rw [b2]; dsimp only
    rw [a4, List.replicate_succ', List.flatten_append]
    simp [Table.init]
  have head : (b.cols.map fun n => (n, ((b.spec n).getD (0, "")).1 + 1)) =
      (List.replicate (rs.length + 1) [("iter", 6), ("alpha", 11), ("prim_err", 11), ("dual_err", 11), ("preg", 11),
        ("cost", 11), ("dphi0", 12), ("ΔM", 12)]).flatten := by
    have h1 := b1.1
    simp only [fddpKeys, List.forall_mem_cons, List.not_mem_nil, false_imp_iff, implies_true, and_true] at h1
    rw [hcols, List.map_flatten, List.map_replicate]
    simp [fddpKeys, h1]
  obtain ⟨c, ext, hc, c1, c2, c3, c4⟩ := body_table env (fddpIters 0 its ++ fddpEnd its.length e)
    (a := { b with out := b.out ++ [fddpHead (rs.length + 1)] }) b1 (body_body its e) (late_body env hp its e)
  obtain ⟨s, h1, h2, -⟩ := C73_prints_the_table env
    (rs.flatMap (fun r => fddpRun false r.1 r.2) ++ fddpRun true its e) (a := c) (by
      rw [run_append, ha, Option.bind_some, fddpRun, Table.run]
      dsimp only [Table.step]
      rw [Option.bind_some, run_append, hb, Option.bind_some, Table.run]
      dsimp only [Table.step]
      rw [if_pos b5, Option.bind_some, head]
      exact hc)
  refine ⟨s, ext, h1, ?_⟩
  rw [h2, c3]
  dsimp only
  rw [b3]
  dsimp only
  rw [a3]
  rfl

/-- A column with a name owned by the caller: the headline reads the name after it is gone. -/
theorem C73_borrowed_name_undefined (env : Env V) (name format : String) (width id : ℕ) :
    exec env [.addColumn ⟨.ext id, name⟩ width format, .die id, .headline] St.init = .ub := by
  simp [exec, step, addColumn, St.init, St.alive, probe, find, headline, headLoop]

/-- There is an environment as assumed, and a run with rows. -/
def demoEnv : Env ℕ :=
  { bucket := String.length, grow := fun c => max 1 (2 * c), grow_gt := fun c => by omega
    render := fun f v w => if f = "" then some "" else match f, v with
      | "{: >{}d} ", .size n => some s!"{n}:{w}"
      | "{: >{}.3e} ", .dbl n => some s!"{n}e:{w}"
      | "{: >{}.3g} ", .dbl n => some s!"{n}g:{w}"
      | _, _ => none
    render_empty := fun _ _ => rfl }

theorem demo_prints : Prints demoEnv.render (fun n w => s!"{n}:{w}") (fun n w => s!"{n}e:{w}")
    (fun n w => s!"{n}g:{w}") := ⟨fun _ _ => rfl, fun _ _ => rfl, fun _ _ => rfl⟩

/-- Values of an iteration. -/
def demoIter (n : ℕ) : Iter ℕ :=
  { alpha := n, innerCrit := n + 1, prim := n + 2, dual := n + 3, preg := n + 4, dphi0 := n + 5, cost := n + 6
    merit := n + 7, dM := n + 8, al := n, mu := n + 9 }

/-- A table with two columns and two rows. -/
example : ∃ s, exec demoEnv [.addColumn (lit "a") 5 "{: >{}d} ", .addColumn (lit "b") 6 "{: >{}.3e} ", .headline,
    .entry (lit "a") (.size 3), .entry (lit "b") (.dbl 4), .log, .entry (lit "b") (.dbl 7), .log, .finish true] St.init =
    .ok s ∧ s.out = [.head [("a", 6), ("b", 7)], .row ["3:5", "4e:6"], .row ["3:5", "7e:6"], .finish true] := by
  obtain ⟨s, h1, h2, -⟩ := C73_prints_the_table demoEnv [.addColumn (lit "a") 5 "{: >{}d} ",
    .addColumn (lit "b") 6 "{: >{}.3e} ", .headline, .entry (lit "a") (.size 3), .entry (lit "b") (.dbl 4), .log,
    .entry (lit "b") (.dbl 7), .log, .finish true] rfl
  exact ⟨s, h1, h2.trans (by decide)⟩

/-- A silent run, then one with two iterations: four lines. -/
example : ∃ s, exec demoEnv (proxCtor ++ [(⟨false, [demoIter 0], none, some true⟩ : Run ℕ),
    ⟨true, [demoIter 1, demoIter 2], none, some true⟩].flatMap proxRun) St.init = .ok s ∧ s.out.length = 4 := by
  obtain ⟨s, h1, h2⟩ := C73_prox_prints_iterations demoEnv demo_prints
    [(⟨false, [demoIter 0], none, some true⟩ : Run ℕ), ⟨true, [demoIter 1, demoIter 2], none, some true⟩]
  exact ⟨s, h1, by rw [h2]; rfl⟩

/-- FDDP converging at its second iteration prints the first row twice. -/
example : ∃ s r, exec demoEnv (fddpRun true [demoIter 1] .converged) St.init = .ok s ∧
    s.out = [fddpHead 1, r, r, .finish true] := by
  obtain ⟨s, h1, h2⟩ := C73_fddp_first_run_partial demoEnv demo_prints [demoIter 1] .converged
  exact ⟨s, _, h1, h2⟩

example : exec demoEnv (fddpRun true [demoIter 1] .exhausted ++ fddpRun true [] .converged) St.init = .ub :=
  C73_fddp_second_run_undefined demoEnv demo_prints (fun _ => rfl) (Or.inl (by simp)) (Or.inr (by simp))

/-- After one silent run the headline of the next has sixteen columns. -/
example : ∃ s cols rest, exec demoEnv (fddpRun false [demoIter 1] .exhausted ++ fddpRun true [demoIter 2] .exhausted)
    St.init = .ok s ∧ s.out = .head cols :: rest ∧ cols.length = 16 := by
  obtain ⟨s, rest, h1, h2⟩ := C73_fddp_columns_pile_up demoEnv demo_prints [([demoIter 1], .exhausted)] [demoIter 2]
    .exhausted
  exact ⟨s, _, rest, by simpa using h1, h2, rfl⟩

end Aligator.Log
