import Verif.Model.Logger

/-!
# Specification: a table

Columns with names and formats, current values by name, printed lines.  No keys, no memory.
-/

namespace Aligator.Log

variable {V : Type*}

/-- A table being printed.  `holes`: a row has been printed with a column that had no value. -/
structure Table where
  active : Bool
  cols : List String
  spec : String → Option (ℕ × String)
  value : String → Option String
  holes : Bool
  out : List Line

/-- The empty table. -/
def Table.init : Table :=
  { active := true, cols := [], spec := fun _ => none, value := fun _ => none, holes := false, out := [] }

/-- Give `t` the entry `b` unless it has one. -/
def fill {β : Type*} (f : String → Option β) (t : String) (b : β) : String → Option β :=
  fun u => if u = t ∧ (f t).isNone then some b else f u

/-- What an operation does to a table.  `none`: a name that is not a literal, a column added after a row with a hole, or
a value the format of its column does not accept. -/
def Table.step (render : String → Val V → ℕ → Option String) (a : Table) : Op V → Option Table
  | .addColumn k w f =>
    if k.owner ≠ .lit ∨ a.holes = true then none
    else some { a with cols := a.cols ++ [k.text], spec := fill a.spec k.text (w, f) }
  | .headline =>
    some (if a.active then { a with out := a.out ++ [.head (a.cols.map fun n => (n, ((a.spec n).getD (0, "")).1 + 1))] }
      else a)
  | .entry k v =>
    if k.owner ≠ .lit then none
    else (render ((a.spec k.text).getD (0, "")).2 v ((a.spec k.text).getD (0, "")).1).map fun c =>
      { a with spec := fill a.spec k.text (0, ""), value := fun u => if u = k.text then some c else a.value u }
  | .log =>
    some (if a.active then
        { a with out := a.out ++ [.row (a.cols.map fun n => (a.value n).getD "")]
                 holes := a.holes || a.cols.any fun n => (a.value n).isNone
                 value := fun u => if u ∈ a.cols ∧ (a.value u).isNone then some "" else a.value u }
      else a)
  | .finish b => some (if a.active then { a with out := a.out ++ [.finish b] } else a)
  | .setActive b => some { a with active := b }
  | .reset => some { a with cols := [], spec := fun _ => none, value := fun _ => none, holes := false }
  | .die _ => some a

/-- A program. -/
def Table.run (render : String → Val V → ℕ → Option String) (a : Table) : List (Op V) → Option Table
  | [] => some a
  | o :: os => (a.step render o).bind fun a' => Table.run render a' os

/-- The numbers of `BASIC_KEYS` can be printed: whole numbers with the first format, others with the two other ones. -/
def Prints (render : String → Val V → ℕ → Option String) (ci : ℕ → ℕ → String) (cs cg : V → ℕ → String) : Prop :=
  (∀ n w, render "{: >{}d} " (.size n) w = some (ci n w)) ∧ (∀ v w, render "{: >{}.3e} " (.dbl v) w = some (cs v w)) ∧
  ∀ v w, render "{: >{}.3g} " (.dbl v) w = some (cg v w)

/-- The headline of the ProxDDP solver. -/
def proxHead : Line :=
  .head [("iter", 6), ("alpha", 11), ("inner_crit", 12), ("prim_err", 11), ("dual_err", 11), ("preg", 11), ("cost", 11),
    ("dphi0", 12), ("merit", 11), ("ΔM", 12), ("aliter", 8), ("mu", 8)]

/-- The row of the iteration with index `k`. -/
def proxRow (ci : ℕ → ℕ → String) (cs cg : V → ℕ → String) (k : ℕ) (it : Iter V) : Line :=
  .row [ci (k + 1) 5, cs it.alpha 10, cs it.innerCrit 11, cs it.prim 10, cs it.dual 10, cs it.preg 10, cs it.cost 10,
    cs it.dphi0 11, cs it.merit 10, cs it.dM 11, ci (it.al + 1) 7, cg it.mu 7]

/-- The rows, the headline again before every 25th but the first. -/
def proxRows (ci : ℕ → ℕ → String) (cs cg : V → ℕ → String) : ℕ → List (Iter V) → List Line
  | _, [] => []
  | k, it :: its => (if 1 ≤ k ∧ k % 25 = 0 then [proxHead] else []) ++ proxRow ci cs cg k it :: proxRows ci cs cg (k + 1) its

/-- What a run of ProxDDP should print. -/
def proxPrint (ci : ℕ → ℕ → String) (cs cg : V → ℕ → String) (r : Run V) : List Line :=
  if r.verbose = false then []
  else proxHead :: proxRows ci cs cg 0 r.iters ++
    (if r.failed.isSome ∧ 1 ≤ r.iters.length ∧ r.iters.length % 25 = 0 then [proxHead] else []) ++
    r.conv.toList.map .finish

/-- The row FDDP prints: nothing in the column "cost". -/
def fddpRow (ci : ℕ → ℕ → String) (cs : V → ℕ → String) (k : ℕ) (it : Iter V) : Line :=
  .row [ci (k + 1) 5, cs it.alpha 10, cs it.prim 10, cs it.dual 10, cs it.preg 10, "", cs it.dphi0 11, cs it.dM 11]

/-- The rows of the iterations from index `k`. -/
def fddpRows (ci : ℕ → ℕ → String) (cs : V → ℕ → String) : ℕ → List (Iter V) → List Line
  | _, [] => []
  | k, it :: its => fddpRow ci cs k it :: fddpRows ci cs (k + 1) its

/-- The headline of the FDDP solver, `n` times. -/
def fddpHead (n : ℕ) : Line :=
  .head (List.replicate n [("iter", 6), ("alpha", 11), ("prim_err", 11), ("dual_err", 11), ("preg", 11), ("cost", 11),
    ("dphi0", 12), ("ΔM", 12)]).flatten

/-- What the end of a run of FDDP prints: if the test of convergence ends it, the last row once more, or a row of empty
cells if there is none. -/
def fddpTail (ci : ℕ → ℕ → String) (cs : V → ℕ → String) (its : List (Iter V)) : Ending V → List Line
  | .exhausted => [.finish false]
  | .converged => [((fddpRows ci cs 0 its).getLast?).getD (.row (List.replicate 8 "")), .finish true]
  | .left it b => [fddpRow ci cs its.length it, .finish b]

/-- The run prints at least one row. -/
def HasRow (its : List (Iter V)) (e : Ending V) : Prop := its ≠ [] ∨ e ≠ .exhausted

end Aligator.Log
