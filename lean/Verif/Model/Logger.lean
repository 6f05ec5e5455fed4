import Mathlib.Data.List.Basic
import Mathlib.Data.List.Range

/-!
# Model: the table printed by the solvers

`include/aligator/utils/logger.hpp`, `src/utils/logger.cpp`, and its use in
`include/aligator/solvers/proxddp/solver-proxddp.hxx` and `include/aligator/solvers/fddp/solver-fddp.hxx`.

The two maps of the logger are keyed by `std::string_view`, which owns nothing: a key carries the owner of its
characters.  Reading a key whose owner is gone is undefined behaviour.
-/

namespace Aligator.Log

/-- Owner of the characters of a key: a string literal, a string of the caller, or an element of the `gen`-th buffer of
`m_columnNames`.  Simplified: an element is taken to hold its characters in the buffer, as `std::string` does for short
names (all names of the solvers); the characters of a long name would survive a move of the buffer. -/
inductive Owner
  | lit
  | ext (id : ℕ)
  | cell (gen : ℕ)
  deriving DecidableEq

/-- A `std::string_view` used as key (utils/logger.hpp:50-54). -/
structure Key where
  owner : Owner
  text : String
  deriving DecidableEq

/-- The argument of `addEntry` (utils/logger.hpp:45-46). -/
inductive Val (V : Type*)
  | size (n : ℕ)
  | dbl (v : V)

/-- What the logger relies on: bucket of a key in the hash maps (utils/string-hash.hpp:8-11), growth of a vector, and the
formatting of a value with a format and a width, which may throw; an empty format gives the empty string. -/
structure Env (V : Type*) where
  bucket : String → ℕ
  grow : ℕ → ℕ
  grow_gt : ∀ c, c < grow c
  render : String → Val V → ℕ → Option String
  render_empty : ∀ v w, render "" v w = some ""

/-- A printed line: names and widths, values, or the final message. -/
inductive Line
  | head (cols : List (String × ℕ))
  | row (cells : List String)
  | finish (conv : Bool)
  deriving DecidableEq

/-- Members of `Logger` (utils/logger.hpp:32-55), the capacity and the number of the buffer of `m_columnNames`, the
strings of the caller that are gone, and what has been printed. -/
structure St where
  active : Bool
  names : List String
  cap : ℕ
  gen : ℕ
  specs : List (Key × (ℕ × String))
  line : List (Key × String)
  dead : List ℕ
  out : List Line

/-- `Logger()` (utils/logger.hpp:33-35). -/
def St.init : St :=
  { active := true, names := [], cap := 0, gen := 0, specs := [], line := [], dead := [], out := [] }

/-- The characters of a key can be read. -/
def St.alive (s : St) (k : Key) : Bool :=
  match k.owner with
  | .lit => true
  | .ext id => !s.dead.contains id
  | .cell g => g == s.gen

/-- Result of an operation. -/
inductive Outcome
  | ok (s : St)
  | threw (s : St)
  | ub

variable {V : Type*}

/-- The entry of a map with this text. -/
def find {β : Type*} (m : List (Key × β)) (t : String) : Option β := (m.find? fun e => e.1.text == t).map (·.2)

/-- Looking up `t` compares it with the keys of its bucket: all of them must be readable. -/
def probe {β : Type*} (env : Env V) (s : St) (m : List (Key × β)) (t : String) : Bool :=
  m.all fun e => env.bucket e.1.text != env.bucket t || s.alive e.1

/-- `insert_or_assign`: an existing entry keeps its key. -/
def put {β : Type*} (m : List (Key × β)) (k : Key) (b : β) : List (Key × β) :=
  if (find m k.text).isSome then m.map fun e => if e.1.text = k.text then (e.1, b) else e else m ++ [(k, b)]

/-- Operations of the interface; `die` is the end of the life of a string of the caller. -/
inductive Op (V : Type*)
  | addColumn (k : Key) (width : ℕ) (format : String)
  | headline
  | entry (k : Key) (v : Val V)
  | log
  | finish (conv : Bool)
  | setActive (b : Bool)
  | reset
  | die (id : ℕ)

/-- `addColumn` (src/utils/logger.cpp:54-58): the name is copied into the vector, whose buffer moves if it is full; the
key of the specification is the view of the caller; an existing specification is kept. -/
def addColumn (env : Env V) (s : St) (k : Key) (width : ℕ) (format : String) : Outcome :=
  if s.alive k = false then .ub
  else
    let s1 : St := if s.names.length < s.cap then { s with names := s.names ++ [k.text] }
      else { s with names := s.names ++ [k.text], cap := env.grow s.cap, gen := s.gen + 1 }
    if probe env s1 s1.specs k.text = false then .ub
    else if (find s1.specs k.text).isSome then .ok s1
    else .ok { s1 with specs := s1.specs ++ [(k, (width, format))] }

/-- The loop of `printHeadline` (src/utils/logger.cpp:17-20).  A missing specification would be inserted, with a key in
the vector of names. -/
def headLoop (env : Env V) : List String → St → Option (List (String × ℕ) × St)
  | [], s => some ([], s)
  | n :: ns, s =>
    if probe env s s.specs n = false then none
    else
      let spec := (find s.specs n).getD (0, "")
      let s1 := if (find s.specs n).isSome then s else { s with specs := s.specs ++ [(⟨.cell s.gen, n⟩, (0, ""))] }
      match headLoop env ns s1 with
      | none => none
      | some (cs, s2) => some ((n, spec.1 + 1) :: cs, s2)

/-- `printHeadline` (src/utils/logger.cpp:12-22). -/
def headline (env : Env V) (s : St) : Outcome :=
  if s.active = false then .ok s
  else match headLoop env s.names s with
    | none => .ub
    | some (cs, s1) => .ok { s1 with out := s1.out ++ [.head cs] }

/-- The loop of `log` (src/utils/logger.cpp:29-31): `operator[]` inserts an empty string for a column without value; the key
of the new entry refers to the string in the vector of names. -/
def logLoop (env : Env V) : List String → St → Option (List String × St)
  | [], s => some ([], s)
  | n :: ns, s =>
    if probe env s s.line n = false then none
    else
      let c := (find s.line n).getD ""
      let s1 := if (find s.line n).isSome then s else { s with line := s.line ++ [(⟨.cell s.gen, n⟩, "")] }
      match logLoop env ns s1 with
      | none => none
      | some (cs, s2) => some (c :: cs, s2)

/-- `log` (src/utils/logger.cpp:24-33). -/
def log (env : Env V) (s : St) : Outcome :=
  if s.active = false then .ok s
  else match logLoop env s.names s with
    | none => .ub
    | some (cs, s1) => .ok { s1 with out := s1.out ++ [.row cs] }

/-- `addEntry` (src/utils/logger.cpp:60-70), also if the logger is not active; a missing specification is inserted as
width 0 and empty format. -/
def addEntry (env : Env V) (s : St) (k : Key) (v : Val V) : Outcome :=
  if s.alive k = false ∨ probe env s s.specs k.text = false then .ub
  else
    let spec := (find s.specs k.text).getD (0, "")
    let s1 := if (find s.specs k.text).isSome then s else { s with specs := s.specs ++ [(k, (0, ""))] }
    match env.render spec.2 v spec.1 with
    | none => .threw s1
    | some c =>
      if probe env s1 s1.line k.text = false then .ub
      else .ok { s1 with line := put s1.line k c }

/-- One operation.  `reset` (src/utils/logger.cpp:35-39) clears the names, then both maps, without reading a key;
`finish` (src/utils/logger.cpp:41-52). -/
def step (env : Env V) (s : St) : Op V → Outcome
  | .addColumn k w f => addColumn env s k w f
  | .headline => headline env s
  | .entry k v => addEntry env s k v
  | .log => log env s
  | .finish b => .ok (if s.active then { s with out := s.out ++ [.finish b] } else s)
  | .setActive b => .ok { s with active := b }
  | .reset => .ok { s with names := [], specs := [], line := [], gen := s.gen + 1 }
  | .die id => .ok { s with dead := id :: s.dead }

/-- A program; it ends at an exception. -/
def exec (env : Env V) : List (Op V) → St → Outcome
  | [], s => .ok s
  | o :: os, s =>
    match step env s o with
    | .ok s' => exec env os s'
    | r => r

/-! ### The solvers -/

/-- A literal as key. -/
def lit (t : String) : Key := ⟨.lit, t⟩

/-- `BASIC_KEYS` (utils/logger.hpp:13-29). -/
def basicKeys : List (String × String × ℕ) :=
  [("iter", "{: >{}d} ", 5), ("alpha", "{: >{}.3e} ", 10), ("inner_crit", "{: >{}.3e} ", 11),
   ("prim_err", "{: >{}.3e} ", 10), ("dual_err", "{: >{}.3e} ", 10), ("preg", "{: >{}.3e} ", 10),
   ("cost", "{: >{}.3e} ", 10), ("dphi0", "{: >{}.3e} ", 11), ("merit", "{: >{}.3e} ", 10),
   ("ΔM", "{: >{}.3e} ", 11), ("aliter", "{: >{}d} ", 7), ("mu", "{: >{}.3g} ", 7)]

/-- `addColumn(LogColumn)` (utils/logger.hpp:43). -/
def colOp (c : String × String × ℕ) : Op V := .addColumn (lit c.1) c.2.2 c.2.1

/-- The values of an iteration that are printed. -/
structure Iter (V : Type*) where
  alpha : V
  innerCrit : V
  prim : V
  dual : V
  preg : V
  dphi0 : V
  cost : V
  merit : V
  dM : V
  al : ℕ
  mu : V

/-- The constructor of the ProxDDP solver declares all columns (solvers/proxddp/solver-proxddp.hxx:92-95). -/
def proxCtor : List (Op V) := basicKeys.map colOp

/-- The entries of the iteration with index `k` (solvers/proxddp/solver-proxddp.hxx:675-688). -/
def proxEntries (k : ℕ) (it : Iter V) : List (Op V) :=
  (if 1 ≤ k ∧ k % 25 = 0 then [.headline] else []) ++
  [.entry (lit "iter") (.size (k + 1)), .entry (lit "alpha") (.dbl it.alpha),
   .entry (lit "inner_crit") (.dbl it.innerCrit), .entry (lit "prim_err") (.dbl it.prim),
   .entry (lit "dual_err") (.dbl it.dual), .entry (lit "preg") (.dbl it.preg), .entry (lit "dphi0") (.dbl it.dphi0),
   .entry (lit "cost") (.dbl it.cost), .entry (lit "merit") (.dbl it.merit), .entry (lit "ΔM") (.dbl it.dM),
   .entry (lit "aliter") (.size (it.al + 1)), .entry (lit "mu") (.dbl it.mu)]

/-- The iterations that end with `logger.log()` (solvers/proxddp/solver-proxddp.hxx:675-699), from index `k`. -/
def proxIters : ℕ → List (Iter V) → List (Op V)
  | _, [] => []
  | k, it :: its => proxEntries k it ++ .log :: proxIters (k + 1) its

/-- What happened in a run: verbose or not, the iterations that were completed, an iteration given up because the
regularisation is at its maximum (solvers/proxddp/solver-proxddp.hxx:690-692), and the value returned, `none` if an exception
left the run. -/
structure Run (V : Type*) where
  verbose : Bool
  iters : List (Iter V)
  failed : Option (Iter V)
  conv : Option Bool

/-- `SolverProxDDPTpl::run` for the logger (solvers/proxddp/solver-proxddp.hxx:457-458, 529).  The number of the iteration
runs on over the inner loops (:570, 577). -/
def proxRun (r : Run V) : List (Op V) :=
  [.setActive r.verbose, .headline] ++ proxIters 0 r.iters ++
  r.failed.toList.flatMap (proxEntries r.iters.length) ++ r.conv.toList.map .finish

/-- The columns FDDP declares in every run (solvers/fddp/solver-fddp.hxx:302-309). -/
def fddpKeys : List (String × String × ℕ) :=
  [("iter", "{: >{}d} ", 5), ("alpha", "{: >{}.3e} ", 10), ("prim_err", "{: >{}.3e} ", 10),
   ("dual_err", "{: >{}.3e} ", 10), ("preg", "{: >{}.3e} ", 10), ("cost", "{: >{}.3e} ", 10),
   ("dphi0", "{: >{}.3e} ", 11), ("ΔM", "{: >{}.3e} ", 11)]

/-- The entries of an iteration (solvers/fddp/solver-fddp.hxx:364-371). -/
def fddpEntries (k : ℕ) (it : Iter V) : List (Op V) :=
  [.entry (lit "iter") (.size (k + 1)), .entry (lit "alpha") (.dbl it.alpha), .entry (lit "prim_err") (.dbl it.prim),
   .entry (lit "dual_err") (.dbl it.dual), .entry (lit "preg") (.dbl it.preg), .entry (lit "dphi0") (.dbl it.dphi0),
   .entry (lit "merit") (.dbl it.merit), .entry (lit "ΔM") (.dbl it.dM)]

/-- The iterations that reach the end of the loop (solvers/fddp/solver-fddp.hxx:364-392), from index `k`. -/
def fddpIters : ℕ → List (Iter V) → List (Op V)
  | _, [] => []
  | k, it :: its => fddpEntries k it ++ .log :: fddpIters (k + 1) its

/-- How the loop of FDDP ends: all iterations used, left at the test of convergence before any entry
(solvers/fddp/solver-fddp.hxx:344-347), or left after the entries of a last iteration (:375-378, 385-388). -/
inductive Ending (V : Type*)
  | exhausted
  | converged
  | left (it : Iter V) (conv : Bool)

/-- The end of a run (solvers/fddp/solver-fddp.hxx:364-378, 395-397). -/
def fddpEnd (n : ℕ) : Ending V → List (Op V)
  | .exhausted => [.finish false]
  | .converged => [.log, .finish true]
  | .left it b => fddpEntries n it ++ [.log, .finish b]

/-- `SolverFDDPTpl::run` for the logger (solvers/fddp/solver-fddp.hxx:301-310, 364-398). -/
def fddpRun (verbose : Bool) (its : List (Iter V)) (e : Ending V) : List (Op V) :=
  .setActive verbose :: (fddpKeys.map colOp ++ .headline :: (fddpIters 0 its ++ fddpEnd its.length e))

end Aligator.Log
