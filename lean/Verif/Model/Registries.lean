import Mathlib.Data.List.Basic

/-!
# Model: contact maps, callbacks and the history callback

Exceptions and undefined behaviour are outcomes of their own.  Sizes (`size_t`) are natural numbers.
-/

namespace Aligator.Reg

/-- The outcome of a call. -/
inductive Res (α : Type)
  | ok (a : α)
  | throws
  | undefined
  deriving DecidableEq

/-! ## `ContactMapTpl` -/

/-- The fields of a contact map (modelling/contact-map.hpp:77-80); `P` is the type of poses. -/
structure CMap (P : Type) where
  names : List String
  states : List Bool
  poses : List P
  size : ℕ
  deriving DecidableEq

variable {P : Type}

/-- The constructor (modelling/contact-map.hpp:13-26). -/
def CMap.ctor (names : List String) (states : List Bool) (poses : List P) : Res (CMap P) :=
  if states.length ≠ poses.length then .throws else .ok ⟨names, states, poses, states.length⟩

/-- `addContact` (modelling/contact-map.hpp:28-34). -/
def CMap.addContact (m : CMap P) (name : String) (state : Bool) (pose : P) : CMap P :=
  ⟨m.names ++ [name], m.states ++ [state], m.poses ++ [pose], m.size + 1⟩

/-- `removeContact` (modelling/contact-map.hpp:36-45); erasing outside a vector is undefined. -/
def CMap.removeContact (m : CMap P) (i : ℕ) : Res (CMap P) :=
  if m.size = 0 then .throws
  else if i < m.names.length ∧ i < m.states.length ∧ i < m.poses.length then
    .ok ⟨m.names.eraseIdx i, m.states.eraseIdx i, m.poses.eraseIdx i, m.size - 1⟩
  else .undefined

/-- `std::find` and the difference of the iterators: the position, the length if there is none. -/
def find (name : String) : List String → ℕ
  | [] => 0
  | s :: ss => if s = name then 0 else find name ss + 1

/-- `getContactState` (modelling/contact-map.hpp:47-55). -/
def CMap.getContactState (m : CMap P) (name : String) : Res Bool :=
  if find name m.names = m.names.length then .throws
  else match m.states[find name m.names]? with
    | some b => .ok b
    | none => .undefined

/-- `getContactPose` (modelling/contact-map.hpp:57-65). -/
def CMap.getContactPose (m : CMap P) (name : String) : Res P :=
  if find name m.names = m.names.length then .throws
  else match m.poses[find name m.names]? with
    | some p => .ok p
    | none => .undefined

/-- `setContactPose` (modelling/contact-map.hpp:67-75). -/
def CMap.setContactPose (m : CMap P) (name : String) (ref : P) : Res (CMap P) :=
  if find name m.names = m.names.length then .throws
  else if find name m.names < m.poses.length then .ok { m with poses := m.poses.set (find name m.names) ref }
  else .undefined

/-- Operations of a client. -/
inductive COp (P : Type)
  | add (name : String) (state : Bool) (pose : P)
  | remove (i : ℕ)
  | setPose (name : String) (pose : P)

/-- One operation. -/
def CMap.step (m : CMap P) : COp P → Res (CMap P)
  | .add n s p => .ok (m.addContact n s p)
  | .remove i => m.removeContact i
  | .setPose n p => m.setContactPose n p

/-- A sequence of operations; the client goes on after an exception, which leaves the map as it is. -/
def CMap.run : CMap P → List (COp P) → Res (CMap P)
  | m, [] => .ok m
  | m, o :: os =>
    match m.step o with
    | .ok m' => CMap.run m' os
    | .throws => CMap.run m os
    | .undefined => .undefined

/-! ## Callbacks -/

variable {C : Type}

/-- The hash table of callbacks, as the list of its entries. -/
abbrev CbMap (C : Type) := List (String × C)

/-- `insert_or_assign`: assign to the entry with the key, or insert a new one. -/
def insertOrAssign (name : String) (cb : C) : CbMap C → CbMap C
  | [] => [(name, cb)]
  | e :: es => if e.1 = name then (name, cb) :: es else e :: insertOrAssign name cb es

/-- `registerCallback` (solvers/proxddp/solver-proxddp.hpp:251-257, solvers/fddp/solver-fddp.hpp:165-171). -/
def registerCallback (m : CbMap C) (name : String) (cb : C) : CbMap C := insertOrAssign name cb m

/-- `clearCallbacks` (solvers/proxddp/solver-proxddp.hpp:260, solvers/fddp/solver-fddp.hpp:203). -/
def clearCallbacks (_ : CbMap C) : CbMap C := []

/-- `removeCallback` (solvers/proxddp/solver-proxddp.hpp:264-270; solvers/fddp/solver-fddp.hpp:175-181 returns nothing):
the table and whether an element was erased. -/
def removeCallback (m : CbMap C) (name : String) : CbMap C × Bool :=
  (m.filter fun e => decide (e.1 ≠ name), m.any fun e => decide (e.1 = name))

/-- `getCallback` (solvers/proxddp/solver-proxddp.hpp:280-290, solvers/fddp/solver-fddp.hpp:190-200); `none` is the null
pointer. -/
def getCallback (m : CbMap C) (name : String) : Option C := (m.find? fun e => decide (e.1 = name)).map (·.2)

/-- `getCallbackNames` (solvers/proxddp/solver-proxddp.hpp:272-278, solvers/fddp/solver-fddp.hpp:183-189) with the order
in which the table is iterated. -/
def getCallbackNames (order : CbMap C) : List String := order.map (·.1)

/-- `invokeCallbacks` (solvers/proxddp/solver-proxddp.hpp:293-297, solvers/fddp/solver-fddp.hpp:205-209): the callbacks
are called in iteration order.  `call cb σ` is the effect of a callback on the state `σ` of the world. -/
def invokeCallbacks {σ : Type} (call : C → σ → σ) (order : CbMap C) (s : σ) : σ :=
  order.foldl (fun s e => call e.2 s) s

/-- Operations of a client. -/
inductive CbOp (C : Type)
  | register (name : String) (cb : C)
  | remove (name : String)
  | clear

/-- One operation. -/
def cbStep (m : CbMap C) : CbOp C → CbMap C
  | .register n c => registerCallback m n c
  | .remove n => (removeCallback m n).1
  | .clear => clearCallbacks m

/-! ## `HistoryCallbackTpl` -/

/-- The results that the history reads (solvers/results-base.hpp), and the tolerances of the solver it points to.
`alIter` is absent when the results are not those of the proximal solver. -/
structure Snapshot (X K : Type) where
  xs : X
  us : X
  cost : K
  merit : K
  primInfeas : K
  dualInfeas : K
  alIter : Option ℕ
  primTol : K
  innerTol : K

/-- The fields of a history callback (core/history-callback.hpp:26-45).  The never-used vectors `lams` and
`inner_crits` are left out. -/
structure History (X K : Type) where
  storePD : Bool
  storeValues : Bool
  isProx : Bool
  xs : List X
  us : List X
  values : List K
  merits : List K
  primInfeas : List K
  dualInfeas : List K
  alIndex : List ℕ
  primTols : List K
  dualTols : List K

variable {X K : Type}

/-- The constructor (core/history-callback.hpp:17-22). -/
def History.new (storePD storeValues isProx : Bool) : History X K :=
  ⟨storePD, storeValues, isProx, [], [], [], [], [], [], [], [], []⟩

/-- `call` (core/history-callback.hxx:8-34). -/
def History.call (h : History X K) (r : Snapshot X K) : History X K :=
  let h := if h.storePD then { h with xs := h.xs ++ [r.xs], us := h.us ++ [r.us] } else h
  let h := if h.storeValues then { h with values := h.values ++ [r.cost], merits := h.merits ++ [r.merit] } else h
  let h := { h with primInfeas := h.primInfeas ++ [r.primInfeas], dualInfeas := h.dualInfeas ++ [r.dualInfeas] }
  let h := match r.alIter with
    | some k => { h with alIndex := h.alIndex ++ [k] }
    | none => h
  if h.isProx then { h with primTols := h.primTols ++ [r.primTol], dualTols := h.dualTols ++ [r.innerTol] } else h

end Aligator.Reg
