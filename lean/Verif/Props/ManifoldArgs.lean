import Verif.Model.ManifoldArgs
import Mathlib.Tactic.NormNum
import Mathlib.Data.Rat.Defs
import Mathlib.Algebra.Field.Rat

/-!
# The argument number of the Jacobians, and the memory they are written to (C39)
-/

namespace Aligator.Mani

variable {K : Type} [Field K]

/-- The same number of rows, of the same lengths. -/
def SameShape (J J' : Mat K) : Prop := J.map List.length = J'.map List.length

/-- Every call with this argument number throws. -/
def Refuses (m : Manifold K) (arg : ℕ) : Prop := ∀ x0 x1 J, m.Jdifference x0 x1 arg J = none

theorem SameShape.length {J J' : Mat K} (h : SameShape J J') : J.length = J'.length := by
  simpa using congrArg List.length h

theorem SameShape.cols {J J' : Mat K} (h : SameShape J J') : cols J = cols J' := by
  unfold SameShape at h
  unfold Mani.cols
  cases J <;> cases J' <;> simp_all

theorem SameShape.zero {J J' : Mat K} (h : SameShape J J') : setZero J = setZero J' := by
  have key : ∀ J : Mat K, setZero J = (J.map List.length).map fun n => List.replicate n 0 := by
    intro J
    simp only [setZero, List.map_map]
    refine List.map_congr_left fun r _ => ?_
    simp only [Function.comp]
    induction r with
    | nil => rfl
    | cons a r ih => simp [List.replicate_succ]
  rw [key, key, h]

theorem JdifferenceLoop_refuses (arg : ℕ) (m : Manifold K) (hm : Refuses m arg) (ms : List (Manifold K)) (h : m ∈ ms)
    (cq cv : ℕ) (x0 x1 : Vec K) (J : Mat K) : JdifferenceLoop cq cv ms x0 x1 arg J = none := by
  induction ms generalizing cq cv J with
  | nil => simp at h
  | cons a ms ih =>
    rw [JdifferenceLoop]
    rcases List.mem_cons.1 h with rfl | h
    · rw [hm]
    · split
      · rfl
      · exact ih h _ _ _

/-- **C39, the argument number.**  The Jacobian of the difference on a vector space is refused for every argument number
other than 0 and 1, and given for these two; a product with a factor that refuses refuses; a tangent bundle refuses if its
base does. -/
theorem C39_wrong_argument_refused :
    (∀ n arg, Refuses (vectorSpace n : Manifold K) arg ↔ arg ≠ 0 ∧ arg ≠ 1) ∧
    (∀ (p : Product K) (m : Manifold K) arg, m ∈ p.comps → Refuses m arg → Refuses p.toManifold arg) ∧
    (∀ (b : Manifold K) arg, Refuses b arg → Refuses (tangentBundle b) arg) := by
  refine ⟨fun n arg => ⟨fun h => ?_, fun h x0 x1 J => ?_⟩, fun p m arg hm h x0 x1 J => ?_, fun b arg h x0 x1 J => ?_⟩
  · have h1 := h [] [] []
    simp only [vectorSpace] at h1
    constructor <;> rintro rfl <;> simp at h1
  · simp [vectorSpace, h.1, h.2]
  · exact JdifferenceLoop_refuses arg m h p.comps hm 0 0 x0 x1 _
  · simp [tangentBundle, h _ _ _]

/-- **C39, the output memory.**  On vector spaces, products and tangent bundles, with any factors and any base, the
Jacobians (and whether there is an exception) do not depend on what the output matrix held, only on its size, for every
argument number.  So the matrices that Python receives from the calls that allocate are determined. -/
theorem C39_jacobians_ignore_memory (J J' : Mat K) (h : SameShape J J') (x y : Vec K) (arg : ℕ) :
    (∀ n, pyJintegrate (vectorSpace n) J x y arg = pyJintegrate (vectorSpace n) J' x y arg ∧
      pyJdifference (vectorSpace n) J x y arg = pyJdifference (vectorSpace n) J' x y arg) ∧
    (∀ p : Product K, pyJintegrate p.toManifold J x y arg = pyJintegrate p.toManifold J' x y arg ∧
      pyJdifference p.toManifold J x y arg = pyJdifference p.toManifold J' x y arg) ∧
    (∀ b : Manifold K, pyJintegrate (tangentBundle b) J x y arg = pyJintegrate (tangentBundle b) J' x y arg ∧
      pyJdifference (tangentBundle b) J x y arg = pyJdifference (tangentBundle b) J' x y arg) := by
  refine ⟨fun n => ?_, fun p => ?_, fun b => ?_⟩
  · simp [pyJintegrate, pyJdifference, vectorSpace, h.length, h.cols]
  · simp [pyJintegrate, pyJdifference, Product.toManifold, h.zero]
  · simp [pyJintegrate, pyJdifference, tangentBundle, h.zero]

/-- **C39, groups.**  With argument number 0 or 1 the Jacobians of the groups of Pinocchio are those of the library,
whatever the output held. -/
theorem C39_group_jacobians (m : Manifold K) (i0 i1 d0 d1 : Vec K → Vec K → Mat K) (x y : Vec K) (J : Mat K) :
    pyJintegrate (group m i0 i1 d0 d1) J x y 0 = some (i0 x y) ∧
    pyJintegrate (group m i0 i1 d0 d1) J x y 1 = some (i1 x y) ∧
    pyJdifference (group m i0 i1 d0 d1) J x y 0 = some (d0 x y) ∧
    pyJdifference (group m i0 i1 d0 d1) J x y 1 = some (d1 x y) := ⟨rfl, rfl, rfl, rfl⟩

/-- **C39, a wrong argument number that nobody notices.**  (a) The Jacobians of a group return without an exception and
leave the output as it was: Python receives uninitialised memory.  (b) The tangent bundle of a group returns a matrix for
the difference whose velocity block is 0.  (c) The Jacobian of the integration on a vector space is the identity for
every argument number. -/
theorem C39_wrong_argument_unnoticed (m : Manifold K) (i0 i1 d0 d1 : Vec K → Vec K → Mat K) (x y : Vec K) (arg : ℕ)
    (h0 : arg ≠ 0) (h1 : arg ≠ 1) :
    (∀ mem, pyJintegrate (group m i0 i1 d0 d1) mem x y arg = some mem ∧
      pyJdifference (group m i0 i1 d0 d1) mem x y arg = some mem) ∧
    (∀ mem, pyJdifference (tangentBundle (group m i0 i1 d0 d1)) mem x y arg =
      some (writeBlock (setZero mem) 0 0 (block (setZero mem) 0 0 m.ndx m.ndx))) ∧
    (∀ n (mem : Mat K), pyJintegrate (vectorSpace n) mem x y arg = some (identity mem.length (cols mem) 1)) := by
  have key : ∀ (j0 j1 : Vec K → Vec K → Mat K) (x y : Vec K) (J : Mat K), switchJ j0 j1 x y arg J = some J := by
    intro j0 j1 x y J
    match arg, h0, h1 with
    | n + 2, _, _ => rfl
  refine ⟨fun mem => ⟨key _ _ _ _ _, key _ _ _ _ _⟩, fun mem => ?_, fun n mem => rfl⟩
  simp [pyJdifference, tangentBundle, group, key, h0, h1]

/-- A product of a vector space and a group refuses argument number 2, and two contents of the memory give two results on
the group. -/
example : Refuses (Product.ofList [vectorSpace 2, group (vectorSpace 1) (fun _ _ => [[1]]) (fun _ _ => [[1]])
      (fun _ _ => [[-1]]) (fun _ _ => [[1]])] : Product ℚ).toManifold 2 ∧
    pyJdifference (group (vectorSpace 1) (fun _ _ => [[1]]) (fun _ _ => [[1]]) (fun _ _ => [[-1]]) (fun _ _ => [[1]]))
      [[(7 : ℚ)]] [0] [1] 2 ≠
    pyJdifference (group (vectorSpace 1) (fun _ _ => [[1]]) (fun _ _ => [[1]]) (fun _ _ => [[-1]]) (fun _ _ => [[1]]))
      [[(8 : ℚ)]] [0] [1] 2 := by
  refine ⟨C39_wrong_argument_refused.2.1 _ (vectorSpace 2) 2 (by simp [Product.ofList])
    ((C39_wrong_argument_refused.1 2 2).2 (by decide)), ?_⟩
  rw [((C39_wrong_argument_unnoticed _ _ _ _ _ [0] [1] 2 (by decide) (by decide)).1 _).2,
    ((C39_wrong_argument_unnoticed _ _ _ _ _ [0] [1] 2 (by decide) (by decide)).1 _).2]
  norm_num

end Aligator.Mani
