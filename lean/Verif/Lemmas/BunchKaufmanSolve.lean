import Verif.Lemmas.BunchKaufmanLoop

set_option linter.unusedSectionVars false

namespace Aligator.BK

variable {𝕜 : Type*} [Field 𝕜] [LinearOrder 𝕜] [IsStrictOrderedRing 𝕜]

open Finset

/-- Well-formed pivot vector from block `k` on. -/
inductive Bd (n : ℕ) (piv : ℕ → ℤ) : ℕ → Prop
  | stop : Bd n piv n
  | one (k : ℕ) (h : k < n) (hp : ¬ piv k < 0) (lo : k ≤ pivIdx (piv k)) (hi : pivIdx (piv k) < n)
      (t : Bd n piv (k + 1)) : Bd n piv k
  | two (k : ℕ) (h : k + 1 < n) (hp : piv k < 0) (he : piv (k+1) = piv k)
      (lo : k + 1 ≤ pivIdx (piv k)) (hi : pivIdx (piv k) < n)
      (t : Bd n piv (k + 2)) : Bd n piv k

theorem Bd.le {n : ℕ} {piv : ℕ → ℤ} {k : ℕ} (h : Bd n piv k) : k ≤ n := by
  cases h <;> omega

theorem Fac.bd {n k : ℕ} {a af : Arr 𝕜} {piv : ℕ → ℤ} (h : Fac n af piv k a) : Bd n piv k := by
  induction h with
  | stop => exact .stop
  | one k kp a a' hk g1 g2 hp st hc t ih =>
    refine .one k hk (by rw [hp]; omega) ?_ ?_ ih
    · rw [hp, pivIdx_nonneg]; exact g1
    · rw [hp, pivIdx_nonneg]; exact g2
  | two k kp a a' g1 g2 hp hp1 st hc hc1 t ih =>
    refine .two k (by omega) (by rw [hp]; omega) (by rw [hp, hp1]) ?_ ?_ ih
    · rw [hp, pivIdx_neg]; exact g1
    · rw [hp, pivIdx_neg]; exact g2

theorem Ext.congr {n : ℕ} {piv : ℕ → ℤ} {a a' L : Arr 𝕜} {sd : ℕ → 𝕜} {k : ℕ}
    (h : Ext n piv a L sd k) (ha : ∀ i j, k ≤ j → a i j = a' i j) : Ext n piv a' L sd k := by
  induction h with
  | stop k h => exact .stop k h
  | one k h hp hL t ih =>
    exact .one k h hp (fun i => (hL i).trans (ha i k le_rfl)) (ih fun i j hj => ha i j (by omega))
  | two k h hp h0 hs hL hL1 t ih =>
    exact .two k h hp h0 (hs.trans (ha _ _ le_rfl)) (fun i hi => (hL i hi).trans (ha i k le_rfl))
      (fun i => (hL1 i).trans (ha i _ (by omega))) (ih fun i j hj => ha i j (by omega))

theorem extract_spec {n : ℕ} {piv : ℕ → ℤ} {k : ℕ} (h : Bd n piv k) (s : Arr 𝕜 × (ℕ → 𝕜)) :
    (∀ i j, j < k → (extractSubdiag n piv k s).1 i j = s.1 i j) ∧
    (∀ j, j < k → (extractSubdiag n piv k s).2 j = s.2 j) ∧
    Ext n piv s.1 (extractSubdiag n piv k s).1 (extractSubdiag n piv k s).2 k := by
  induction h generalizing s with
  | stop =>
    rw [extractSubdiag, if_neg (by omega)]
    exact ⟨fun _ _ _ => rfl, fun _ _ => rfl, .stop _ le_rfl⟩
  | one k h hp lo hi t ih =>
    rw [extractSubdiag, if_pos h, if_neg hp]
    obtain ⟨i1, i2, i3⟩ := ih (s.1, Function.update s.2 k 0)
    refine ⟨fun i j hj => i1 i j (by omega), fun j hj => ?_, .one k h hp (fun i => i1 i k (by omega)) i3⟩
    rw [i2 j (by omega)]
    exact Function.update_of_ne (by omega) _ _
  | two k h hp he lo hi t ih =>
    rw [extractSubdiag, if_pos (by omega), if_pos hp]
    obtain ⟨i1, i2, i3⟩ := ih (setE s.1 (k + 1) k 0,
      Function.update (Function.update s.2 k (s.1 (k + 1) k)) (k + 1) 0)
    dsimp only at i1 i2 i3
    refine ⟨fun i j hj => ?_, fun j hj => ?_, .two k (by omega) hp ?_ ?_ ?_ ?_ (i3.congr ?_)⟩
    · rw [i1 i j (by omega), setE, if_neg (by omega)]
    · rw [i2 j (by omega), Function.update_of_ne (by omega), Function.update_of_ne (by omega)]
    · rw [i1 _ _ (by omega), setE, if_pos ⟨rfl, rfl⟩]
    · rw [i2 _ (by omega), Function.update_of_ne (by omega), Function.update_self]
    · intro i hi; rw [i1 _ _ (by omega), setE, if_neg (by omega)]
    · intro i; rw [i1 _ _ (by omega), setE, if_neg (by omega)]
    · intro i j hj; rw [setE, if_neg (by omega)]

/-! ### Interleaved forward and backward passes -/

/-- Forward pass with interchanges interleaved. -/
def fwd (n : ℕ) (L : Arr 𝕜) (piv : ℕ → ℤ) (k : ℕ) (x : ℕ → 𝕜) : ℕ → 𝕜 :=
  if k < n then
    if piv k < 0 then
      fwd n L piv (k+2) (elimCol n L (k+1) (elimCol n L k (swapV (k+1) (pivIdx (piv k)) x)))
    else fwd n L piv (k+1) (elimCol n L k (swapV k (pivIdx (piv k)) x))
  else x
termination_by n - k

/-- Backward pass with interchanges interleaved. -/
def bwd (n : ℕ) (L : Arr 𝕜) (piv : ℕ → ℤ) (k : ℕ) (x : ℕ → 𝕜) : ℕ → 𝕜 :=
  if k < n then
    if piv k < 0 then
      swapV (k+1) (pivIdx (piv k)) (ucol n L k (ucol n L (k+1) (bwd n L piv (k+2) x)))
    else swapV k (pivIdx (piv k)) (ucol n L k (bwd n L piv (k+1) x))
  else x
termination_by n - k

/-- Backward interchanges, recursively. -/
def pback (n : ℕ) (piv : ℕ → ℤ) (k : ℕ) (x : ℕ → 𝕜) : ℕ → 𝕜 :=
  if k < n then
    if piv k < 0 then swapV (k+1) (pivIdx (piv k)) (pback n piv (k+2) x)
    else swapV k (pivIdx (piv k)) (pback n piv (k+1) x)
  else x
termination_by n - k

theorem elimCol_congr {n : ℕ} {a b : Arr 𝕜} {c : ℕ} (h : ∀ i, a i c = b i c) (x : ℕ → 𝕜) :
    elimCol n a c x = elimCol n b c x := by
  funext i; simp only [elimCol, h]

theorem ucol_congr {n : ℕ} {a b : Arr 𝕜} {c : ℕ} (h : ∀ i, a i c = b i c) (x : ℕ → 𝕜) :
    ucol n a c x = ucol n b c x := by
  funext i; simp only [ucol, h]

theorem fwd_congr {n : ℕ} {a b : Arr 𝕜} {piv : ℕ → ℤ} {k : ℕ} (h : ∀ i j, k ≤ j → a i j = b i j)
    (x : ℕ → 𝕜) : fwd n a piv k x = fwd n b piv k x := by
  induction hm : n - k using Nat.strong_induction_on generalizing k x with
  | _ m ih =>
    rw [fwd]; conv_rhs => rw [fwd]
    split
    · split
      · rw [elimCol_congr (a := a) (b := b) (fun i => h i k le_rfl),
          elimCol_congr (a := a) (b := b) (fun i => h i (k+1) (by omega))]
        exact ih _ (by omega) (fun i j hj => h i j (by omega)) _ rfl
      · rw [elimCol_congr (a := a) (b := b) (fun i => h i k le_rfl)]
        exact ih _ (by omega) (fun i j hj => h i j (by omega)) _ rfl
    · rfl

theorem bwd_congr {n : ℕ} {a b : Arr 𝕜} {piv : ℕ → ℤ} {k : ℕ} (h : ∀ i j, k ≤ j → a i j = b i j)
    (x : ℕ → 𝕜) : bwd n a piv k x = bwd n b piv k x := by
  induction hm : n - k using Nat.strong_induction_on generalizing k x with
  | _ m ih =>
    rw [bwd]; conv_rhs => rw [bwd]
    split
    · split
      · rw [ih _ (by omega) (fun i j hj => h i j (by omega)) x rfl,
          ucol_congr (a := a) (b := b) (fun i => h i (k+1) (by omega)),
          ucol_congr (a := a) (b := b) (fun i => h i k le_rfl)]
      · rw [ih _ (by omega) (fun i j hj => h i j (by omega)) x rfl,
          ucol_congr (a := a) (b := b) (fun i => h i k le_rfl)]
    · rfl

theorem lsolve_ge (n : ℕ) (a : Arr 𝕜) (k : ℕ) (h : n ≤ k) (x : ℕ → 𝕜) :
    lsolve n a k x = lsolve n a n x := by
  induction k with
  | zero => have : n = 0 := by omega
            subst this; rfl
  | succ k ih =>
    rcases Nat.lt_or_ge k n with hk | hk
    · have : n = k + 1 := by omega
      rw [this]
    · rw [lsolve, ih hk]
      funext i; rw [elimCol, if_neg (by omega)]

/-- Column elimination commutes with exchanging two later rows. -/
theorem lsolve_swap (n : ℕ) (a : Arr 𝕜) (k r p : ℕ) (hr : k ≤ r) (hr' : r < n) (hp : k ≤ p)
    (hp' : p < n) (x : ℕ → 𝕜) (m : ℕ) (hm : m ≤ k) :
    lsolve n (swapRows k r p a) m (swapV r p x) = swapV r p (lsolve n a m x) := by
  induction m with
  | zero => rfl
  | succ c ih =>
    rw [lsolve, lsolve, ih (by omega)]
    funext i
    simp only [elimCol, swapV, swapRows]
    grind

theorem usolve_swap (n : ℕ) (a : Arr 𝕜) (k r p : ℕ) (hr : k ≤ r) (hr' : r < n) (hp : k ≤ p)
    (hp' : p < n) (x : ℕ → 𝕜) (m : ℕ) (hm : m ≤ k) :
    usolve n a m (swapV r p x) = swapV r p (usolve n (swapRows k r p a) m x) := by
  induction m generalizing x with
  | zero => rfl
  | succ c ih =>
    rw [usolve, usolve, ← ih _ (by omega)]
    congr 1
    funext i
    rw [swapV_eq]
    simp only [ucol]
    have hc : tau r p c = c := by unfold tau; grind
    have hic : (tau r p i = c) ↔ i = c := by unfold tau; grind
    rw [if_congr hic rfl rfl]
    split
    · rw [swapV_eq, hc]
      congr 1
      refine Finset.sum_nbij' (tau r p) (tau r p) ?_ ?_ ?_ ?_ ?_
      · intro j hj
        rw [mem_Ico] at hj ⊢
        exact ⟨tau_ge (by omega) (by omega) hj.1, tau_lt hr' hp' hj.2⟩
      · intro j hj
        rw [mem_Ico] at hj ⊢
        exact ⟨tau_ge (by omega) (by omega) hj.1, tau_lt hr' hp' hj.2⟩
      · intro j _; exact tau_tau _ _ _
      · intro j _; exact tau_tau _ _ _
      · intro j _
        rw [swapV_eq]
        congr 1
        simp only [swapRows, tau]
        grind
    · rw [swapV_eq]

theorem swapRows_ge {k r p : ℕ} (a : Arr 𝕜) (i j : ℕ) (hj : k ≤ j) : swapRows k r p a i j = a i j := by
  rw [swapRows, if_neg (by omega)]

/-- Eager forward pass = interleaved forward pass. -/
theorem lsolve_permute {n : ℕ} {piv : ℕ → ℤ} {k : ℕ} (h : Bd n piv k) (a : Arr 𝕜) (x : ℕ → 𝕜) :
    lsolve n (finalSwaps n piv k a) n (permute n piv k x) = fwd n a piv k (lsolve n a k x) := by
  induction h generalizing a x with
  | stop =>
    rw [finalSwaps, if_neg (by omega), permute, if_neg (by omega), fwd, if_neg (by omega)]
  | one k h hp lo hi t ih =>
    rw [finalSwaps, if_pos h, if_neg hp, permute, if_pos h, if_neg hp, fwd, if_pos h, if_neg hp, ih,
      lsolve, lsolve_swap n a k k _ le_rfl h lo hi x k le_rfl,
      elimCol_congr (fun i => swapRows_ge a i k le_rfl),
      fwd_congr (fun i j hj => swapRows_ge a i j (by omega))]
  | two k h hp he lo hi t ih =>
    rw [finalSwaps, if_pos (by omega), if_pos hp, permute, if_pos (by omega), if_pos hp, fwd,
      if_pos (by omega), if_pos hp, ih,
      lsolve, lsolve, lsolve_swap n a k (k+1) _ (by omega) h (by omega) hi x k le_rfl,
      elimCol_congr (fun i => swapRows_ge a i k le_rfl),
      elimCol_congr (fun i => swapRows_ge a i (k+1) (by omega)),
      fwd_congr (fun i j hj => swapRows_ge a i j (by omega))]

/-- Eager backward pass = interleaved backward pass. -/
theorem pback_usolve {n : ℕ} {piv : ℕ → ℤ} {k : ℕ} (h : Bd n piv k) (a : Arr 𝕜) (x : ℕ → 𝕜) :
    pback n piv k (usolve n (finalSwaps n piv k a) n x) = usolve n a k (bwd n a piv k x) := by
  induction h generalizing a x with
  | stop =>
    rw [finalSwaps, if_neg (by omega), pback, if_neg (by omega), bwd, if_neg (by omega)]
  | one k h hp lo hi t ih =>
    rw [finalSwaps, if_pos h, if_neg hp, pback, if_pos h, if_neg hp, bwd, if_pos h, if_neg hp, ih,
      usolve, usolve_swap n a k k _ le_rfl h lo hi _ k le_rfl,
      ucol_congr (fun i => swapRows_ge a i k le_rfl),
      bwd_congr (fun i j hj => swapRows_ge a i j (by omega))]
  | two k h hp he lo hi t ih =>
    rw [finalSwaps, if_pos (by omega), if_pos hp, pback, if_pos (by omega), if_pos hp, bwd,
      if_pos (by omega), if_pos hp, ih,
      usolve, usolve, usolve_swap n a k (k+1) _ (by omega) h (by omega) hi _ k le_rfl,
      ucol_congr (fun i => swapRows_ge a i k le_rfl),
      ucol_congr (fun i => swapRows_ge a i (k+1) (by omega)),
      bwd_congr (fun i j hj => swapRows_ge a i j (by omega))]

theorem unpermute_eq {n : ℕ} {piv : ℕ → ℤ} {k : ℕ} (h : Bd n piv k) (x : ℕ → 𝕜) :
    unpermute piv n x = unpermute piv k (pback n piv k x) := by
  induction h with
  | stop => rw [pback, if_neg (by omega)]
  | one k h hp lo hi t ih =>
    rw [ih, unpermute, if_neg hp]
    conv_rhs => rw [pback, if_pos h, if_neg hp]
  | two k h hp he lo hi t ih =>
    rw [ih, unpermute, if_pos (by rw [he]; exact hp), he]
    conv_rhs => rw [pback, if_pos (by omega), if_pos hp]
    rfl

theorem finalSwaps_diag {n : ℕ} {piv : ℕ → ℤ} {k : ℕ} (h : Bd n piv k) (a : Arr 𝕜) (i : ℕ) :
    finalSwaps n piv k a i i = a i i := by
  induction h generalizing a with
  | stop => rw [finalSwaps, if_neg (by omega)]
  | one k h hp lo hi t ih =>
    rw [finalSwaps, if_pos h, if_neg hp, ih]
    simp only [swapRows]; grind
  | two k h hp he lo hi t ih =>
    rw [finalSwaps, if_pos (by omega), if_pos hp, ih]
    simp only [swapRows]; grind

/-! Frame and locality of the passes. -/

theorem fwd_frame {n : ℕ} {piv : ℕ → ℤ} {k : ℕ} (h : Bd n piv k) (a : Arr 𝕜) (x : ℕ → 𝕜) (i : ℕ)
    (hi : i < k) : fwd n a piv k x i = x i := by
  induction h generalizing x with
  | stop => rw [fwd, if_neg (by omega)]
  | one k h hp lo hi' t ih =>
    rw [fwd, if_pos h, if_neg hp, ih _ (by omega), elimCol, if_neg (by omega), swapV,
      if_neg (by omega), if_neg (by omega)]
  | two k h hp he lo hi' t ih =>
    rw [fwd, if_pos (by omega), if_pos hp, ih _ (by omega), elimCol, if_neg (by omega), elimCol,
      if_neg (by omega), swapV, if_neg (by omega), if_neg (by omega)]

theorem dsolve_local {n : ℕ} {piv : ℕ → ℤ} {k : ℕ} (h : Bd n piv k) (f : Factored 𝕜)
    (hf : f.piv = piv) (x y : ℕ → 𝕜) :
    (∀ i, i < k → dsolve n f k x i = x i) ∧
    ((∀ i, k ≤ i → x i = y i) → ∀ i, k ≤ i → dsolve n f k x i = dsolve n f k y i) := by
  subst hf
  induction h generalizing x y with
  | stop =>
    rw [dsolve, if_neg (by omega), dsolve, if_neg (by omega)]
    exact ⟨fun _ _ => rfl, fun h => h⟩
  | one k h hp lo hi' t ih =>
    rw [dsolve, if_pos h, if_neg hp]
    constructor
    · intro i hi
      rw [(ih _ y).1 i (by omega), if_neg (by omega)]
    · intro hxy i hi
      conv_rhs => rw [dsolve, if_pos h, if_neg hp]
      rcases Nat.lt_or_ge k i with e | e
      · refine (ih _ _).2 (fun j hj => ?_) i e
        rw [if_neg (by omega), if_neg (by omega)]; exact hxy j (by omega)
      · have : i = k := by omega
        subst this
        rw [(ih _ y).1 i (by omega), (ih _ y).1 i (by omega), if_pos rfl, if_pos rfl, hxy i le_rfl]
  | two k h hp he lo hi' t ih =>
    rw [dsolve, if_pos (by omega), if_pos hp]
    constructor
    · intro i hi
      rw [(ih _ y).1 i (by omega), if_neg (by omega), if_neg (by omega)]
    · intro hxy i hi
      conv_rhs => rw [dsolve, if_pos (by omega), if_pos hp]
      rcases Nat.lt_or_ge (k+1) i with e | e
      · refine (ih _ _).2 (fun j hj => ?_) i e
        rw [if_neg (by omega), if_neg (by omega), if_neg (by omega), if_neg (by omega)]
        exact hxy j (by omega)
      · rw [(ih _ y).1 i (by omega), (ih _ y).1 i (by omega), hxy k le_rfl, hxy (k+1) (by omega)]
        split
        · rfl
        · split
          · rfl
          · exact hxy i hi

theorem bwd_local {n : ℕ} {piv : ℕ → ℤ} {k : ℕ} (h : Bd n piv k) (a : Arr 𝕜) (x y : ℕ → 𝕜) :
    (∀ i, i < k → bwd n a piv k x i = x i) ∧
    ((∀ i, k ≤ i → x i = y i) → ∀ i, k ≤ i → bwd n a piv k x i = bwd n a piv k y i) := by
  induction h generalizing x y with
  | stop =>
    rw [bwd, if_neg (by omega), bwd, if_neg (by omega)]
    exact ⟨fun _ _ => rfl, fun h => h⟩
  | one k h hp lo hi' t ih =>
    rw [bwd, if_pos h, if_neg hp]
    constructor
    · intro i hi
      rw [swapV, if_neg (by omega), if_neg (by omega), ucol, if_neg (by omega)]
      exact (ih x y).1 i (by omega)
    · intro hxy i hi
      conv_rhs => rw [bwd, if_pos h, if_neg hp]
      have key : ∀ j, k ≤ j → ucol n a k (bwd n a piv (k+1) x) j = ucol n a k (bwd n a piv (k+1) y) j := by
        intro j hj
        have h2 := (ih x y).2 (fun i hi => hxy i (by omega))
        unfold ucol
        split
        · rw [(ih x y).1 k (by omega), (ih y y).1 k (by omega), hxy k le_rfl]
          congr 1
          refine Finset.sum_congr rfl fun l hl => ?_
          rw [mem_Ico] at hl
          rw [h2 l hl.1]
        · exact h2 j (by omega)
      rw [swapV_eq, swapV_eq]
      exact key _ (tau_ge le_rfl lo hi)
  | two k h hp he lo hi' t ih =>
    rw [bwd, if_pos (by omega), if_pos hp]
    constructor
    · intro i hi
      rw [swapV, if_neg (by omega), if_neg (by omega), ucol, if_neg (by omega), ucol,
        if_neg (by omega)]
      exact (ih x y).1 i (by omega)
    · intro hxy i hi
      conv_rhs => rw [bwd, if_pos (by omega), if_pos hp]
      have key1 : ∀ j, k ≤ j → ucol n a (k+1) (bwd n a piv (k+2) x) j =
          ucol n a (k+1) (bwd n a piv (k+2) y) j := by
        intro j hj
        have h2 := (ih x y).2 (fun i hi => hxy i (by omega))
        unfold ucol
        split
        · rw [(ih x y).1 (k+1) (by omega), (ih y y).1 (k+1) (by omega), hxy (k+1) (by omega)]
          congr 1
          refine Finset.sum_congr rfl fun l hl => ?_
          rw [mem_Ico] at hl
          rw [h2 l hl.1]
        · rcases Nat.lt_or_ge j (k+2) with e | e
          · rw [(ih x y).1 j e, (ih y y).1 j e, hxy j hj]
          · exact h2 j e
      have key : ∀ j, k ≤ j → ucol n a k (ucol n a (k+1) (bwd n a piv (k+2) x)) j =
          ucol n a k (ucol n a (k+1) (bwd n a piv (k+2) y)) j := by
        intro j hj
        rw [ucol]; conv_rhs => rw [ucol]
        split
        · rw [key1 k le_rfl]
          congr 1
          refine Finset.sum_congr rfl fun l hl => ?_
          rw [mem_Ico] at hl
          rw [key1 l (by omega)]
        · exact key1 j hj
      rw [swapV_eq, swapV_eq]
      exact key _ (tau_ge (by omega) (by omega) hi)

/-- The interleaved solve is the composition of the interleaved passes. -/
theorem lazySolve_eq {n : ℕ} {piv : ℕ → ℤ} {k : ℕ} (h : Bd n piv k) (f : Factored 𝕜) (L : Arr 𝕜)
    (hf : f.piv = piv) (hd : ∀ i, f.L i i = L i i)
    {a : Arr 𝕜} (hE : Ext n piv a L f.subdiag k) (x : ℕ → 𝕜) (i : ℕ) :
    bwd n L piv k (dsolve n f k (fwd n L piv k x)) i = lazySolve n L f.subdiag piv k x i := by
  induction h generalizing x i with
  | stop =>
    rw [bwd, if_neg (by omega), dsolve, if_neg (by omega), fwd, if_neg (by omega), lazySolve,
      if_neg (by omega)]
  | one k h hp lo hi' t ih =>
    subst hf
    have tE : Ext n f.piv a L f.subdiag (k+1) := by
      cases hE with
      | stop _ h' => omega
      | one _ _ _ _ tE => exact tE
      | two _ _ hp' => exact absurd hp' hp
    have IH := fun x i => ih tE x i
    rw [bwd, if_pos h, if_neg hp, dsolve, if_pos h, if_neg hp, fwd, if_pos h, if_neg hp, lazySolve,
      if_pos h, if_neg hp]
    have hx2 : (fun i => if k < i ∧ i < n then swapV k (pivIdx (f.piv k)) x i -
        L i k * swapV k (pivIdx (f.piv k)) x k else swapV k (pivIdx (f.piv k)) x i) =
        elimCol n L k (swapV k (pivIdx (f.piv k)) x) := rfl
    rw [hx2]
    set x1 := swapV k (pivIdx (f.piv k)) x with hx1
    set z := fwd n L f.piv (k+1) (elimCol n L k x1) with hzdef
    rw [swapV_eq, swapV_eq]
    have zk : z k = x1 k := by
      rw [hzdef, fwd_frame t _ _ _ (by omega), elimCol, if_neg (by omega)]
    have big : ∀ j, k + 1 ≤ j →
        bwd n L f.piv (k+1) (dsolve n f (k+1) (fun i => if i = k then z k * f.L k k else z i)) j =
        lazySolve n L f.subdiag f.piv (k+1) (elimCol n L k x1) j := by
      intro j hj
      rw [← IH]
      refine (bwd_local t L _ _).2 (fun l hl => ?_) j hj
      refine (dsolve_local t f rfl _ _).2 (fun m hm => ?_) l hl
      rw [if_neg (by omega)]
    have lowk : bwd n L f.piv (k+1) (dsolve n f (k+1) (fun i => if i = k then z k * f.L k k else z i)) k
        = x1 k * L k k := by
      rw [(bwd_local t L _ z).1 k (by omega), (dsolve_local t f rfl _ z).1 k (by omega), if_pos rfl, zk,
        hd]
    have key : ∀ j, ucol n L k (bwd n L f.piv (k+1) (dsolve n f (k+1)
          (fun i => if i = k then z k * f.L k k else z i))) j =
        if j = k then x1 k * L k k - ∑ j ∈ Ico (k+1) n, L j k *
            lazySolve n L f.subdiag f.piv (k+1) (elimCol n L k x1) j
          else lazySolve n L f.subdiag f.piv (k+1) (elimCol n L k x1) j := by
      intro j
      rw [ucol, lowk]
      split
      · congr 1
        refine Finset.sum_congr rfl fun l hl => ?_
        rw [mem_Ico] at hl
        rw [big l hl.1]
      · rcases Nat.lt_or_ge j (k+1) with e | e
        · rw [← IH, (bwd_local t L _ z).1 j e, (dsolve_local t f rfl _ z).1 j e, if_neg (by omega),
            (bwd_local t L _ z).1 j e, (dsolve_local t f rfl _ z).1 j e]
        · exact big j e
    exact key _
  | two k h hp he lo hi' t ih =>
    subst hf
    have tE : L (k+1) k = 0 ∧ Ext n f.piv a L f.subdiag (k+2) := by
      cases hE with
      | stop _ h' => omega
      | one _ _ hp' => exact absurd hp hp'
      | two _ _ _ h0 _ _ _ tE => exact ⟨h0, tE⟩
    have hz0 := tE.1
    have IH := fun x i => ih tE.2 x i
    rw [bwd, if_pos (by omega), if_pos hp, dsolve, if_pos (by omega), if_pos hp, fwd, if_pos (by omega),
      if_pos hp, lazySolve, if_pos (by omega), if_pos hp]
    have hx2 : (fun i => if k + 1 < i ∧ i < n then swapV (k+1) (pivIdx (f.piv k)) x i -
        L i k * swapV (k+1) (pivIdx (f.piv k)) x k -
        L i (k+1) * swapV (k+1) (pivIdx (f.piv k)) x (k+1) else swapV (k+1) (pivIdx (f.piv k)) x i) =
        elimCol n L (k+1) (elimCol n L k (swapV (k+1) (pivIdx (f.piv k)) x)) := by
      funext i
      simp only [elimCol]
      grind
    rw [hx2]
    set x1 := swapV (k+1) (pivIdx (f.piv k)) x with hx1
    set x2 := elimCol n L (k+1) (elimCol n L k x1) with hx2d
    set z := fwd n L f.piv (k+2) x2 with hzdef
    rw [swapV_eq, swapV_eq]
    have zk : z k = x1 k := by
      rw [hzdef, fwd_frame t _ _ _ (by omega), hx2d, elimCol, if_neg (by omega), elimCol,
        if_neg (by omega)]
    have zk1 : z (k+1) = x1 (k+1) := by
      rw [hzdef, fwd_frame t _ _ _ (by omega), hx2d, elimCol, if_neg (by omega), elimCol, hz0]
      split <;> ring
    set zz : ℕ → 𝕜 := fun i => if i = k then z k * f.L k k + z (k + 1) * f.subdiag k
          else if i = k + 1 then z (k + 1) * f.L (k + 1) (k + 1) + z k * f.subdiag k
          else z i with hzz
    have big : ∀ j, k + 2 ≤ j →
        bwd n L f.piv (k+2) (dsolve n f (k+2) zz) j = lazySolve n L f.subdiag f.piv (k+2) x2 j := by
      intro j hj
      rw [← IH]
      refine (bwd_local t L _ _).2 (fun l hl => ?_) j hj
      refine (dsolve_local t f rfl _ _).2 (fun m hm => ?_) l hl
      rw [hzz]; dsimp only
      rw [if_neg (by omega), if_neg (by omega)]
    have low : ∀ j, j < k + 2 → bwd n L f.piv (k+2) (dsolve n f (k+2) zz) j = zz j := by
      intro j hj
      rw [(bwd_local t L _ z).1 j hj, (dsolve_local t f rfl _ z).1 j hj]
    have lowz : ∀ j, j < k → zz j = lazySolve n L f.subdiag f.piv (k+2) x2 j := by
      intro j hj
      rw [← IH, (bwd_local t L _ z).1 j (by omega), (dsolve_local t f rfl _ z).1 j (by omega), hzz]
      dsimp only
      rw [if_neg (by omega), if_neg (by omega)]
    have zzk : zz k = x1 k * L k k + x1 (k+1) * f.subdiag k := by
      rw [hzz]; dsimp only
      rw [if_pos rfl, zk, zk1, hd]
    have zzk1 : zz (k+1) = x1 (k+1) * L (k+1) (k+1) + x1 k * f.subdiag k := by
      rw [hzz]; dsimp only
      rw [if_neg (by omega), if_pos rfl, zk, zk1, hd]
    generalize tau (k+1) (pivIdx (f.piv k)) i = j
    have hsum : ∀ c, ∑ l ∈ Ico (k+2) n, L l c * bwd n L f.piv (k+2) (dsolve n f (k+2) zz) l =
        ∑ l ∈ Ico (k+2) n, L l c * lazySolve n L f.subdiag f.piv (k+2) x2 l := by
      intro c
      refine Finset.sum_congr rfl fun l hl => ?_
      rw [mem_Ico] at hl
      rw [big l hl.1]
    have u1 : ∀ j, ucol n L (k+1) (bwd n L f.piv (k+2) (dsolve n f (k+2) zz)) j =
        if j = k + 1 then zz (k+1) - ∑ l ∈ Ico (k+2) n, L l (k+1) *
          lazySolve n L f.subdiag f.piv (k+2) x2 l
        else if j = k then zz k else lazySolve n L f.subdiag f.piv (k+2) x2 j := by
      intro j
      rw [ucol, hsum, low (k+1) (by omega)]
      split
      · rfl
      · split
        · rename_i e; rw [e, low k (by omega)]
        · rcases Nat.lt_or_ge j k with e | e
          · rw [low j (by omega), lowz j e]
          · exact big j (by omega)
    rw [ucol]
    simp only [u1]
    rw [if_neg (by omega : ¬ k = k + 1), if_pos trivial]
    have s2 : ∑ x ∈ Ico (k+1) n, L x k * (if x = k + 1 then zz (k+1) - ∑ l ∈ Ico (k+2) n, L l (k+1) *
          lazySolve n L f.subdiag f.piv (k+2) x2 l
        else if x = k then zz k else lazySolve n L f.subdiag f.piv (k+2) x2 x) =
        ∑ l ∈ Ico (k+2) n, L l k * lazySolve n L f.subdiag f.piv (k+2) x2 l := by
      rw [Finset.sum_eq_sum_Ico_succ_bot h, hz0, zero_mul, zero_add]
      refine Finset.sum_congr rfl fun l hl => ?_
      rw [mem_Ico] at hl
      rw [if_neg (by omega), if_neg (by omega)]
    rw [s2, zzk, zzk1]
    by_cases e : j = k
    · rw [if_pos e, if_pos e]
    · rw [if_neg e, if_neg e, if_neg e]

/-- Correctness of a factorisation followed by `finish` and `solve`. -/
theorem solve_correct {n : ℕ} {a : Arr 𝕜} {sf : St 𝕜}
    (h : Fac n sf.a sf.piv 0 a) (x : ℕ → 𝕜) (i : ℕ) (hi : i < n) :
    rowSum 0 n (sym a) (solve n (finish n sf) x) i = x i := by
  have bd := h.bd
  obtain ⟨-, -, hE⟩ := extract_spec bd (sf.a, fun _ => (0 : 𝕜))
  have := h.solves hE x i (Nat.zero_le i) hi
  rw [← this]
  congr 1
  funext j
  refine Eq.trans ?_ (lazySolve_eq bd (finish n sf) _ rfl (fun i => finalSwaps_diag bd _ i) hE x j)
  unfold solve
  have e1 := lsolve_permute bd (extractSubdiag n sf.piv 0 (sf.a, fun _ => (0 : 𝕜))).1 x
  have e2 := fun y => pback_usolve bd (extractSubdiag n sf.piv 0 (sf.a, fun _ => (0 : 𝕜))).1 y
  have hL : (finish n sf).L =
    finalSwaps n sf.piv 0 (extractSubdiag n sf.piv 0 (sf.a, fun _ => (0 : 𝕜))).1 := rfl
  have hP : (finish n sf).piv = sf.piv := rfl
  rw [hP, unpermute_eq bd, hL, e2, e1]
  simp only [lsolve, usolve, unpermute]

theorem unblocked_eq (alpha : 𝕜) (n : ℕ) (s : St 𝕜) (hs : s.piv 0 = 0) :
    unblocked alpha n s = bkLoop alpha n 0 s := by
  unfold unblocked
  split
  · rename_i h; subst h
    rw [bkLoop, if_neg (by omega)]
  · split
    · rename_i h; subst h
      rw [bkLoop, if_pos (by omega : 0 < 1), bkStep, choosePivot]
      by_cases e : s.a 0 0 = 0
      · simp [e]
      · have e' : |s.a 0 0| ≠ 0 := abs_ne_zero.2 e
        have e2 : max |s.a 0 0| 0 ≠ 0 := by
          rw [max_eq_left (abs_nonneg _)]; exact e'
        have e3 : setPivots 0 false 0 s.piv = s.piv := by
          have : ((0 : ℕ) : ℤ) = s.piv 0 := hs.symm
          simp only [setPivots, Bool.false_eq_true, if_false]
          rw [this, Function.update_eq_self]
        rw [if_neg e', if_neg (show ¬ (0 + 1 < 1) by omega)]
        dsimp only
        rw [if_neg e2, if_pos (by rw [zero_mul]; exact abs_nonneg _)]
        dsimp only
        rw [bkLoop, e3]
        simp [interchange, eliminate1, forRange, forLen]
    · rfl

end Aligator.BK
