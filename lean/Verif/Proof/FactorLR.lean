import Verif.Proof.FactorEval
import Mathlib.LinearAlgebra.Matrix.Block

/-! # LR decomposition -/

set_option linter.unusedSectionVars false

namespace H2.Dense
open Spec
variable {K : Type} [Field K] [StarRing K]

/-! ### functions -/

/-- one elimination step -/
def lrF (n i : Nat) (F : Nat → Nat → K) (r c : Nat) : K :=
  if i < r ∧ r < n then
    if c = i then F r i * (1 / F i i) else if i < c ∧ c < n then F r c - F r i * (1 / F i i) * F i c else F r c
  else F r c

/-- `i` steps of the decomposition have been done -/
def LRInv (A : Nat → Nat → K) (n i : Nat) (F : Nat → Nat → K) : Prop :=
  (∀ j < i, F j j ≠ 0) ∧
  ∀ r < n, ∀ c < n, A r c = ∑ k ∈ Finset.range i, tri true true F r k * tri false false F k c +
    if i ≤ r ∧ i ≤ c then F r c else 0

theorem lrInv_init (A : Nat → Nat → K) (n : Nat) : LRInv A n 0 A :=
  ⟨fun j hj => absurd hj (by omega), fun r _ c _ => by simp⟩

theorem lrInv_step {A : Nat → Nat → K} {n i : Nat} {F : Nat → Nat → K} (h : LRInv A n i F) (hi : i < n) (hp : F i i ≠ 0) :
    LRInv A n (i + 1) (lrF n i F) := by
  have old : ∀ r c, r ≤ i ∨ c < i → lrF n i F r c = F r c := by
    intro r c h'
    unfold lrF
    by_cases e : i < r ∧ r < n
    · rw [if_pos e, if_neg (by omega), if_neg (by omega)]
    · rw [if_neg e]
  refine ⟨fun j hj => ?_, fun r hr c hc => ?_⟩
  · rw [old j j (by omega)]
    rcases Nat.lt_succ_iff_lt_or_eq.mp hj with h' | h'
    · exact h.1 j h'
    · rw [h']; exact hp
  · have h1 : ∑ k ∈ Finset.range i, tri true true (lrF n i F) r k * tri false false (lrF n i F) k c =
        ∑ k ∈ Finset.range i, tri true true F r k * tri false false F k c := by
      refine Finset.sum_congr rfl fun k hk => ?_
      have hk := Finset.mem_range.mp hk
      unfold tri
      simp only [if_true, Bool.false_eq_true, if_false]
      rw [old r k (by omega), old k k (by omega), old k c (by omega)]
    rw [Finset.sum_range_succ, h1, h.2 r hr c hc, add_assoc]
    congr 1
    unfold tri
    simp only [if_true, Bool.false_eq_true, if_false]
    by_cases e1 : r < i
    · rw [if_neg (show ¬ (i ≤ r ∧ i ≤ c) by omega), if_neg (show ¬ r = i by omega), if_neg (show ¬ i < r by omega),
        if_neg (show ¬ (i + 1 ≤ r ∧ i + 1 ≤ c) by omega), zero_mul, add_zero]
    · by_cases e2 : r = i
      · subst e2
        rw [if_pos rfl, one_mul, if_neg (show ¬ (r + 1 ≤ r ∧ r + 1 ≤ c) by omega), add_zero, old r r (by omega), old r c (by omega)]
        by_cases e3 : r = c
        · rw [if_pos e3, if_pos (by omega), e3]
        · rw [if_neg e3]
          by_cases e4 : r < c
          · rw [if_pos e4, if_pos (by omega)]
          · rw [if_neg e4, if_neg (by omega)]
      · have e3 : i < r := by omega
        have er : lrF n i F r i = F r i * (1 / F i i) := by
          unfold lrF; rw [if_pos ⟨e3, hr⟩, if_pos rfl]
        rw [if_neg e2, if_pos e3, er, old i i (by omega), old i c (by omega)]
        by_cases e4 : i = c
        · subst e4
          rw [if_pos rfl, if_pos (by omega), if_neg (by omega), add_zero]
          field_simp
        · rw [if_neg e4]
          by_cases e5 : i < c
          · have ec : lrF n i F r c = F r c - F r i * (1 / F i i) * F i c := by
              unfold lrF; rw [if_pos ⟨e3, hr⟩, if_neg (by omega), if_pos ⟨e5, hc⟩]
            rw [if_pos e5, if_pos (by omega), if_pos (by omega), ec]
            ring
          · rw [if_neg e5, if_neg (by omega), if_neg (by omega)]
            simp

/-- the leading block of order `i + 1` is already decomposed -/
theorem lrInv_block {A : Nat → Nat → K} {n i : Nat} {F : Nat → Nat → K} (h : LRInv A n i F) {k : Nat} (hk : k ≤ i + 1) (hn : k ≤ n)
    {r c : Nat} (hr : r < k) (hc : c < k) :
    A r c = ∑ l ∈ Finset.range k, tri true true F r l * tri false false F l c := by
  rw [h.2 r (by omega) c (by omega)]
  have z : ∀ l, r < l ∨ c < l → tri true true F r l * tri false false F l c = 0 := by
    intro l hl
    unfold tri
    simp only [if_true, Bool.false_eq_true, if_false]
    rcases hl with hl | hl
    · rw [if_neg (by omega), if_neg (by omega), zero_mul]
    · rw [if_neg (show ¬ l = c by omega), if_neg (show ¬ l < c by omega), mul_zero]
  by_cases e : k ≤ i
  · rw [if_neg (by omega), add_zero, ← Finset.sum_range_add_sum_Ico _ e, Finset.sum_eq_zero (s := Finset.Ico k i), add_zero]
    intro l hl
    have := Finset.mem_Ico.mp hl
    exact z l (by omega)
  · have : k = i + 1 := by omega
    subst this
    rw [Finset.sum_range_succ]
    congr 1
    by_cases e1 : r = i ∧ c = i
    · obtain ⟨rfl, rfl⟩ := e1
      rw [if_pos ⟨le_rfl, le_rfl⟩]
      simp [tri]
    · rw [if_neg (by omega), z i (by omega)]

theorem minor_of_lr {A F : Nat → Nat → K} {k : Nat}
    (h : ∀ r < k, ∀ c < k, A r c = ∑ l ∈ Finset.range k, tri true true F r l * tri false false F l c) :
    minor A k = ∏ j ∈ Finset.range k, F j j := by
  have e : (Matrix.of fun i j : Fin k => A i j) = (Matrix.of fun i j : Fin k => tri true true F i j) *
      (Matrix.of fun i j : Fin k => tri false false F i j) := by
    ext i j
    rw [Matrix.mul_apply, Matrix.of_apply, h i i.2 j j.2, ← Fin.sum_univ_eq_sum_range]
    rfl
  unfold minor
  rw [e, Matrix.det_mul, Matrix.det_of_isLowerTriangular, Matrix.det_of_isUpperTriangular]
  · simp only [Matrix.of_apply]
    rw [Finset.prod_eq_one, one_mul, ← Fin.prod_univ_eq_prod_range (fun j => F j j)]
    · refine Finset.prod_congr rfl fun j _ => ?_
      simp [tri]
    · intro j _
      simp [tri]
  · intro i j hij
    have : (j : Nat) < i := hij
    simp only [Matrix.of_apply, tri]
    rw [if_neg (by omega)]
    simp only [Bool.false_eq_true, if_false]
    rw [if_neg (by omega)]
  · intro i j hij
    have : (i : Nat) < j := hij
    simp only [Matrix.of_apply, tri]
    rw [if_neg (by omega)]
    simp only [if_true]
    rw [if_neg (by omega)]

theorem lrInv_minors {A : Nat → Nat → K} {n i : Nat} {F : Nat → Nat → K} (h : LRInv A n i F) {k : Nat} (hk : k ≤ i + 1) (hn : k ≤ n) :
    minor A k = ∏ j ∈ Finset.range k, F j j := minor_of_lr fun _ hr _ hc => lrInv_block h hk hn hr hc

theorem lrInv_nonzero {A : Nat → Nat → K} {n i : Nat} {F : Nat → Nat → K} (h : LRInv A n i F) {k : Nat} (hk : k ≤ i) (hn : k ≤ n) :
    minor A k ≠ 0 := by
  rw [lrInv_minors h (by omega) hn]
  exact Finset.prod_ne_zero_iff.mpr fun j hj => h.1 j (by have := Finset.mem_range.mp hj; omega)

/-- The triangular factors are unique. -/
theorem lr_unique {n : Nat} {F G : Nat → Nat → K} (hF : ∀ i < n, F i i ≠ 0)
    (h : ∀ r < n, ∀ c < n, ∑ l ∈ Finset.range n, tri true true F r l * tri false false F l c =
      ∑ l ∈ Finset.range n, tri true true G r l * tri false false G l c) :
    ∀ r < n, ∀ c < n, F r c = G r c := by
  have key : ∀ (H : Nat → Nat → K) r, r < n → ∀ c, c < n → ∑ l ∈ Finset.range n, tri true true H r l * tri false false H l c =
      ∑ l ∈ Finset.range (min r c), H r l * H l c + if r ≤ c then H r c else H r c * H c c := by
    intro H r hr c hc
    rw [← Finset.sum_range_add_sum_Ico _ (show min r c + 1 ≤ n by omega), Finset.sum_range_succ,
      Finset.sum_eq_zero (s := Finset.Ico _ n), add_zero]
    · congr 1
      · refine Finset.sum_congr rfl fun l hl => ?_
        have := Finset.mem_range.mp hl
        unfold tri
        simp only [if_true, Bool.false_eq_true, if_false]
        rw [if_neg (by omega), if_pos (by omega), if_neg (by omega), if_pos (by omega)]
      · unfold tri
        simp only [if_true, Bool.false_eq_true, if_false]
        by_cases e : r ≤ c
        · rw [min_eq_left e, if_pos rfl, if_pos e, one_mul]
          by_cases e' : r = c
          · rw [if_pos e', e']
          · rw [if_neg e', if_pos (by omega)]
        · rw [min_eq_right (by omega), if_neg (show ¬ r = c by omega), if_pos (by omega), if_pos rfl, if_neg e]
    · intro l hl
      have := Finset.mem_Ico.mp hl
      unfold tri
      simp only [if_true, Bool.false_eq_true, if_false]
      by_cases e : r ≤ c
      · rw [if_neg (by omega), if_neg (by omega), zero_mul]
      · rw [if_neg (show ¬ l = c by omega), if_neg (show ¬ l < c by omega), mul_zero]
  have main : ∀ k, ∀ r < n, ∀ c < n, min r c = k → F r c = G r c := by
    intro k
    induction k using Nat.strong_induction_on with
    | _ k ih =>
      have sum_eq : ∀ r < n, ∀ c < n, min r c = k → ∑ l ∈ Finset.range (min r c), F r l * F l c =
          ∑ l ∈ Finset.range (min r c), G r l * G l c := by
        intro r hr c hc e
        refine Finset.sum_congr rfl fun l hl => ?_
        have := Finset.mem_range.mp hl
        rw [ih l (by omega) r hr l (by omega) (by omega), ih l (by omega) l (by omega) c hc (by omega)]
      have up : ∀ r < n, ∀ c < n, min r c = k → r ≤ c → F r c = G r c := by
        intro r hr c hc e hle
        have := h r hr c hc
        rw [key F r hr c hc, key G r hr c hc, sum_eq r hr c hc e, if_pos hle, if_pos hle] at this
        exact add_left_cancel this
      intro r hr c hc e
      by_cases hle : r ≤ c
      · exact up r hr c hc e hle
      · have := h r hr c hc
        rw [key F r hr c hc, key G r hr c hc, sum_eq r hr c hc e, if_neg hle, if_neg hle] at this
        have := add_left_cancel this
        rw [← up c hc c hc (by omega) le_rfl] at this
        exact mul_right_cancel₀ (hF c hc) this
  exact fun r hr c hc => main _ r hr c hc rfl

/-! ### memory -/

theorem lrStep_tot {a : Mat} {n i : Nat} {m m' : Mem K} {F : Nat → Nat → K} (h : MatBecomes a m F m') (hr : n ≤ a.rows)
    (hc : n ≤ a.cols) (hi : i < n) : Tot (lrStep a n i m') (MatBecomes a m (lrF n i F)) := by
  unfold lrStep
  rw [becomes_read h (show i < a.rows by omega) (show i < a.cols by omega), ok_bind]
  refine (forUp_tot (fun j m1 => MatBecomes a m (fun r c => if r < j then lrF n i F r c else F r c) m1) (show i + 1 ≤ n by omega)
    (becomes_congr h fun r _ c _ => ?_) ?_).mono fun m1 h1 => becomes_congr h1 fun r _ c _ => ?_
  · by_cases e : r < i + 1
    · rw [if_pos e]; unfold lrF; rw [if_neg (by omega)]
    · rw [if_neg e]
  · intro j m1 h1 h2 h3
    have hj : j < a.rows := by omega
    have hi' : i < a.cols := by omega
    rw [becomes_read h3 hj hi', ok_bind, if_neg (show ¬ j < j by omega)]
    refine Tot.bind (becomes_write h3 hj hi' _) fun m2 _ h4 => ?_
    refine (lineLoop h4 hj (show i + 1 ≤ n by omega) hc (new := fun k => F j k - F j i * (1 / F i i) * F i k)
      fun k hk1 hk2 m3 G h5 h6 => ?_).mono fun m3 h5 => becomes_congr h5 fun r _ c _ => ?_
    · rw [becomes_read h5 hj (show k < a.cols by omega), ok_bind, becomes_read h5 hj hi', ok_bind,
        becomes_read h5 (show i < a.rows by omega) (show k < a.cols by omega), ok_bind, h6 j k (by omega), h6 j i (by omega),
        h6 i k (by omega), fset_same, fset_ne (by omega), fset_ne (by omega), if_neg (show ¬ j < j by omega),
        if_pos (show i < j by omega)]
      congr 2
      unfold lrF
      rw [if_neg (by omega)]
    · by_cases e : r = j
      · subst e
        rw [if_pos (show r < r + 1 by omega)]
        unfold lrF
        rw [if_pos (show i < r ∧ r < n by omega)]
        by_cases e1 : c = i
        · subst e1
          rw [if_neg (by omega), fset_same, if_pos rfl]
        · rw [if_neg e1, fset_ne (by omega), if_neg (show ¬ r < r by omega)]
          by_cases e2 : i < c ∧ c < n
          · rw [if_pos (by omega), if_pos e2]
          · rw [if_neg (by omega), if_neg e2]
      · rw [if_neg (by omega), fset_ne (by omega)]
        by_cases e1 : r < j
        · rw [if_pos e1, if_pos (by omega)]
        · rw [if_neg e1, if_neg (by omega)]
  · by_cases e : r < n
    · rw [if_pos e]
    · rw [if_neg e]; unfold lrF; rw [if_neg (by omega)]

/-- what a decomposition of the matrix `A` of order `n` with result `p` leaves behind -/
def LRPost (A : Nat → Nat → K) (n p : Nat) (F : Nat → Nat → K) : Prop :=
  (p = 0 ∧ LRInv A n n F) ∨ (0 < p ∧ p ≤ n ∧ LRInv A n (p - 1) F ∧ F (p - 1) (p - 1) = 0)

theorem lrPost_minor {A : Nat → Nat → K} {n p : Nat} {F : Nat → Nat → K} (h : LRPost A n p F) : FirstZeroMinor A n p := by
  rcases h with ⟨h1, h2⟩ | ⟨h1, h2, h3, h4⟩
  · exact .inl ⟨h1, fun k hk => lrInv_nonzero h2 hk hk⟩
  · refine .inr ⟨h1, h2, ?_, fun k hk => lrInv_nonzero h3 (by omega) (by omega)⟩
    rw [lrInv_minors h3 (by omega) h2]
    exact Finset.prod_eq_zero (Finset.mem_range.mpr (show p - 1 < p by omega)) h4

theorem lrPost_zero {A : Nat → Nat → K} {n : Nat} {F : Nat → Nat → K} (h : LRPost A n 0 F) : (∀ i < n, F i i ≠ 0) ∧
    ∀ r < n, ∀ c < n, ∑ l ∈ Finset.range n, tri true true F r l * tri false false F l c = A r c := by
  rcases h with ⟨_, h2⟩ | ⟨h1, _⟩
  · exact ⟨h2.1, fun r hr c hc => (lrInv_block h2 (by omega) le_rfl hr hc).symm⟩
  · exact absurd h1 (by omega)

theorem lrPost_fail {A : Nat → Nat → K} {n i : Nat} {F : Nat → Nat → K} (h : LRInv A n i F) (hi : i < n) (hp : F i i = 0) :
    LRPost A n (i + 1) F := .inr ⟨by omega, by omega, h, hp⟩

theorem lrPost_ok {A : Nat → Nat → K} {i : Nat} {F : Nat → Nat → K} (h : LRInv A (i + 1) i F) (hp : F i i ≠ 0) :
    LRPost A (i + 1) 0 F := by
  refine .inl ⟨rfl, fun j hj => ?_, fun r hr c hc => ?_⟩
  · by_cases e : j = i
    · rw [e]; exact hp
    · exact h.1 j (by omega)
  · rw [if_neg (by omega), add_zero]
    exact lrInv_block h le_rfl le_rfl hr hc

theorem lrLoop_tot {a : Mat} {A : Nat → Nat → K} {m : Mem K} {n : Nat} (hr : n ≤ a.rows) (hc : n ≤ a.cols) (s i : Nat)
    (hn : i + s + 1 = n) (m' : Mem K) (F : Nat → Nat → K) (h : MatBecomes a m F m') (hinv : LRInv A n i F) :
    Tot (lrLoop a n s i m') (fun st => ∃ F, MatBecomes a m F st.2 ∧ LRPost A n st.1 F) := by
  classical
  induction s generalizing i m' F with
  | zero =>
    unfold lrLoop
    rw [becomes_read h (show i < a.rows by omega) (show i < a.cols by omega), ok_bind]
    by_cases e : F i i = 0
    · rw [if_pos e]
      exact Tot.pure ⟨F, h, lrPost_fail hinv (by omega) e⟩
    · rw [if_neg e]
      have : n = i + 1 := by omega
      subst this
      exact Tot.pure ⟨F, h, lrPost_ok hinv e⟩
  | succ s ih =>
    unfold lrLoop
    rw [becomes_read h (show i < a.rows by omega) (show i < a.cols by omega), ok_bind]
    by_cases e : F i i = 0
    · rw [if_pos e]
      exact Tot.pure ⟨F, h, lrPost_fail hinv (by omega) e⟩
    · rw [if_neg e]
      exact Tot.bind (lrStep_tot h hr hc (by omega)) fun m2 _ h2 => ih (i + 1) (by omega) m2 _ h2 (lrInv_step hinv (by omega) e)

theorem lrdecomp_tot {a : Mat} {m : Mem K} (ha : a.Valid m) (hsq : a.rows = a.cols) (h0 : 0 < a.rows) (hlt : a.rows < 2 ^ 32) :
    Tot (lrdecomp a m) (fun st => ∃ F, MatBecomes a m F st.2 ∧ LRPost (a.val m) a.rows st.1 F) := by
  refine Tot.cassert (by simpa using hsq) ?_
  rw [show (a.rows + (2 ^ 32 - 1)) % 2 ^ 32 = a.rows - 1 by omega]
  exact lrLoop_tot le_rfl (by omega) _ 0 (by omega) m _ (becomes_self ha) (lrInv_init _ _)

end H2.Dense
