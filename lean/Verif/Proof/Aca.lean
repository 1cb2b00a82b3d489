import Verif.Proof.Factor
import Verif.Proof.Rk
import Verif.Spec.Aca
import Mathlib.Logic.Equiv.Basic
import Mathlib.Algebra.Group.End
import Mathlib.Tactic.FieldSimp

/-! # Cross approximation: loops -/

set_option linter.unusedSectionVars false

namespace H2.Aca
open Spec Dense Krylov
variable {𝕜 : Type} [RCLike 𝕜]

theorem valid_becomes {a : Mat} {m : Mem 𝕜} (h : a.Valid m) : MatBecomes a m (a.val m) m :=
  ⟨h, fun _ _ _ _ => rfl, fun _ _ => rfl⟩

theorem swapArr_ok {p : Arr Nat} {k i : Nat} (hk : k < p.n) (hi : i < p.n) :
    swapArr p k i = .ok ⟨p.n, fun x => p.v (Equiv.swap k i x)⟩ := by
  unfold swapArr
  rw [Arr.get_ok hk, ok_bind, Arr.get_ok hi, ok_bind, Arr.set_ok hk, ok_bind, Arr.set_ok (by exact hi)]
  congr 2
  funext x
  by_cases h1 : x = i
  · subst h1; simp
  · by_cases h2 : x = k
    · subst h2; simp [h1]
    · rw [if_neg h1, Equiv.swap_apply_of_ne_of_ne h2 h1]; simp [h2]

theorem swapRows_tot {x : Mat} {m0 m : Mem 𝕜} {F : Nat → Nat → 𝕜} (h : MatBecomes x m0 F m) {n k p : Nat} (hn : n ≤ x.cols)
    (hk : k < x.rows) (hp : p < x.rows) :
    Tot (swapRows x n k p m) (MatBecomes x m0 fun i j => if j < n then F (Equiv.swap k p i) j else F i j) := by
  refine forUp_tot (fun r m => MatBecomes x m0 (fun i j => if j < r then F (Equiv.swap k p i) j else F i j) m) (Nat.zero_le _)
    (becomes_congr h fun i _ j _ => by rw [if_neg (Nat.not_lt_zero _)]) fun r m1 _ hr h1 => ?_
  have hr' : r < x.cols := by omega
  rw [becomes_read h1 hp hr', ok_bind, becomes_read h1 hk hr', ok_bind]
  refine Tot.bind (becomes_write h1 hp hr' _) fun m2 _ h2 => (becomes_write h2 hk hr' _).mono fun m3 h3 =>
    becomes_congr h3 fun i hi j hj => ?_
  simp only [fset, lt_irrefl, if_false]
  by_cases ej : j = r
  · subst ej
    rw [if_pos (show j < j + 1 by omega)]
    by_cases e1 : i = k
    · subst e1; simp
    · by_cases e2 : i = p
      · subst e2; simp [e1]
      · rw [Equiv.swap_apply_of_ne_of_ne e1 e2]; simp [e1, e2]
  · rw [if_neg (fun h => ej h.2), if_neg (fun h => ej h.2)]
    by_cases e : j < r
    · rw [if_pos e, if_pos (by omega)]
    · rw [if_neg e, if_neg (by omega)]

theorem swapCols_tot {x : Mat} {m0 m : Mem 𝕜} {F : Nat → Nat → 𝕜} (h : MatBecomes x m0 F m) {k q : Nat}
    (hk : k < x.cols) (hq : q < x.cols) :
    Tot (swapCols x k q m) (MatBecomes x m0 fun i j => F i (Equiv.swap k q j)) := by
  refine (forUp_tot (fun r m => MatBecomes x m0 (fun i j => if i < r then F i (Equiv.swap k q j) else F i j) m) (Nat.zero_le _)
    (becomes_congr h fun i _ j _ => by rw [if_neg (Nat.not_lt_zero _)]) fun r m1 _ hr h1 => ?_).mono fun m' h' =>
    becomes_congr h' fun i hi j _ => by rw [if_pos hi]
  rw [becomes_read h1 hr hq, ok_bind, becomes_read h1 hr hk, ok_bind]
  refine Tot.bind (becomes_write h1 hr hq _) fun m2 _ h2 => (becomes_write h2 hr hk _).mono fun m3 h3 =>
    becomes_congr h3 fun i hi j hj => ?_
  simp only [fset, lt_irrefl, if_false]
  by_cases ej : i = r
  · subst ej
    rw [if_pos (show i < i + 1 by omega)]
    by_cases e1 : j = k
    · subst e1; simp
    · by_cases e2 : j = q
      · subst e2; simp [e1]
      · rw [Equiv.swap_apply_of_ne_of_ne e1 e2]; simp [e1, e2]
  · rw [if_neg (fun h => ej h.1), if_neg (fun h => ej h.1)]
    by_cases e : i < r
    · rw [if_pos e, if_pos (by omega)]
    · rw [if_neg e, if_neg (by omega)]

theorem elimCross_tot {x : Mat} {m0 m : Mem 𝕜} {F : Nat → Nat → 𝕜} (h : MatBecomes x m0 F m) {k : Nat} (hk : k < x.rows)
    (hk' : k < x.cols) (Aij : 𝕜) :
    Tot (elimCross x k Aij m) (MatBecomes x m0 fun i j => if k < i then (if j = k then F i k * Aij else if k < j then
      F i j - F i k * Aij * F k j else F i j) else F i j) := by
  unfold elimCross
  refine Tot.bind (colLineLoop h hk' (show k + 1 ≤ x.rows by omega) le_rfl (new := fun i => F i k * Aij) fun i h1 h2 m1 G hG hGF => ?_)
    fun m1 _ h1 => ?_
  · rw [becomes_read hG h2 hk', ok_bind, hGF i k (by omega)]
  have : Tot (forUp (k + 1) x.cols (fun j m => forUp (k + 1) x.rows (fun i m => do
      let v ← m.read (x.addr i j)
      let l ← m.read (x.addr i k)
      let u ← m.read (x.addr k j)
      m.write (x.addr i j) (v - l * u)) m) m1) (MatBecomes x m0 fun i j => if k < i then (if j = k then F i k * Aij else
        if k < j ∧ j < x.cols then F i j - F i k * Aij * F k j else F i j) else F i j) := by
    refine forUp_tot (fun r m' => MatBecomes x m0 (fun i j => if k < i then (if j = k then F i k * Aij else
        if k < j ∧ j < r then F i j - F i k * Aij * F k j else F i j) else F i j) m') (by omega)
      (becomes_congr h1 fun i hi j hj => ?_) fun j m2 hj1 hj2 h2 => ?_
    · by_cases e : k < i
      · by_cases e' : j = k
        · rw [if_pos (by omega), if_pos e, if_pos e']
        · rw [if_neg (by omega), if_pos e, if_neg e', if_neg (by omega)]
      · rw [if_neg (by omega), if_neg e]
    · refine (colLineLoop h2 hj2 (show k + 1 ≤ x.rows by omega) le_rfl (new := fun i => F i j - F i k * Aij * F k j)
        fun i hi1 hi2 m3 G hG hGF => ?_).mono fun m3 h3 => becomes_congr h3 fun i hi j' hj' => ?_
      · rw [becomes_read hG hi2 hj2, ok_bind, becomes_read hG hi2 hk', ok_bind, becomes_read hG hk hj2, ok_bind,
          hGF i j (by omega), hGF i k (by omega), hGF k j (by omega)]
        rw [if_pos (show k < i by omega), if_neg (show ¬ j = k by omega), if_neg (show ¬ (k < j ∧ j < j) by omega),
          if_pos (show k < i by omega), if_pos rfl, if_neg (lt_irrefl k)]
      · by_cases e : j' = j ∧ k + 1 ≤ i ∧ i < x.rows
        · rw [if_pos e, if_pos (by omega), if_neg (by omega), if_pos (by omega), e.1]
        · rw [if_neg e]
          by_cases e1 : k < i
          · rw [if_pos e1, if_pos e1]
            by_cases e2 : j' = k
            · rw [if_pos e2, if_pos e2]
            · rw [if_neg e2, if_neg e2]
              by_cases e3 : k < j' ∧ j' < j
              · rw [if_pos e3, if_pos (by omega)]
              · rw [if_neg e3, if_neg (by omega)]
          · rw [if_neg e1, if_neg e1]
  refine this.mono fun m2 h2 => becomes_congr h2 fun i hi j hj => ?_
  by_cases e1 : k < i
  · rw [if_pos e1, if_pos e1]
    by_cases e2 : j = k
    · rw [if_pos e2, if_pos e2]
    · rw [if_neg e2, if_neg e2]
      by_cases e3 : k < j
      · rw [if_pos e3, if_pos (by omega)]
      · rw [if_neg e3, if_neg (by omega)]
  · rw [if_neg e1, if_neg e1]

/-- `(M, i, j)` describes a maximum of the entries of `F` from row and column `k` on -/
def IsMax (F : Nat → Nat → 𝕜) (rows cols k : Nat) (s : ℝ × Nat × Nat) : Prop :=
  0 ≤ s.1 ∧ (∀ i j, k ≤ i → i < rows → k ≤ j → j < cols → RCLike.normSq (F i j) ≤ s.1) ∧
    (0 < s.1 → k ≤ s.2.1 ∧ s.2.1 < rows ∧ k ≤ s.2.2 ∧ s.2.2 < cols ∧ RCLike.normSq (F s.2.1 s.2.2) = s.1)

theorem findMax_tot {x : Mat} {m0 m : Mem 𝕜} {F : Nat → Nat → 𝕜} (h : MatBecomes x m0 F m) {k : Nat} (hk : k ≤ x.rows)
    (hk' : k ≤ x.cols) (imax jmax : Nat) : Tot (findMax x k imax jmax m) (IsMax F x.rows x.cols k) := by
  unfold findMax
  refine (forUp_tot (fun q (s : ℝ × Nat × Nat) => 0 ≤ s.1 ∧ (∀ i j, k ≤ i → i < x.rows → k ≤ j → j < q → RCLike.normSq (F i j) ≤ s.1) ∧
    (0 < s.1 → k ≤ s.2.1 ∧ s.2.1 < x.rows ∧ k ≤ s.2.2 ∧ s.2.2 < x.cols ∧ RCLike.normSq (F s.2.1 s.2.2) = s.1)) hk' ?_ ?_).mono fun s hs => hs
  · exact ⟨le_rfl, fun i j _ _ h1 h2 => absurd h1 (by omega), fun h => absurd h (lt_irrefl _)⟩
  · intro j s hj1 hj2 ⟨s0, s1, s2⟩
    refine (forUp_tot (fun p (s : ℝ × Nat × Nat) => 0 ≤ s.1 ∧ (∀ i j', k ≤ i → i < x.rows → k ≤ j' → (j' < j ∨ j' = j ∧ i < p) → RCLike.normSq (F i j') ≤ s.1) ∧
      (0 < s.1 → k ≤ s.2.1 ∧ s.2.1 < x.rows ∧ k ≤ s.2.2 ∧ s.2.2 < x.cols ∧ RCLike.normSq (F s.2.1 s.2.2) = s.1)) hk ?_ ?_).mono ?_
    · exact ⟨s0, fun i j' h1 h2 h3 h4 => s1 i j' h1 h2 h3 (by omega), s2⟩
    · intro i s hi1 hi2 ⟨s0, s1, s2⟩
      rw [becomes_read h hi2 hj2, ok_bind]
      refine Tot.pure ?_
      by_cases e : RCLike.normSq (F i j) > s.1
      · rw [if_pos e]
        refine ⟨RCLike.normSq_nonneg _, fun i' j' h1 h2 h3 h4 => ?_, fun _ => ⟨hi1, hi2, hj1, hj2, rfl⟩⟩
        by_cases e' : i' = i ∧ j' = j
        · rw [e'.1, e'.2]
        · exact (s1 i' j' h1 h2 h3 (by omega)).trans e.le
      · rw [if_neg e]
        refine ⟨s0, fun i' j' h1 h2 h3 h4 => ?_, s2⟩
        by_cases e' : i' = i ∧ j' = j
        · rw [e'.1, e'.2]; exact not_lt.mp e
        · exact s1 i' j' h1 h2 h3 (by omega)
    · intro s ⟨s0, s1, s2⟩
      exact ⟨s0, fun i j' h1 h2 h3 h4 => s1 i j' h1 h2 h3 (by omega), s2⟩

/-! ### permutations -/

/-- the permutation built by the exchanges `(0, f 0), …, (k - 1, f (k - 1))` -/
def perms (f : Nat → Nat) : Nat → Equiv.Perm Nat
  | 0 => 1
  | k + 1 => perms f k * Equiv.swap k (f k)

theorem perms_congr {f g : Nat → Nat} {k : Nat} (h : ∀ l < k, f l = g l) : perms f k = perms g k := by
  induction k with
  | zero => rfl
  | succ k ih => simp only [perms]; rw [ih fun l hl => h l (by omega), h k (by omega)]

theorem swap_lt {k p n : Nat} (hk : k < n) (hp : p < n) (i : Nat) : Equiv.swap k p i < n ↔ i < n := by
  by_cases e1 : i = k
  · subst e1; simp [hk, hp]
  · by_cases e2 : i = p
    · subst e2; simp [hk, hp]
    · rw [Equiv.swap_apply_of_ne_of_ne e1 e2]

theorem perms_lt {f : Nat → Nat} {k n : Nat} (hk : k ≤ n) (h : ∀ l < k, f l < n) (i : Nat) : perms f k i < n ↔ i < n := by
  induction k generalizing i with
  | zero => rfl
  | succ k ih =>
    simp only [perms, Equiv.Perm.mul_apply]
    rw [ih (by omega) fun l hl => h l (by omega), swap_lt (by omega) (h k (by omega))]

theorem perms_inv {f : Nat → Nat} {k n : Nat} (hk : k ≤ n) (h : ∀ l < k, f l < n) {x : Nat} (hx : x < n) :
    ∃ i < n, perms f k i = x := by
  refine ⟨(perms f k)⁻¹ x, ?_, by simp⟩
  rw [← perms_lt hk h]; simpa using hx

/-! ### the crosses -/

/-- the lower triangular factor stored in `F` -/
def lo (F : Nat → Nat → 𝕜) (i l : Nat) : 𝕜 := if i < l then 0 else if i = l then 1 else F i l
/-- the upper triangular factor stored in `F` -/
def up (F : Nat → Nat → 𝕜) (l j : Nat) : 𝕜 := if j < l then 0 else F l j

/-- `F` holds the first `k` crosses of the permuted matrix and the remainder -/
def CrossInv (A0 : Nat → Nat → 𝕜) (rows cols k : Nat) (P Q : Nat → Nat) (F : Nat → Nat → 𝕜) : Prop :=
  ∀ i < rows, ∀ j < cols, A0 (P i) (Q j) = ∑ l ∈ Finset.range k, lo F i l * up F l j + if k ≤ i ∧ k ≤ j then F i j else 0

theorem swap_lt_small {k p l : Nat} (hp : k ≤ p) (hl : l ≤ k) (i : Nat) : Equiv.swap k p i < l ↔ i < l := by
  by_cases e1 : i = k
  · subst e1; rw [Equiv.swap_apply_left]; omega
  · by_cases e2 : i = p
    · subst e2; rw [Equiv.swap_apply_right]; omega
    · rw [Equiv.swap_apply_of_ne_of_ne e1 e2]

theorem swap_small {k p l : Nat} (hp : k ≤ p) (hl : l < k) : Equiv.swap k p l = l :=
  Equiv.swap_apply_of_ne_of_ne (by omega) (by omega)

theorem swap_eq_small {k p l : Nat} (hp : k ≤ p) (hl : l < k) (i : Nat) : Equiv.swap k p i = l ↔ i = l := by
  rw [← Equiv.apply_eq_iff_eq (Equiv.swap k p) (x := i) (y := l), swap_small hp hl]

theorem crossInv_swap {A0 : Nat → Nat → 𝕜} {rows cols k : Nat} {P Q : Nat → Nat} {F : Nat → Nat → 𝕜}
    (h : CrossInv A0 rows cols k P Q F) {p q : Nat} (hp : k ≤ p) (hp' : p < rows) (hq : k ≤ q) (hq' : q < cols) :
    CrossInv A0 rows cols k (fun i => P (Equiv.swap k p i)) (fun j => Q (Equiv.swap k q j))
      (fun i j => F (Equiv.swap k p i) (Equiv.swap k q j)) := by
  intro i hi j hj
  rw [h _ ((swap_lt (by omega) hp' i).mpr hi) _ ((swap_lt (by omega) hq' j).mpr hj)]
  congr 1
  · refine Finset.sum_congr rfl fun l hl => ?_
    rw [Finset.mem_range] at hl
    simp only [lo, up, swap_small hp hl, swap_small hq hl, swap_lt_small hp hl.le, swap_lt_small hq hl.le, swap_eq_small hp hl]
  · have e1 : k ≤ Equiv.swap k p i ↔ k ≤ i := by rw [← not_lt, swap_lt_small hp le_rfl, not_lt]
    have e2 : k ≤ Equiv.swap k q j ↔ k ≤ j := by rw [← not_lt, swap_lt_small hq le_rfl, not_lt]
    simp only [e1, e2]

theorem crossInv_elim {A0 : Nat → Nat → 𝕜} {rows cols k : Nat} {P Q : Nat → Nat} {F : Nat → Nat → 𝕜}
    (h : CrossInv A0 rows cols k P Q F) (hv : F k k ≠ 0) :
    CrossInv A0 rows cols (k + 1) P Q (fun i j => if k < i then (if j = k then F i k * (1 / F k k) else if k < j then
      F i j - F i k * (1 / F k k) * F k j else F i j) else F i j) := by
  intro i hi j hj
  rw [h i hi j hj, Finset.sum_range_succ, add_assoc]
  congr 1
  · refine Finset.sum_congr rfl fun l hl => ?_
    rw [Finset.mem_range] at hl
    have e1 : ¬ l = k := by omega
    have e2 : ¬ k < l := by omega
    simp only [lo, up, e1, e2, if_false, ite_self]
  · simp only [lo, up, lt_irrefl, if_false, if_true]
    rcases Nat.lt_trichotomy i k with hik | hik | hik
    · rw [if_neg (show ¬ (k ≤ i ∧ _) by omega), if_pos hik, if_neg (show ¬ (k + 1 ≤ i ∧ _) by omega)]; ring
    · subst hik
      rw [if_neg (lt_irrefl i), if_pos rfl, one_mul, if_neg (show ¬ (i + 1 ≤ i ∧ _) by omega), add_zero]
      by_cases e : j < i
      · rw [if_pos e, if_neg (by omega)]
      · rw [if_neg e, if_pos (by omega)]
    · rw [if_neg (show ¬ i < k by omega), if_neg (show ¬ i = k by omega)]
      simp only [if_pos hik]
      rcases Nat.lt_trichotomy j k with hjk | hjk | hjk
      · rw [if_neg (show ¬ (k ≤ i ∧ k ≤ j) by omega), if_pos hjk, if_neg (show ¬ (k + 1 ≤ i ∧ k + 1 ≤ j) by omega)]; ring
      · subst hjk
        rw [if_pos (show j ≤ i ∧ j ≤ j by omega), if_neg (lt_irrefl _), if_neg (show ¬ (j + 1 ≤ i ∧ j + 1 ≤ j) by omega), add_zero]
        field_simp
      · rw [if_pos (show k ≤ i ∧ k ≤ j by omega), if_neg (show ¬ j < k by omega), if_pos (show k + 1 ≤ i ∧ k + 1 ≤ j by omega),
          if_neg (show ¬ j = k by omega), if_pos hjk]
        ring

/-- invariant of the main loop of `decomp_fullaca_rkmatrix` -/
structure FInv (a : Mat) (m0 : Mem 𝕜) (F : Nat → Nat → 𝕜) (s : FullSt 𝕜) : Prop where
  mem : MatBecomes a m0 F s.mem
  kr : s.k ≤ a.rows
  kc : s.k ≤ a.cols
  nr : s.rperm.n = min a.rows a.cols
  nc : s.cperm.n = min a.rows a.cols
  nrp : s.rpivot.n = a.rows
  ncp : s.cpivot.n = a.cols
  rlt : ∀ l < s.k, s.rperm.v l < a.rows
  clt : ∀ l < s.k, s.cperm.v l < a.cols
  rp : ∀ i, s.rpivot.v i = perms s.rperm.v s.k i
  cp : ∀ j, s.cpivot.v j = perms s.cperm.v s.k j
  cross : CrossInv (a.val m0) a.rows a.cols s.k s.rpivot.v s.cpivot.v F
  piv : ∀ l < s.k, F l l ≠ 0
  max : IsMax F a.rows a.cols s.k (s.absAij, s.imax, s.jmax)

theorem fullStep_tot {a : Mat} {m0 : Mem 𝕜} {F : Nat → Nat → 𝕜} {s : FullSt 𝕜} (h : FInv a m0 F s) (hk : s.k < min a.rows a.cols)
    (hpos : 0 < s.absAij) : Tot (fullStep a s) fun s' => (∃ F', FInv a m0 F' s') ∧ s'.k = s.k + 1 := by
  obtain ⟨p1, p2, q1, q2, hval⟩ := h.max.2.2 hpos
  simp only at p1 p2 q1 q2 hval
  have hkr : s.k < a.rows := by omega
  have hkc : s.k < a.cols := by omega
  have hv : F s.imax s.jmax ≠ 0 := fun e => by rw [e, map_zero] at hval; exact hpos.ne hval
  unfold fullStep
  rw [becomes_read h.mem p2 q2, ok_bind]
  simp only [cdiv, if_neg hv]
  rw [ok_bind, swapArr_ok (by rw [h.nrp]; exact hkr) (by rw [h.nrp]; exact p2), ok_bind,
    swapArr_ok (by rw [h.ncp]; exact hkc) (by rw [h.ncp]; exact q2), ok_bind, Arr.set_ok (by rw [h.nr]; exact hk), ok_bind,
    Arr.set_ok (by rw [h.nc]; exact hk), ok_bind]
  refine Tot.bind (swapCols_tot h.mem hkc q2) fun m1 _ h1 => Tot.bind (swapRows_tot h1 le_rfl hkr p2) fun m2 _ h2 => ?_
  replace h2 : MatBecomes a m0 (fun i j => F (Equiv.swap s.k s.imax i) (Equiv.swap s.k s.jmax j)) m2 :=
    becomes_congr h2 fun i _ j hj => by rw [if_pos hj]
  obtain ⟨F1, hF1⟩ : ∃ F1 : Nat → Nat → 𝕜, F1 = fun i j => F (Equiv.swap s.k s.imax i) (Equiv.swap s.k s.jmax j) := ⟨_, rfl⟩
  rw [← hF1] at h2
  obtain ⟨F2, hF2⟩ : ∃ F2 : Nat → Nat → 𝕜, F2 = fun i j => if s.k < i then (if j = s.k then F1 i s.k * (1 / F s.imax s.jmax) else
    if s.k < j then F1 i j - F1 i s.k * (1 / F s.imax s.jmax) * F1 s.k j else F1 i j) else F1 i j := ⟨_, rfl⟩
  refine Tot.bind (elimCross_tot h2 hkr hkc _) fun m3 _ h3 => ?_
  rw [← hF2] at h3
  refine Tot.bind (findMax_tot h3 (show s.k + 1 ≤ a.rows from hkr) hkc _ _) fun mx _ h4 => ?_
  refine Tot.pure ⟨⟨F2, ?_⟩, rfl⟩
  have hc := crossInv_swap h.cross p1 p2 q1 q2
  rw [← hF1] at hc
  have hvk : F1 s.k s.k = F s.imax s.jmax := by
    rw [hF1]; simp only [Equiv.swap_apply_left]
  have hc2 := crossInv_elim hc (by rw [hvk]; exact hv)
  rw [hvk, ← hF2] at hc2
  have hr : perms (fun l => if l = s.k then s.imax else s.rperm.v l) s.k = perms s.rperm.v s.k :=
    perms_congr fun l hl => if_neg (by omega)
  have hcq : perms (fun l => if l = s.k then s.jmax else s.cperm.v l) s.k = perms s.cperm.v s.k :=
    perms_congr fun l hl => if_neg (by omega)
  refine ⟨h3, hkr, hkc, h.nr, h.nc, h.nrp, h.ncp, fun l hl => ?_, fun l hl => ?_, fun i => ?_, fun j => ?_, hc2, fun l hl => ?_, h4⟩
  · simp only at hl ⊢
    by_cases e : l = s.k
    · rw [if_pos e]; exact p2
    · rw [if_neg e]; exact h.rlt l (by omega)
  · simp only at hl ⊢
    by_cases e : l = s.k
    · rw [if_pos e]; exact q2
    · rw [if_neg e]; exact h.clt l (by omega)
  · simp only [perms, hr, if_true, Equiv.Perm.mul_apply]; exact h.rp _
  · simp only [perms, hcq, if_true, Equiv.Perm.mul_apply]; exact h.cp _
  · simp only [hF2] at hl ⊢
    rw [if_neg (show ¬ s.k < l by omega)]
    by_cases e : l = s.k
    · rw [e, hvk]; exact hv
    · rw [hF1]
      simp only
      rw [swap_small p1 (by omega), swap_small q1 (by omega)]; exact h.piv l (by omega)

open Classical in
theorem fullLoop_tot {a : Mat} {m0 : Mem 𝕜} {tol : ℝ} (ht : 0 ≤ tol) (n : Nat) {F : Nat → Nat → 𝕜} {s : FullSt 𝕜} (h : FInv a m0 F s)
    (hn : min a.rows a.cols ≤ s.k + n) :
    Tot (whileF (fun s => decide (s.k < min a.rows a.cols ∧ s.absAij > tol)) (fullStep a) n s) fun s' =>
      (∃ F', FInv a m0 F' s') ∧ (s'.k = min a.rows a.cols ∨ s'.absAij ≤ tol) := by
  have done : ∀ {F} {s : FullSt 𝕜}, FInv a m0 F s → ¬ (s.k < min a.rows a.cols ∧ s.absAij > tol) →
      (s.k = min a.rows a.cols ∨ s.absAij ≤ tol) := by
    intro F s h hc
    by_cases e : s.absAij ≤ tol
    · exact .inr e
    · have := h.kr; have := h.kc
      have : ¬ s.k < min a.rows a.cols := fun h' => hc ⟨h', not_le.mp e⟩
      left; omega
  induction n generalizing F s with
  | zero =>
    unfold whileF
    have hc : ¬ (s.k < min a.rows a.cols ∧ s.absAij > tol) := by omega
    rw [if_neg (by simpa using hc)]
    exact ⟨s, rfl, ⟨F, h⟩, done h hc⟩
  | succ n ih =>
    unfold whileF
    by_cases hc : s.k < min a.rows a.cols ∧ s.absAij > tol
    · rw [if_pos (by simpa using hc)]
      refine Tot.bind (fullStep_tot h hc.1 (ht.trans_lt hc.2)) ?_
      rintro s' - ⟨⟨F', h'⟩, hk⟩
      exact ih h' (by omega)
    · rw [if_neg (by simpa using hc)]
      exact ⟨s, rfl, ⟨F, h⟩, done h hc⟩

/-! ### two matrices -/

/-- the matrices `c` and `d` hold `C` and `D`, and nothing else has changed -/
def Both (c d : Mat) (m0 : Mem 𝕜) (C D : Nat → Nat → 𝕜) (m : Mem 𝕜) : Prop :=
  (∀ i < c.rows, ∀ j < c.cols, m (c.addr i j) = some (C i j)) ∧ (∀ i < d.rows, ∀ j < d.cols, m (d.addr i j) = some (D i j)) ∧
    Frame (fun x => c.Cell x ∨ d.Cell x) m0 m

variable {c d : Mat} {m0 m : Mem 𝕜} {C D : Nat → Nat → 𝕜}

theorem Both.symm (h : Both c d m0 C D m) : Both d c m0 D C m := ⟨h.2.1, h.1, fun x hx => h.2.2 x fun h => hx h.symm⟩

theorem Both.congr (h : Both c d m0 C D m) {C' D' : Nat → Nat → 𝕜} (e1 : ∀ i < c.rows, ∀ j < c.cols, C i j = C' i j)
    (e2 : ∀ i < d.rows, ∀ j < d.cols, D i j = D' i j) : Both c d m0 C' D' m :=
  ⟨fun i hi j hj => by rw [h.1 i hi j hj, e1 i hi j hj], fun i hi j hj => by rw [h.2.1 i hi j hj, e2 i hi j hj], h.2.2⟩

theorem Both.becomes (h : Both c d m0 C D m) (hld : c.rows ≤ c.ld) : MatBecomes c m C m :=
  ⟨⟨hld, fun i hi j hj => by rw [h.1 i hi j hj]; rfl⟩, fun i hi j hj => by unfold Mat.val; rw [h.1 i hi j hj]; rfl, fun _ _ => rfl⟩

theorem Both.of_becomes (h : Both c d m0 C D m) (hcd : Disj c.Cell d.Cell) {C' : Nat → Nat → 𝕜} {m' : Mem 𝕜}
    (h' : MatBecomes c m C' m') : Both c d m0 C' D m' := by
  refine ⟨fun i hi j hj => ?_, fun i hi j hj => ?_, fun x hx => ?_⟩
  · rw [h'.1.some hi hj, h'.2.1 i hi j hj]
  · rw [h'.2.2 _ fun hx => hcd _ hx ⟨i, hi, j, hj, rfl⟩, h.2.1 i hi j hj]
  · rw [h'.2.2 x fun h => hx (.inl h), h.2.2 x hx]

theorem Both.readL (h : Both c d m0 C D m) {i j : Nat} (hi : i < c.rows) (hj : j < c.cols) : m.read (c.addr i j) = .ok (C i j) :=
  Mem.read_ok (h.1 i hi j hj)

theorem Both.readR (h : Both c d m0 C D m) {i j : Nat} (hi : i < d.rows) (hj : j < d.cols) : m.read (d.addr i j) = .ok (D i j) :=
  h.symm.readL hi hj

theorem Both.writeL (h : Both c d m0 C D m) (hld : c.rows ≤ c.ld) (hcd : Disj c.Cell d.Cell) {i j : Nat} (hi : i < c.rows) (hj : j < c.cols)
    (x : 𝕜) : Tot (m.write (c.addr i j) x) (Both c d m0 (fset C i j x) D) :=
  (becomes_write (h.becomes hld) hi hj x).mono fun _ h' => h.of_becomes hcd h'

theorem Both.writeR (h : Both c d m0 C D m) (hld : d.rows ≤ d.ld) (hcd : Disj c.Cell d.Cell) {i j : Nat} (hi : i < d.rows) (hj : j < d.cols)
    (x : 𝕜) : Tot (m.write (d.addr i j) x) (Both c d m0 C (fset D i j x)) :=
  (h.symm.writeL hld (fun y h1 h2 => hcd y h2 h1) hi hj x).mono fun _ h' => h'.symm

theorem Both.validL (h : Both c d m0 C D m) (hld : c.rows ≤ c.ld) : c.Valid m := (h.becomes hld).1

theorem swap_fset (F G : Nat → Nat → 𝕜) {k p j : Nat} (i' j' : Nat) (hF : ∀ i, F i j = G i j) :
    fset (fset F k j (G p j)) p j (G k j) i' j' = if j' = j then G (Equiv.swap k p i') j else F i' j' := by
  simp only [fset]
  by_cases ej : j' = j
  · rw [if_pos ej]
    by_cases e2 : i' = p
    · subst e2; simp [ej]
    · by_cases e1 : i' = k
      · subst e1; simp [e2, ej]
      · rw [Equiv.swap_apply_of_ne_of_ne e1 e2]; simp [e1, e2, ej, hF]
  · simp [ej]

/-- `reverse pivot permutations`: afterwards row `P i` holds what row `i` has held -/
theorem reversePerm_tot (hc : c.rows ≤ c.ld) (hd : d.rows ≤ d.ld) (hcd : Disj c.Cell d.Cell) {rperm cperm : Arr Nat} {k : Nat}
    (hkc : k ≤ c.cols) (hkd : k ≤ d.cols) (hkr : k ≤ c.rows) (hks : k ≤ d.rows) (hr : k ≤ rperm.n) (hs : k ≤ cperm.n)
    (rlt : ∀ l < k, rperm.v l < c.rows) (clt : ∀ l < k, cperm.v l < d.rows) (h : Both c d m0 C D m) :
    Tot (reversePerm c d rperm cperm k m) fun m' => ∃ C' D', Both c d m0 C' D' m' ∧
      (∀ i < c.rows, ∀ j < k, C' (perms rperm.v k i) j = C i j) ∧ (∀ i < d.rows, ∀ j < k, D' (perms cperm.v k i) j = D i j) := by
  unfold reversePerm
  refine (forDown_tot (fun l (m' : Mem 𝕜) => l ≤ k ∧ ∃ C' D', Both c d m0 C' D' m' ∧
    (∀ x y, perms rperm.v l y = perms rperm.v k x → ∀ j < k, C' y j = C x j) ∧
    (∀ x y, perms cperm.v l y = perms cperm.v k x → ∀ j < k, D' y j = D x j))
    ⟨le_rfl, C, D, h, fun x y e j _ => by rw [(perms rperm.v k).injective e], fun x y e j _ => by rw [(perms cperm.v k).injective e]⟩ ?_).mono ?_
  · rintro l m1 hl ⟨-, C1, D1, h1, hC, hD⟩
    refine (forUp_tot (fun q (m' : Mem 𝕜) => Both c d m0 (fun i j => if j < q then C1 (Equiv.swap l (rperm.v l) i) j else C1 i j)
      (fun i j => if j < q then D1 (Equiv.swap l (cperm.v l) i) j else D1 i j) m') (Nat.zero_le k)
      (h1.congr (fun _ _ _ _ => by rw [if_neg (Nat.not_lt_zero _)]) (fun _ _ _ _ => by rw [if_neg (Nat.not_lt_zero _)])) ?_).mono ?_
    · intro q m2 _ hq h2
      rw [h2.readL (show l < c.rows by omega) (show q < c.cols by omega), ok_bind, Arr.get_ok (show l < rperm.n by omega), ok_bind,
        h2.readL (rlt l hl) (show q < c.cols by omega), ok_bind]
      refine Tot.bind (h2.writeL hc hcd (show l < c.rows by omega) (show q < c.cols by omega) _) fun m3 _ h3 => ?_
      refine Tot.bind (h3.writeL hc hcd (rlt l hl) (show q < c.cols by omega) _) fun m4 _ h4 => ?_
      rw [h4.readR (show l < d.rows by omega) (show q < d.cols by omega), ok_bind, Arr.get_ok (show l < cperm.n by omega), ok_bind,
        h4.readR (clt l hl) (show q < d.cols by omega), ok_bind]
      refine Tot.bind (h4.writeR hd hcd (show l < d.rows by omega) (show q < d.cols by omega) _) fun m5 _ h5 => ?_
      refine (h5.writeR hd hcd (clt l hl) (show q < d.cols by omega) _).mono fun m6 h6 => h6.congr (fun i _ j _ => ?_) (fun i _ j _ => ?_)
      · simp only [lt_irrefl, if_false]
        rw [swap_fset _ C1 _ _ fun i => by rw [if_neg (lt_irrefl q)]]
        by_cases e : j = q
        · subst e; rw [if_pos rfl, if_pos (by omega)]
        · rw [if_neg e]
          by_cases e' : j < q
          · rw [if_pos e', if_pos (by omega)]
          · rw [if_neg e', if_neg (by omega)]
      · simp only [lt_irrefl, if_false]
        rw [swap_fset _ D1 _ _ fun i => by rw [if_neg (lt_irrefl q)]]
        by_cases e : j = q
        · subst e; rw [if_pos rfl, if_pos (by omega)]
        · rw [if_neg e]
          by_cases e' : j < q
          · rw [if_pos e', if_pos (by omega)]
          · rw [if_neg e', if_neg (by omega)]
    · intro m2 h2
      refine ⟨by omega, _, _, h2, fun x y e j hj => ?_, fun x y e j hj => ?_⟩
      · simp only [if_pos hj]
        exact hC x _ (by simp only [perms, Equiv.Perm.mul_apply, Equiv.swap_apply_self]; exact e) j hj
      · simp only [if_pos hj]
        exact hD x _ (by simp only [perms, Equiv.Perm.mul_apply, Equiv.swap_apply_self]; exact e) j hj
  · rintro m' ⟨-, C', D', h', hC, hD⟩
    exact ⟨C', D', h', fun i _ j hj => hC i _ rfl j hj, fun i _ j hj => hD i _ rfl j hj⟩

theorem copyIdx_tot {p : Arr Nat} {k : Nat} (hk : k ≤ p.n) : Tot (copyIdx p k) fun q => q.n = k ∧ ∀ i < k, q.v i = p.v i := by
  refine forUp_tot (fun r (q : Arr Nat) => q.n = k ∧ ∀ i < r, q.v i = p.v i) (Nat.zero_le _) ⟨rfl, fun i hi => absurd hi (Nat.not_lt_zero _)⟩ ?_
  rintro i q - hi ⟨h1, h2⟩
  rw [Arr.get_ok (show i < p.n by omega), ok_bind, Arr.set_ok (by omega)]
  refine ⟨_, rfl, h1, fun j hj => ?_⟩
  simp only
  by_cases e : j = i
  · rw [if_pos e, e]
  · rw [if_neg e]; exact h2 j (by omega)

theorem copyLowerC_tot {a : Mat} {F : Nat → Nat → 𝕜} {k : Nat} (hA : ∀ i < a.rows, ∀ j < a.cols, m (a.addr i j) = some (F i j))
    (hac : Disj a.Cell c.Cell) (hv : c.Valid m) (hr : c.rows = a.rows) (hk : k ≤ c.cols) (hk' : k ≤ a.cols) (hkr : k ≤ a.rows) :
    Tot (copyLowerC a c k m) (MatBecomes c m fun i j => if j < k then lo F i j else c.val m i j) := by
  refine forUp_tot (fun r m' => MatBecomes c m (fun i j => if j < r then lo F i j else c.val m i j) m') (Nat.zero_le _)
    (becomes_congr (valid_becomes hv) fun i _ j _ => by rw [if_neg (Nat.not_lt_zero _)]) fun j m1 _ hj h1 => ?_
  have hjc : j < c.cols := by omega
  refine Tot.bind (colLineLoop h1 hjc (Nat.zero_le j) (show j ≤ c.rows by omega) (new := fun _ => 0) fun i _ _ m2 G _ _ => rfl) fun m2 _ h2 => ?_
  refine Tot.bind (becomes_write h2 (show j < c.rows by omega) hjc 1) fun m3 _ h3 => ?_
  refine (colLineLoop h3 hjc (show j + 1 ≤ a.rows by omega) (show a.rows ≤ c.rows by omega) (new := fun i => F i j) fun i h4 h5 m4 G hG _ => ?_).mono
    fun m4 h4 => becomes_congr h4 fun i hi j' hj' => ?_
  · rw [becomes_read_cell hG (hA i h5 j (by omega)) (hac _ ⟨i, h5, j, by omega, rfl⟩), ok_bind]
  · simp only [fset, lo]
    by_cases e : j' = j
    · subst e
      rw [if_pos (show j' < j' + 1 by omega)]
      rcases Nat.lt_trichotomy i j' with h | h | h
      · rw [if_neg (by omega), if_neg (by omega), if_pos ⟨rfl, Nat.zero_le _, h⟩, if_pos h]
      · subst h
        rw [if_neg (by omega), if_pos ⟨rfl, rfl⟩, if_neg (lt_irrefl _), if_pos rfl]
      · rw [if_pos ⟨rfl, h, by omega⟩, if_neg (show ¬ i < j' by omega), if_neg (show ¬ i = j' by omega)]
    · rw [if_neg (fun h => e h.1), if_neg (fun h => e h.2), if_neg (fun h => e h.1)]
      by_cases e' : j' < j
      · rw [if_pos e', if_pos (show j' < j + 1 by omega)]
      · rw [if_neg e', if_neg (show ¬ j' < j + 1 by omega)]

theorem copyUpperD_tot {a : Mat} {F : Nat → Nat → 𝕜} {k : Nat} (hA : ∀ i < a.rows, ∀ j < a.cols, m (a.addr i j) = some (F i j))
    (hac : Disj a.Cell d.Cell) (hv : d.Valid m) (hr : d.rows = a.cols) (hk : k ≤ d.cols) (hk' : k ≤ a.rows) (hkr : k ≤ a.cols) :
    Tot (copyUpperD a d k m) (MatBecomes d m fun i j => if j < k then star (up F j i) else d.val m i j) := by
  refine forUp_tot (fun r m' => MatBecomes d m (fun i j => if j < r then star (up F j i) else d.val m i j) m') (Nat.zero_le _)
    (becomes_congr (valid_becomes hv) fun i _ j _ => by rw [if_neg (Nat.not_lt_zero _)]) fun j m1 _ hj h1 => ?_
  have hjc : j < d.cols := by omega
  refine Tot.bind (colLineLoop h1 hjc (Nat.zero_le j) (show j ≤ d.rows by omega) (new := fun _ => 0) fun i _ _ m2 G _ _ => rfl) fun m2 _ h2 => ?_
  refine (colLineLoop h2 hjc (show j ≤ a.cols by omega) (show a.cols ≤ d.rows by omega) (new := fun i => star (F j i)) fun i h4 h5 m4 G hG _ => ?_).mono
    fun m4 h4 => becomes_congr h4 fun i hi j' hj' => ?_
  · rw [becomes_read_cell hG (hA j (by omega) i h5) (hac _ ⟨j, by omega, i, h5, rfl⟩), ok_bind]
  · simp only [up]
    by_cases e : j' = j
    · subst e
      rw [if_pos (show j' < j' + 1 by omega)]
      by_cases h : i < j'
      · rw [if_neg (by omega), if_pos ⟨rfl, Nat.zero_le _, h⟩, if_pos h, star_zero]
      · rw [if_pos ⟨rfl, by omega, by omega⟩, if_neg h]
    · rw [if_neg (fun h => e h.1), if_neg (fun h => e h.1)]
      by_cases e' : j' < j
      · rw [if_pos e', if_pos (show j' < j + 1 by omega)]
      · rw [if_neg e', if_neg (show ¬ j' < j + 1 by omega)]

/-! ### memory management -/

theorem cell_block {b : Mat} (hb : b.rows ≤ b.ld) {x : Nat} (h : b.Cell x) : Block b x := by
  obtain ⟨i, hi, j, hj, rfl⟩ := h
  have h1 : (j + 1) * b.ld ≤ b.cols * b.ld := Nat.mul_le_mul_right _ hj
  rw [Nat.add_mul, Nat.one_mul, Nat.mul_comm b.cols] at h1
  have : j * b.ld + b.rows ≤ b.ld * b.cols := by omega
  refine ⟨by unfold Mat.addr; omega, ?_⟩
  unfold Mat.addr
  generalize j * b.ld = t at *
  generalize b.ld * b.cols = u at *
  omega

theorem owns_valid {b : Mat} {m : Mem 𝕜} (hb : b.rows ≤ b.ld) (h : Owns b m) : b.Valid m :=
  ⟨hb, fun i hi j hj => by obtain ⟨h1, h2⟩ := cell_block hb ⟨i, hi, j, hj, rfl⟩; exact h _ h1 h2⟩

theorem bounded_of_frame {m m' : Mem 𝕜} {S : Nat → Prop} (hm : BoundedMem m) (h : Frame S m m') {N : Nat} (hS : ∀ c, S c → c < N) :
    BoundedMem m' := by
  obtain ⟨M, hM⟩ := hm
  exact ⟨max M N, fun c hc => by rw [h c fun hs => by have := hS c hs; omega]; exact hM c (by omega)⟩

theorem bounded_becomes {a : Mat} {m m' : Mem 𝕜} {F : Nat → Nat → 𝕜} (hm : BoundedMem m) (h : MatBecomes a m F m') : BoundedMem m' :=
  bounded_of_frame hm h.2.2 (N := a.base + a.ld * a.cols) fun _ hc => (cell_block h.1.1 hc).2

theorem bounded_free {m : Mem 𝕜} (hm : BoundedMem m) (p n : Nat) : BoundedMem (m.free p n) := by
  obtain ⟨M, hM⟩ := hm
  exact ⟨M, fun c hc => by simp only [Mem.free]; split; rfl; exact hM c hc⟩

theorem bounded_alloc {m : Mem 𝕜} (hm : BoundedMem m) (p n : Nat) (junk : Nat → 𝕜) : BoundedMem (m.alloc p n junk) := by
  obtain ⟨M, hM⟩ := hm
  exact ⟨max M (p + n), fun c hc => by simp only [Mem.alloc]; rw [if_neg (by omega)]; exact hM c (by omega)⟩

theorem resize_post {al : Alloc 𝕜} (hal : GoodAlloc al) {b : Mat} {m : Mem 𝕜} (hb : b.rows ≤ b.ld) (ho : Owns b m) (hm : BoundedMem m)
    (rows cols : Nat) (junk : Nat → 𝕜) :
    Tot (resize b rows cols (al (m.free b.base (b.ld * b.cols)) (rows * cols)) junk m) fun p =>
      p.1.rows = rows ∧ p.1.cols = cols ∧ p.1.rows ≤ p.1.ld ∧ Owns p.1 p.2 ∧ BoundedMem p.2 ∧
      (∀ c, Block p.1 c → Block b c ∨ m c = none) ∧ ∀ c, ¬ Block b c → ¬ Block p.1 c → p.2 c = m c := by
  unfold resize
  by_cases h : rows ≠ b.rows ∨ cols ≠ b.cols
  · rw [if_pos h]
    have hf := hal _ (bounded_free hm b.base (b.ld * b.cols)) (rows * cols)
    refine Tot.pure ⟨rfl, rfl, le_rfl, fun c h1 h2 => ?_, bounded_alloc (bounded_free hm _ _) _ _ _, fun c hc => ?_, fun c h1 h2 => ?_⟩
    · simp only [Mem.alloc]; rw [if_pos ⟨h1, h2⟩]; rfl
    · have := hf c hc.1 hc.2
      simp only [Mem.free] at this
      by_cases e : b.base ≤ c ∧ c < b.base + b.ld * b.cols
      · exact .inl e
      · rw [if_neg e] at this; exact .inr this
    · have e1 : ¬ (b.base ≤ c ∧ c < b.base + b.ld * b.cols) := h1
      have e2 : ¬ (al (m.free b.base (b.ld * b.cols)) (rows * cols) ≤ c ∧
          c < al (m.free b.base (b.ld * b.cols)) (rows * cols) + rows * cols) := h2
      simp only [Mem.alloc]
      rw [if_neg e2]
      simp only [Mem.free]
      rw [if_neg e1]
  · rw [if_neg h]
    push Not at h
    exact Tot.pure ⟨h.1.symm, h.2.symm, hb, ho, hm, fun c hc => .inl hc, fun c _ _ => rfl⟩

theorem resizeRk_tot {al : Alloc 𝕜} (hal : GoodAlloc al) (junk : Nat → 𝕜) {r : Rk} {m : Mem 𝕜} (hr : RkOwns r m) (hm : BoundedMem m)
    (rows cols k : Nat) {S : Nat → Prop} (hS : ∀ c, S c → (m c).isSome ∧ ¬ Block r.A c ∧ ¬ Block r.B c) :
    Tot (resizeRk al junk r rows cols k m) fun p => p.1.A.rows = rows ∧ p.1.B.rows = cols ∧ p.1.A.cols = k ∧ p.1.B.cols = k ∧ p.1.k = k ∧
      RkOwns p.1 p.2 ∧ BoundedMem p.2 ∧ (∀ c, S c → ¬ Block p.1.A c ∧ ¬ Block p.1.B c) ∧
      ∀ c, ¬ Block r.A c → ¬ Block r.B c → ¬ Block p.1.A c → ¬ Block p.1.B c → p.2 c = m c := by
  unfold resizeRk
  refine Tot.bind (resize_post hal hr.la hr.oa hm rows k junk) ?_
  rintro ⟨A, m1⟩ - ⟨h1, h2, h3, h4, h5, h6, h7⟩
  simp only at h1 h2 h3 h4 h5 h6 h7 ⊢
  have hAB : ∀ c, Block r.B c → ¬ Block A c := fun c hc hA => by
    rcases h6 c hA with h | h
    · exact hr.disj c h hc
    · have := hr.ob c hc.1 hc.2; rw [h] at this; cases this
  have ob1 : Owns r.B m1 := fun c c1 c2 => by
    rw [h7 c (fun h => hr.disj c h ⟨c1, c2⟩) (hAB c ⟨c1, c2⟩)]; exact hr.ob c c1 c2
  refine Tot.bind (resize_post hal hr.lb ob1 h5 cols k junk) ?_
  rintro ⟨B, m2⟩ - ⟨g1, g2, g3, g4, g5, g6, g7⟩
  simp only at g1 g2 g3 g4 g5 g6 g7 ⊢
  have hBA : ∀ c, Block A c → ¬ Block B c := fun c hA hB => by
    rcases g6 c hB with h | h
    · exact hAB c h hA
    · have := h4 c hA.1 hA.2; rw [h] at this; cases this
  refine Tot.pure ⟨h1, g1, h2, g2, rfl, ⟨h3, g3, fun c c1 c2 => ?_, g4, hBA⟩, g5, fun c hc => ?_, fun c c1 c2 c3 c4 => ?_⟩
  · show (m2 c).isSome
    rw [g7 c (fun h => hAB c h ⟨c1, c2⟩) (hBA c ⟨c1, c2⟩)]; exact h4 c c1 c2
  · obtain ⟨s1, s2, s3⟩ := hS c hc
    have hA : ¬ Block A c := fun h => by
      rcases h6 c h with h | h
      · exact s2 h
      · rw [h] at s1; cases s1
    refine ⟨hA, fun h => ?_⟩
    rcases g6 c h with h | h
    · exact s3 h
    · rw [h7 c s2 hA] at h; rw [h] at s1; cases s1
  · show m2 c = m c
    rw [g7 c c2 c4, h7 c c1 c3]

end H2.Aca
