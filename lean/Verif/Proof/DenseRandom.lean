import Verif.Proof.DenseSim
import Verif.Model.DenseRandom
import Mathlib.LinearAlgebra.Matrix.Gershgorin
import Mathlib.Analysis.Matrix.PosDef

set_option linter.unusedSectionVars false

namespace H2.Dense
open Spec
open scoped ComplexOrder
variable {𝕜 : Type} [RCLike 𝕜]

theorem realSumLoop {hi : Nat} {body : Nat → ℝ → R ℝ} {t : Nat → ℝ}
    (hb : ∀ k < hi, ∀ s, body k s = .ok (s + t k)) : forUp 0 hi body 0 = .ok (∑ k ∈ Finset.range hi, t k) := by
  have := sumLoop (K := ℝ) (body := body) (t := t) (Nat.zero_le hi) (fun k _ h s => hb k h s) 0
  rw [this, zero_add, Finset.range_eq_Ico]

theorem dominate_tot {a : Mat} {m0 m : Mem 𝕜} {F : Nat → Nat → 𝕜} (h : MatBecomes a m0 F m) (hsq : a.rows = a.cols)
    (alpha : ℝ) :
    Tot (dominate a alpha m) (MatBecomes a m0 (fun i j => if i = j then
      ((∑ k ∈ Finset.range a.rows, ‖F k j‖ + alpha : ℝ) : 𝕜) else F i j)) := by
  unfold dominate
  refine (forUp_tot (fun r (m : Mem 𝕜) => MatBecomes a m0 (fun i j => if i = j ∧ j < r then
      ((∑ k ∈ Finset.range a.rows, ‖F k j‖ + alpha : ℝ) : 𝕜) else F i j) m) (Nat.zero_le _) ?_ ?_).mono ?_
  · simpa using h
  · intro j m' _ hj hm'
    rw [realSumLoop (t := fun i => ‖F i j‖), ok_bind]
    · refine (becomes_write hm' hj (hsq ▸ hj) _).mono fun m'' h'' => becomes_congr h'' fun i hi j' hj' => ?_
      simp only [fset]
      by_cases e : i = j ∧ j' = j
      · rw [if_pos e, if_pos (by omega), e.2]
      · rw [if_neg e]
        by_cases e' : i = j' ∧ j' < j
        · rw [if_pos e', if_pos (by omega)]
        · rw [if_neg e', if_neg (by omega)]
    · intro i hi s
      rw [becomes_read hm' hi (hsq ▸ hj), ok_bind, if_neg (by omega)]
      rfl
  · intro m' hm'
    refine becomes_congr hm' fun i hi j hj => ?_
    by_cases e : i = j
    · rw [if_pos e, if_pos (by omega)]
    · rw [if_neg e, if_neg (by omega)]

theorem random_tot {a : Mat} {m : Mem 𝕜} (ha : a.Valid m) (rnd : Nat → Nat → 𝕜) :
    Tot (random a rnd m) (MatBecomes a m rnd) := by
  refine (colLoop ha (lo := fun _ => 0) (hi := fun _ => a.rows) (G := rnd) le_rfl (fun _ _ => le_rfl)
    (fun _ _ => Nat.zero_le _) fun j hj i _ hi m' _ h => Mem.write_ok h).mono fun m' h =>
    becomes_congr h fun i hi j hj => by simp [hi, hj]

theorem randomInvertible_tot {a : Mat} {m : Mem 𝕜} (ha : a.Valid m) (hsq : a.rows = a.cols) (alpha : ℝ)
    (rnd : Nat → Nat → 𝕜) :
    Tot (randomInvertible a alpha rnd m) (MatBecomes a m (fun i j => if i = j then
      ((∑ k ∈ Finset.range a.rows, ‖if k = j then (0 : 𝕜) else rnd k j‖ + alpha : ℝ) : 𝕜) else rnd i j)) := by
  unfold randomInvertible
  refine Tot.cassert (by simpa using hsq) ?_
  refine Tot.bind (P := MatBecomes a m fun i j => if i = j then 0 else rnd i j) ?_ ?_
  · refine (forUp_tot (fun r (m' : Mem 𝕜) => MatBecomes a m (fun i j => if j < r then (if i = j then 0 else rnd i j)
      else a.val m i j) m') (Nat.zero_le _) ?_ ?_).mono ?_
    · simpa using becomes_self ha
    · intro j m1 _ hj h1
      refine Tot.bind (P := MatBecomes a m (fun i j' => if j' = j then rnd i j' else
          if j' < j then (if i = j' then 0 else rnd i j') else a.val m i j')) ?_ ?_
      · refine (forUp_tot (fun s (m' : Mem 𝕜) => MatBecomes a m (fun i j' => if j' = j ∧ i < s then rnd i j' else
          if j' < j then (if i = j' then 0 else rnd i j') else a.val m i j') m') (Nat.zero_le _) ?_ ?_).mono ?_
        · simpa using h1
        · intro i m2 _ hi h2
          refine (becomes_write h2 hi (hsq ▸ hj) _).mono fun m3 h3 => becomes_congr h3 fun i' hi' j' hj' => ?_
          simp only [fset]
          by_cases e : i' = i ∧ j' = j
          · rw [if_pos e, if_pos (by omega), e.1, e.2]
          · rw [if_neg e]
            by_cases e' : j' = j ∧ i' < i
            · rw [if_pos e', if_pos (by omega)]
            · rw [if_neg e', if_neg (c := j' = j ∧ i' < i + 1) (by omega)]
        · intro m2 h2
          refine becomes_congr h2 fun i hi j' hj' => ?_
          simp [hi]
      · intro m2 _ h2
        refine (becomes_write h2 hj (hsq ▸ hj) _).mono fun m3 h3 => becomes_congr h3 fun i' hi' j' hj' => ?_
        simp only [fset]
        by_cases e : i' = j ∧ j' = j
        · rw [if_pos e, if_pos (by omega), if_pos (by omega)]
        · rw [if_neg e]
          by_cases e' : j' = j
          · rw [if_pos e', if_pos (by omega), if_neg (by omega)]
          · rw [if_neg e']
            by_cases e2 : j' < j
            · rw [if_pos e2, if_pos (c := j' < j + 1) (by omega)]
            · rw [if_neg e2, if_neg (by omega)]
    · intro m1 h1
      refine becomes_congr h1 fun i hi j hj => ?_
      rw [if_pos (by omega)]
  · intro m1 _ h1
    refine (dominate_tot h1 hsq alpha).mono fun m2 h2 => becomes_congr h2 fun i hi j hj => ?_
    split
    · rfl
    · rfl

/-- entries of a matrix built by `mirror` -/
def herm (rnd : Nat → Nat → 𝕜) (d : Nat → 𝕜) (i j : Nat) : 𝕜 :=
  if i < j then rnd i j else if j < i then star (rnd j i) else d j

theorem mirror_tot {a : Mat} {m0 m : Mem 𝕜} {F : Nat → Nat → 𝕜} (h : MatBecomes a m0 F m) (hsq : a.rows = a.cols)
    (rnd : Nat → Nat → 𝕜) {j : Nat} (hj : j < a.rows) :
    Tot (mirror a rnd j m) (MatBecomes a m0 (fun i' j' => if j' = j ∧ i' < j then rnd i' j else
      if i' = j ∧ j' < j then star (rnd j' j) else F i' j')) := by
  unfold mirror
  refine (forUp_tot (fun s (m' : Mem 𝕜) => MatBecomes a m0 (fun i' j' => if j' = j ∧ i' < s then rnd i' j else
      if i' = j ∧ j' < s then star (rnd j' j) else F i' j') m') (Nat.zero_le _) ?_ ?_)
  · simpa using h
  · intro i m1 _ hi h1
    refine Tot.bind (becomes_write h1 (show i < a.rows by omega) (hsq ▸ hj) (rnd i j)) fun m2 _ h2 => ?_
    rw [becomes_read h2 (by omega) (hsq ▸ hj), ok_bind, fset_same]
    refine (becomes_write h2 hj (show i < a.cols by omega) _).mono fun m3 h3 => becomes_congr h3 fun i' hi' j' hj' => ?_
    simp only [fset]
    by_cases e1 : i' = j ∧ j' = i
    · rw [if_pos e1, if_neg (by omega), if_pos (by omega), e1.2]
    · rw [if_neg e1]
      by_cases e2 : i' = i ∧ j' = j
      · rw [if_pos e2, if_pos (by omega), e2.1]
      · rw [if_neg e2]
        by_cases e3 : j' = j ∧ i' < i
        · rw [if_pos e3, if_pos (by omega)]
        · rw [if_neg e3, if_neg (c := j' = j ∧ i' < i + 1) (by omega)]
          by_cases e4 : i' = j ∧ j' < i
          · rw [if_pos e4, if_pos (by omega)]
          · rw [if_neg e4, if_neg (by omega)]

theorem mirrorLoop_tot {a : Mat} {m : Mem 𝕜} (ha : a.Valid m) (hsq : a.rows = a.cols) (rnd : Nat → Nat → 𝕜)
    (d : Nat → 𝕜) :
    Tot (forUp 0 a.rows (fun j m => do
        let m ← mirror a rnd j m
        m.write (a.addr j j) (d j)) m) (MatBecomes a m (herm rnd d)) := by
  refine (forUp_tot (fun r (m' : Mem 𝕜) => MatBecomes a m (fun i j => if i < r ∧ j < r then herm rnd d i j
      else a.val m i j) m') (Nat.zero_le _) ?_ ?_).mono ?_
  · simpa using becomes_self ha
  · intro j m1 _ hj h1
    refine Tot.bind (mirror_tot h1 hsq rnd hj) fun m2 _ h2 => ?_
    refine (becomes_write h2 hj (hsq ▸ hj) _).mono fun m3 h3 => becomes_congr h3 fun i' hi' j' hj' => ?_
    simp only [fset, herm]
    by_cases e1 : i' = j ∧ j' = j
    · obtain ⟨rfl, rfl⟩ := e1
      simp
    · rw [if_neg e1]
      by_cases e2 : j' = j ∧ i' < j
      · obtain ⟨rfl, h⟩ := e2
        simp [h, show i' < j' + 1 by omega]
      · rw [if_neg e2]
        by_cases e3 : i' = j ∧ j' < j
        · obtain ⟨rfl, h⟩ := e3
          simp [h, show j' < i' + 1 by omega, show ¬ i' < j' by omega]
        · rw [if_neg e3]
          by_cases e4 : i' < j ∧ j' < j
          · rw [if_pos e4, if_pos (c := i' < j + 1 ∧ j' < j + 1) (by omega)]
          · rw [if_neg e4, if_neg (by omega)]
  · intro m1 h1
    refine becomes_congr h1 fun i hi j hj => ?_
    rw [if_pos (by omega)]

theorem randomSelfadjoint_tot {a : Mat} {m : Mem 𝕜} (ha : a.Valid m) (hsq : a.rows = a.cols) (rnd : Nat → Nat → 𝕜)
    (rrnd : Nat → ℝ) :
    Tot (randomSelfadjoint a rnd rrnd m) (MatBecomes a m (herm rnd fun j => (rrnd j : 𝕜))) :=
  Tot.cassert (by simpa using hsq) (mirrorLoop_tot ha hsq rnd fun j => (rrnd j : 𝕜))

theorem randomSpd_tot {a : Mat} {m : Mem 𝕜} (ha : a.Valid m) (hsq : a.rows = a.cols) (alpha : ℝ)
    (rnd : Nat → Nat → 𝕜) :
    Tot (randomSpd a alpha rnd m) (MatBecomes a m (herm rnd fun j =>
      ((∑ k ∈ Finset.range a.rows, ‖herm rnd (fun _ => 0) k j‖ + alpha : ℝ) : 𝕜))) := by
  refine Tot.cassert (by simpa using hsq) (Tot.bind (mirrorLoop_tot ha hsq rnd fun _ => 0) fun m1 _ h1 => ?_)
  refine (dominate_tot h1 hsq alpha).mono fun m2 h2 => becomes_congr h2 fun i hi j hj => ?_
  unfold herm
  rcases lt_trichotomy i j with h | h | h
  · rw [if_neg (by omega), if_pos h, if_pos h]
  · subst h; simp
  · rw [if_neg (by omega), if_neg (by omega), if_pos h, if_neg (by omega), if_pos h]

/-! ### consequences -/

/-- the square matrix held by `a` -/
def sqMatrix (a : Mat) (m : Mem 𝕜) : Matrix (Fin a.rows) (Fin a.rows) 𝕜 := fun i j => a.val m i j

theorem colsum_erase (n : Nat) (f : Nat → ℝ) (k : Fin n) :
    ∑ i ∈ Finset.univ.erase k, f i = ∑ i ∈ Finset.range n, if i = (k : Nat) then 0 else f i := by
  rw [← Fin.sum_univ_eq_sum_range (fun i => if i = (k : Nat) then 0 else f i) n]
  rw [← Finset.sum_erase_add _ _ (Finset.mem_univ k)]
  simp only [if_true, add_zero]
  refine Finset.sum_congr rfl fun i hi => ?_
  rw [if_neg]
  intro e
  exact (Finset.mem_erase.mp hi).1 (Fin.ext e)

theorem det_ne_zero_of_dominate {n : Nat} {A : Matrix (Fin n) (Fin n) 𝕜} {alpha : ℝ} (hα : 0 < alpha)
    (hd : ∀ k, ‖A k k‖ = ∑ i ∈ Finset.univ.erase k, ‖A i k‖ + alpha) : A.det ≠ 0 := by
  refine det_ne_zero_of_sum_col_lt_diag fun k => ?_
  rw [hd k]; linarith

theorem posDef_of_dominate {n : Nat} {A : Matrix (Fin n) (Fin n) 𝕜} (hA : A.IsHermitian) {alpha : ℝ} (hα : 0 < alpha)
    (hd : ∀ k, A k k = ((∑ i ∈ Finset.univ.erase k, ‖A i k‖ + alpha : ℝ) : 𝕜)) : A.PosDef := by
  rw [hA.posDef_iff_eigenvalues_pos]
  intro i
  have hev : Module.End.HasEigenvalue (Matrix.toLin' A) ((hA.eigenvalues i : ℝ) : 𝕜) := by
    refine Module.End.hasEigenvalue_of_hasEigenvector (x := (hA.eigenvectorBasis i).ofLp) ⟨?_, ?_⟩
    · rw [Module.End.mem_eigenspace_iff, Matrix.toLin'_apply, hA.mulVec_eigenvectorBasis]
      ext j
      simp [RCLike.real_smul_eq_coe_mul]
    · intro h
      have h1 : hA.eigenvectorBasis i = 0 := by
        ext j
        simpa using congrFun h j
      exact hA.eigenvectorBasis.orthonormal.ne_zero i h1
  obtain ⟨k, hk⟩ := eigenvalue_mem_ball hev
  rw [mem_closedBall_iff_norm, hd k] at hk
  have e : ∑ j ∈ Finset.univ.erase k, ‖A k j‖ = ∑ i ∈ Finset.univ.erase k, ‖A i k‖ := by
    refine Finset.sum_congr rfl fun j _ => ?_
    rw [← hA.apply k j, norm_star]
  rw [e, ← RCLike.ofReal_sub, RCLike.norm_ofReal] at hk
  have := neg_abs_le (hA.eigenvalues i - (∑ i ∈ Finset.univ.erase k, ‖A i k‖ + alpha))
  linarith

end H2.Dense
