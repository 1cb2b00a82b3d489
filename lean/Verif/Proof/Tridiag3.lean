import Verif.Proof.Tridiag2

set_option linter.unusedSectionVars false

/-! The invariant of the tridiagonalization (C72). -/

namespace H2.Eig
open Spec Krylov Matrix
open scoped Matrix.Norms.L2Operator
variable {𝕜 : Type} [RCLike 𝕜]

/-- matrix with the given entries -/
def toK (n : Nat) (f : Nat → Nat → 𝕜) : Matrix (Fin n) (Fin n) 𝕜 := fun i j => f i j

/-- the Householder reflection -/
def Hm (n : Nat) (beta : 𝕜) (v : Nat → 𝕜) : Matrix (Fin n) (Fin n) 𝕜 := fun i j => (if i = j then 1 else 0) - beta * v i * star (v j)

theorem Hm_mul {n : Nat} (beta : 𝕜) (v : Nat → 𝕜) (f : Nat → Nat → 𝕜) :
    Hm n beta v * toK n f = toK n fun i j => f i j - beta * (∑ b ∈ Finset.range n, star (v b) * f b j) * v i := by
  ext i j
  rw [Matrix.mul_apply]
  unfold Hm toK
  simp only [sub_mul, ite_mul, one_mul, zero_mul]
  rw [Finset.sum_sub_distrib, Finset.sum_ite_eq Finset.univ i, if_pos (Finset.mem_univ _), Finset.sum_range]
  congr 1
  rw [Finset.mul_sum, Finset.sum_mul]
  refine Finset.sum_congr rfl fun b _ => ?_
  ring

theorem mul_Hm {n : Nat} (beta : 𝕜) (v : Nat → 𝕜) (f : Nat → Nat → 𝕜) :
    toK n f * Hm n beta v = toK n fun i j => f i j - beta * (∑ b ∈ Finset.range n, v b * f i b) * star (v j) := by
  ext i j
  rw [Matrix.mul_apply]
  unfold Hm toK
  simp only [mul_sub, mul_ite, mul_one, mul_zero]
  rw [Finset.sum_sub_distrib, Finset.sum_ite_eq' Finset.univ j, if_pos (Finset.mem_univ _), Finset.sum_range]
  congr 1
  rw [Finset.mul_sum, Finset.sum_mul]
  refine Finset.sum_congr rfl fun b _ => ?_
  ring

theorem Hm_adj {n : Nat} {beta : 𝕜} (h : star beta = beta) (v : Nat → 𝕜) : (Hm n beta v)ᴴ = Hm n beta v := by
  ext i j
  rw [Matrix.conjTranspose_apply]
  unfold Hm
  rw [star_sub, star_mul', star_mul', star_star, h]
  congr 1
  · by_cases e : i = j
    · rw [if_pos e, if_pos e.symm, star_one]
    · rw [if_neg e, if_neg (fun h => e h.symm), star_zero]
  · ring

theorem Hm_unit {n : Nat} {beta : 𝕜} {v : Nat → 𝕜} (h : beta * ∑ i ∈ Finset.range n, star (v i) * v i = 2) : Hm n beta v * Hm n beta v = 1 := by
  have e : Hm n beta v = toK n fun i j => (if i = j then 1 else 0) - beta * v i * star (v j) := by
    ext i j
    unfold Hm toK
    beta_reduce
    by_cases h : i = j
    · rw [if_pos h, if_pos (congrArg Fin.val h)]
    · rw [if_neg h, if_neg (fun x => h (Fin.ext x))]
  nth_rw 2 [e]
  rw [Hm_mul]
  ext i j
  unfold toK
  simp only
  have hs : ∑ b ∈ Finset.range n, star (v b) * ((if b = j.1 then 1 else 0) - beta * v b * star (v j)) = star (v j) - beta * (∑ b ∈ Finset.range n, star (v b) * v b) * star (v j) := by
    simp only [mul_sub, mul_ite, mul_one, mul_zero]
    rw [Finset.sum_sub_distrib, Finset.sum_ite_eq' (Finset.range n) j.1, if_pos (Finset.mem_range.mpr j.2), Finset.mul_sum, Finset.sum_mul]
    congr 1
    refine Finset.sum_congr rfl fun b _ => ?_
    ring
  rw [hs, h, Matrix.one_apply]
  have : (if i.1 = j.1 then (1 : 𝕜) else 0) = if i = j then 1 else 0 := if_congr Fin.ext_iff.symm rfl rfl
  rw [this]
  ring

/-- the diagonal scaling of one index -/
def Sm (n p : Nat) (D : 𝕜) : Matrix (Fin n) (Fin n) 𝕜 := Matrix.diagonal fun i => if i.1 = p then D else 1

theorem Sm_unit {n p : Nat} {D : 𝕜} (h : ‖D‖ = 1) : Sm n p D * (Sm n p D)ᴴ = 1 := by
  unfold Sm
  rw [Matrix.diagonal_conjTranspose, Matrix.diagonal_mul_diagonal, ← Matrix.diagonal_one]
  congr 1
  funext i
  simp only [Pi.star_apply]
  split_ifs
  · exact unit_star' h
  · simp

theorem Sm_conj {n p : Nat} (D : 𝕜) (f : Nat → Nat → 𝕜) :
    (Sm n p D)ᴴ * toK n f * Sm n p D = toK n fun i j => star (if i = p then D else 1) * f i j * (if j = p then D else 1) := by
  ext i j
  unfold Sm
  rw [Matrix.diagonal_conjTranspose, Matrix.mul_diagonal, Matrix.diagonal_mul]
  rfl

theorem mul_Sm {n p : Nat} (D : 𝕜) (f : Nat → Nat → 𝕜) : toK n f * Sm n p D = toK n fun i j => f i j * (if j = p then D else 1) := by
  ext i j
  unfold Sm
  rw [Matrix.mul_diagonal]
  rfl

theorem toK_congr {n : Nat} {f g : Nat → Nat → 𝕜} (h : ∀ i j, i < n → j < n → f i j = g i j) : toK n f = toK n g := by
  ext i j
  exact h i j i.2 j.2

/-- a matrix with one non-zero column -/
theorem col_norm {n k : Nat} (hk : k < n) (x : Nat → 𝕜) {s : ℝ} (hs : ∑ i ∈ Finset.range n, ‖x i‖ ^ 2 ≤ s) :
    ‖toK n fun i j => if j = k then x i else 0‖ ≤ √s := by
  have e : (toK n fun i j => if j = k then x i else 0)ᴴ * (toK n fun i j => if j = k then x i else 0)
      = Matrix.diagonal fun i : Fin n => if i.1 = k then ((∑ i ∈ Finset.range n, ‖x i‖ ^ 2 : ℝ) : 𝕜) else 0 := by
    ext i j
    rw [Matrix.mul_apply, Matrix.diagonal_apply]
    simp only [Matrix.conjTranspose_apply]
    unfold toK
    beta_reduce
    by_cases hi : i.1 = k
    · by_cases hj : j.1 = k
      · rw [if_pos (Fin.ext (hi.trans hj.symm)), if_pos hi, Finset.sum_range]
        rw [RCLike.ofReal_sum]
        refine Finset.sum_congr rfl fun b _ => ?_
        rw [if_pos hi, if_pos hj]
        have := RCLike.conj_mul (x b)
        rw [RCLike.star_def, this]; push_cast; rfl
      · rw [if_neg (fun h => hj (by rw [← h]; exact hi))]
        refine Finset.sum_eq_zero fun b _ => ?_
        rw [if_neg hj, mul_zero]
    · have : (if i = j then (if i.1 = k then ((∑ i ∈ Finset.range n, ‖x i‖ ^ 2 : ℝ) : 𝕜) else 0) else 0) = 0 := by
        rw [if_neg hi]; split_ifs <;> rfl
      rw [this]
      refine Finset.sum_eq_zero fun b _ => ?_
      rw [if_neg hi, star_zero, zero_mul]
  have h := Matrix.l2_opNorm_conjTranspose_mul_self (toK n fun i j => if j = k then x i else 0)
  rw [e, Matrix.l2_opNorm_diagonal] at h
  have h2 : ‖fun i : Fin n => if i.1 = k then ((∑ i ∈ Finset.range n, ‖x i‖ ^ 2 : ℝ) : 𝕜) else 0‖ ≤ s := by
    have h0 : 0 ≤ ∑ i ∈ Finset.range n, ‖x i‖ ^ 2 := Finset.sum_nonneg fun _ _ => sq_nonneg _
    refine (pi_norm_le_iff_of_nonneg (h0.trans hs)).mpr fun i => ?_
    split_ifs
    · rw [RCLike.norm_ofReal, abs_of_nonneg h0]; exact hs
    · rw [norm_zero]; exact h0.trans hs
  rw [h] at h2
  exact Real.le_sqrt_of_sq_le (by rw [sq]; exact h2)

/-- one vanishing column -/
theorem td_skip {n k : Nat} {D : 𝕜} {w w' : Nat → 𝕜} {d d' l l' : Nat → ℝ} {a : Nat → Nat → 𝕜} (hk : k + 1 < n) (hD : ‖D‖ = 1)
    (hd : ∀ i < k, d' i = d i) (hdk : (d' k : 𝕜) = a k k) (hl : ∀ i < k, l' i = l i) (hlk : l' k = 0) (hw : ∀ i < k, w' i = w i)
    {s : ℝ} (hs : ∑ i ∈ Finset.Ico (k + 1) n, ‖a i k‖ ^ 2 ≤ s) :
    ‖toK n (tdM (k + 1) 1 w' d' l' a) - toK n (tdM k D w d l a)‖ ≤ 2 * √s := by
  obtain ⟨C, hC⟩ : ∃ C : Matrix (Fin n) (Fin n) 𝕜, C = toK n fun i j => if j = k then (if k < i then -(a i k * D) else 0) else 0 := ⟨_, rfl⟩
  have e : toK n (tdM (k + 1) 1 w' d' l' a) - toK n (tdM k D w d l a) = C + Cᴴ := by
    have low : ∀ i j, j < i → tdLow (k + 1) 1 w' l' a i j - tdLow k D w l a i j = (if j = k then (if k < i then -(a i k * D) else 0) else 0) := by
      intro i j hij
      unfold tdLow
      by_cases c1 : j < k
      · rw [if_pos (show j < k + 1 by omega), if_pos c1, if_neg (show j ≠ k by omega), hw j c1, hl j c1, sub_self]
      · by_cases c2 : j = k
        · rw [c2, if_pos (show k < k + 1 by omega), if_neg (show ¬ k < k by omega), if_pos rfl, if_pos rfl, if_pos (show k < i by omega), hlk]
          split_ifs <;> simp
        · rw [if_neg (show ¬ j < k + 1 by omega), if_neg c1, if_neg c2, if_neg c2, mul_one]
          split_ifs <;> simp
    ext i j
    rw [Matrix.sub_apply, Matrix.add_apply, Matrix.conjTranspose_apply, hC]
    unfold toK tdM
    beta_reduce
    by_cases c1 : i.1 = j.1
    · rw [if_pos c1, if_pos c1, c1]
      have z : (if j.1 = k then (if k < j.1 then -(a j k * D) else 0) else 0 : 𝕜) = 0 := by
        split_ifs <;> first | rfl | omega
      rw [z, star_zero, add_zero]
      by_cases c2 : j.1 < k
      · rw [if_pos (by omega), if_pos c2, hd _ c2, sub_self]
      · rw [if_neg c2]
        by_cases c3 : j.1 = k
        · rw [if_pos (by omega), c3, hdk, sub_self]
        · rw [if_neg (by omega), sub_self]
    · rw [if_neg c1, if_neg c1]
      by_cases c2 : j.1 < i.1
      · rw [if_pos c2, if_pos c2, low i j c2]
        have z : (if i.1 = k then (if k < j.1 then -(a j k * D) else 0) else 0 : 𝕜) = 0 := by
          split_ifs <;> first | rfl | omega
        rw [z, star_zero, add_zero]
      · rw [if_neg c2, if_neg c2, ← star_sub, low j i (by omega)]
        have z : (if j.1 = k then (if k < i.1 then -(a i k * D) else 0) else 0 : 𝕜) = 0 := by
          split_ifs <;> first | rfl | omega
        rw [z, zero_add]
  have hn : ‖C‖ ≤ √s := by
    rw [hC]
    refine col_norm (by omega) (fun i => if k < i then -(a i k * D) else 0) (le_trans (le_of_eq ?_) hs)
    rw [Finset.range_eq_Ico, ← Finset.sum_Ico_consecutive _ (Nat.zero_le (k + 1)) hk.le, Finset.sum_eq_zero, zero_add]
    · refine Finset.sum_congr rfl fun i hi => ?_
      rw [Finset.mem_Ico] at hi
      rw [if_pos (by omega), norm_neg, norm_mul, hD, mul_one]
    · intro i hi
      rw [Finset.mem_Ico] at hi
      rw [if_neg (by omega), norm_zero]; simp
  rw [e]
  have h1 := norm_add_le C Cᴴ
  rw [Matrix.l2_opNorm_conjTranspose] at h1
  linarith

theorem norm_conjU {n : Nat} {U : Matrix (Fin n) (Fin n) 𝕜} (h : U * Uᴴ = 1) (A : Matrix (Fin n) (Fin n) 𝕜) : ‖U * A * Uᴴ‖ = ‖A‖ := by
  have h' : Uᴴ * U = 1 := mul_eq_one_comm.mp h
  have hs : star U = Uᴴ := Matrix.star_eq_conjTranspose U
  have hW : U ∈ unitary (Matrix (Fin n) (Fin n) 𝕜) := by
    rw [Unitary.mem_iff, hs]; exact ⟨h', h⟩
  have hW' : Uᴴ ∈ unitary (Matrix (Fin n) (Fin n) 𝕜) := by
    rw [← hs]; exact Unitary.star_mem hW
  rw [CStarRing.norm_mul_mem_unitary _ hW', CStarRing.norm_mem_unitary_mul _ hW]

end H2.Eig
