import Verif.Proof.Gauss2
import Verif.Proof.Eigen2
import Mathlib.Algebra.Order.Chebyshev

set_option linter.unusedSectionVars false

/-! The spectral norm of the Jacobi matrix, perturbed moments. -/

namespace H2
namespace Gauss
open Polynomial Spec Matrix
open scoped Matrix.Norms.L2Operator

theorem norm_le_one {m : Nat} (A : Matrix (Fin m) (Fin m) ℝ) (h : ∀ x : Fin m → ℝ, ∑ i, (∑ j, A i j * x j) ^ 2 ≤ ∑ j, x j ^ 2) : ‖A‖ ≤ 1 := by
  rw [Matrix.l2_opNorm_def]
  refine ContinuousLinearMap.opNorm_le_bound _ zero_le_one fun x => ?_
  rw [one_mul, EuclideanSpace.norm_eq, EuclideanSpace.norm_eq]
  apply Real.sqrt_le_sqrt
  simp only [Real.norm_eq_abs, sq_abs]
  exact h fun i => x i

theorem schur {m : Nat} (A : Matrix (Fin m) (Fin m) ℝ) (h0 : ∀ i j, 0 ≤ A i j) (hs : ∀ i j, A i j = A j i) (v : Fin m → ℝ) (hv : ∀ i, 0 < v i)
    (h : ∀ i, ∑ j, A i j * v j ≤ v i) : ‖A‖ ≤ 1 := by
  apply norm_le_one
  intro x
  have h1 : ∀ i, (∑ j, A i j * x j) ^ 2 ≤ ∑ j, A i j * x j ^ 2 / v j * v i := by
    intro i
    have := Finset.sum_sq_le_sum_mul_sum_of_sq_eq_mul Finset.univ (f := fun j => A i j * v j) (g := fun j => A i j * x j ^ 2 / v j)
      (r := fun j => A i j * x j)
      (fun j _ => mul_nonneg (h0 i j) (hv j).le) (fun j _ => div_nonneg (mul_nonneg (h0 i j) (sq_nonneg _)) (hv j).le) (fun j _ => by
        have := (hv j).ne'
        field_simp)
    refine this.trans ?_
    rw [← Finset.sum_mul, mul_comm]
    exact mul_le_mul_of_nonneg_left (h i) (Finset.sum_nonneg fun j _ => div_nonneg (mul_nonneg (h0 i j) (sq_nonneg _)) (hv j).le)
  refine (Finset.sum_le_sum fun i _ => h1 i).trans ?_
  rw [Finset.sum_comm]
  apply Finset.sum_le_sum
  intro j _
  have e : ∑ i, A i j * x j ^ 2 / v j * v i = x j ^ 2 / v j * ∑ i, A j i * v i := by
    rw [Finset.mul_sum]
    apply Finset.sum_congr rfl
    intro i _
    rw [hs i j]; ring
  rw [e]
  have := mul_le_mul_of_nonneg_left (h j) (div_nonneg (sq_nonneg (x j)) (hv j).le)
  refine this.trans (le_of_eq ?_)
  have := (hv j).ne'
  field_simp

theorem jac_norm (m : Nat) : ‖triMat m (fun _ => 0) off‖ ≤ 1 := by
  refine schur _ (fun i j => ?_) (fun i j => ?_) (fun i => nrm i) (fun i => nrm_pos i) (fun i => ?_)
  · unfold triMat
    beta_reduce
    split_ifs
    · exact le_refl _
    · exact (off_pos _).le
    · exact (off_pos _).le
    · exact le_refl _
  · unfold triMat
    beta_reduce
    split_ifs <;> first | omega | rfl
  · have e : ∀ j : Fin m, triMat m (fun _ => 0) off i j * nrm j =
        (if j.1 = i.1 + 1 then off i * nrm (i + 1) else 0) + (if j.1 + 1 = i.1 then off j * nrm j else 0) := by
      intro j
      unfold triMat
      beta_reduce
      by_cases h1 : j.1 = i.1 + 1
      · rw [if_neg (by omega), if_neg (by omega), if_pos h1, if_pos h1, if_neg (by omega), h1]; ring
      · split_ifs <;> first | omega | ring
    rw [Finset.sum_congr rfl (fun j _ => e j), Finset.sum_add_distrib]
    have hp := nrm_pos i
    have b1 : ∑ j : Fin m, (if j.1 = i.1 + 1 then off i * nrm (i + 1) else 0) ≤ ((i : ℝ) + 1) / nrm i := by
      rw [← off_nrm]
      have ho : 0 ≤ off i * nrm (i + 1) := (mul_pos (off_pos _) (nrm_pos _)).le
      by_cases hj : i.1 + 1 < m
      · rw [Finset.sum_eq_single (⟨i.1 + 1, hj⟩ : Fin m)]
        · rw [if_pos rfl]
        · intro b _ hb
          rw [if_neg (fun x => hb (Fin.ext x))]
        · intro hx; exact absurd (Finset.mem_univ _) hx
      · rw [Finset.sum_eq_zero]
        · exact ho
        · intro l _
          rw [if_neg (by have := l.2; omega)]
    have b2 : ∑ j : Fin m, (if j.1 + 1 = i.1 then off j * nrm j else 0) ≤ (i : ℝ) / nrm i := by
      by_cases hj : i.1 = 0
      · rw [Finset.sum_eq_zero]
        · positivity
        · intro l _
          rw [if_neg (by omega)]
      · rw [Finset.sum_eq_single (⟨i.1 - 1, by have := i.2; omega⟩ : Fin m)]
        · rw [if_pos (by show i.1 - 1 + 1 = i.1; omega)]
          show off (i.1 - 1) * nrm (i.1 - 1) ≤ _
          rw [off_nrm', show i.1 - 1 + 1 = i.1 by omega]
          apply le_of_eq
          congr 1
          rw [Nat.cast_sub (by omega)]; simp
        · intro b _ hb
          rw [if_neg (fun x => hb (Fin.ext (by show b.1 = i.1 - 1; omega)))]
        · intro hx; exact absurd (Finset.mem_univ _) hx
    refine (add_le_add b1 b2).trans (le_of_eq ?_)
    rw [← add_div, div_eq_iff hp.ne', nrm_sq]
    ring

theorem one_norm_le (m : Nat) : ‖(1 : Matrix (Fin m) (Fin m) ℝ)‖ ≤ 1 := by
  apply norm_le_one
  intro x
  simp [Matrix.one_apply]

theorem pow_norm_le {m : Nat} {T : Matrix (Fin m) (Fin m) ℝ} (h : ‖T‖ ≤ 1) (k : Nat) : ‖T ^ k‖ ≤ 1 := by
  induction k with
  | zero => rw [pow_zero]; exact one_norm_le m
  | succ k ih =>
    rw [pow_succ]
    exact (norm_mul_le _ _).trans (mul_le_one₀ ih (norm_nonneg _) h)

theorem pow_diff {m : Nat} {A T : Matrix (Fin m) (Fin m) ℝ} {η : ℝ} (h : ‖T‖ ≤ 1) (hA : ‖A - T‖ ≤ η) (k : Nat) : ‖A ^ k - T ^ k‖ ≤ (1 + η) ^ k - 1 := by
  have h0 : 0 ≤ η := (norm_nonneg _).trans hA
  have hn : ‖A‖ ≤ 1 + η := by
    have : A = T + (A - T) := by noncomm_ring
    rw [this]
    exact (norm_add_le _ _).trans (add_le_add h hA)
  induction k with
  | zero => simp
  | succ k ih =>
    have e : A ^ (k + 1) - T ^ (k + 1) = (A ^ k - T ^ k) * A + T ^ k * (A - T) := by
      rw [pow_succ, pow_succ]; noncomm_ring
    rw [e]
    refine (norm_add_le _ _).trans ?_
    have h1 : ‖(A ^ k - T ^ k) * A‖ ≤ ((1 + η) ^ k - 1) * (1 + η) :=
      (norm_mul_le _ _).trans (mul_le_mul ih hn (norm_nonneg _) (by
        have : (1 : ℝ) ≤ (1 + η) ^ k := one_le_pow₀ (by linarith)
        linarith))
    have h2 : ‖T ^ k * (A - T)‖ ≤ η := (norm_mul_le _ _).trans (by
      have := mul_le_mul (pow_norm_le h k) hA (norm_nonneg _) zero_le_one
      linarith)
    rw [pow_succ]
    linarith

theorem conj_pow {m : Nat} {W : Matrix (Fin m) (Fin m) ℝ} (h : W * W.transpose = 1) (x : Fin m → ℝ) (k : Nat) :
    (W * diagonal x * W.transpose) ^ k = W * diagonal (fun i => x i ^ k) * W.transpose := by
  induction k with
  | zero => simp [h]
  | succ k ih =>
    rw [pow_succ, ih]
    have h' : W.transpose * W = 1 := mul_eq_one_comm.mp h
    calc W * diagonal (fun i => x i ^ k) * W.transpose * (W * diagonal x * W.transpose)
        = W * diagonal (fun i => x i ^ k) * (W.transpose * W) * diagonal x * W.transpose := by noncomm_ring
      _ = W * (diagonal (fun i => x i ^ k) * diagonal x) * W.transpose := by rw [h', mul_one]; noncomm_ring
      _ = _ := by rw [diagonal_mul_diagonal]; simp only [pow_succ]

/-- error of the quadrature rule for monomials -/
theorem moment_err {m : Nat} (hm : 0 < m) {W : Matrix (Fin m) (Fin m) ℝ} (h : W * W.transpose = 1) {x w : Nat → ℝ} {η : ℝ}
    (hw : ∀ i : Fin m, w i = 2 * W ⟨0, hm⟩ i ^ 2)
    (he : ‖W * diagonal (fun i : Fin m => x i) * W.transpose - triMat m (fun _ => 0) off‖ ≤ η) (k : Nat) (hk : k < 2 * m) :
    |∑ i ∈ Finset.range m, w i * x i ^ k - integralP (X ^ k)| ≤ 2 * ((1 + η) ^ k - 1) := by
  have h1 := (entry_le' (pow_diff (jac_norm m) he k) ⟨0, hm⟩)
  rw [conj_pow h, Matrix.sub_apply] at h1
  have e : 2 * (W * diagonal (fun i : Fin m => x i ^ k) * W.transpose) ⟨0, hm⟩ ⟨0, hm⟩ = ∑ i ∈ Finset.range m, w i * x i ^ k := by
    rw [← Fin.sum_univ_eq_sum_range (fun i => w i * x i ^ k) m, Matrix.mul_apply, Finset.mul_sum]
    apply Finset.sum_congr rfl
    intro i _
    rw [Matrix.mul_diagonal, hw, Matrix.transpose_apply]
    ring
  rw [← e, ← jac_moment hm k hk, ← mul_sub, abs_mul, abs_two]
  exact mul_le_mul_of_nonneg_left h1 zero_le_two
where
  entry_le' {A : Matrix (Fin m) (Fin m) ℝ} {c : ℝ} (h : ‖A‖ ≤ c) (i : Fin m) : |A i i| ≤ c := (Eig.entry_le A i i).trans h

/-- error of the quadrature rule for polynomials -/
theorem rule_err {m : Nat} (hm : 0 < m) {W : Matrix (Fin m) (Fin m) ℝ} (h : W * W.transpose = 1) {x w : Nat → ℝ} {η : ℝ}
    (hw : ∀ i : Fin m, w i = 2 * W ⟨0, hm⟩ i ^ 2)
    (he : ‖W * diagonal (fun i : Fin m => x i) * W.transpose - triMat m (fun _ => 0) off‖ ≤ η) (p : ℝ[X]) (hp : p.degree < (2 * m : Nat)) :
    |quadRule m x w p - integralP p| ≤ 2 * ∑ k ∈ Finset.range (2 * m), |p.coeff k| * ((1 + η) ^ k - 1) := by
  have hn : p.natDegree < 2 * m := by
    by_cases hp0 : p = 0
    · rw [hp0, natDegree_zero]; omega
    · exact (natDegree_lt_iff_degree_lt hp0).mpr hp
  have e1 : quadRule m x w p = ∑ k ∈ Finset.range (2 * m), p.coeff k * ∑ i ∈ Finset.range m, w i * x i ^ k := by
    unfold quadRule
    simp only [eval_eq_sum_range' hn, Finset.mul_sum]
    rw [Finset.sum_comm]
    apply Finset.sum_congr rfl; intro k _
    apply Finset.sum_congr rfl; intro i _
    ring
  have e2 : integralP p = ∑ k ∈ Finset.range (2 * m), p.coeff k * integralP (X ^ k) := by
    have : ∀ N, integralP (∑ k ∈ Finset.range N, C (p.coeff k) * X ^ k) = ∑ k ∈ Finset.range N, p.coeff k * integralP (X ^ k) := by
      intro N
      induction N with
      | zero => simp [integralP]
      | succ N ih => rw [Finset.sum_range_succ, Finset.sum_range_succ, integralP_add, ih, integralP_C]
    rw [← this]
    congr 1
    exact p.as_sum_range_C_mul_X_pow' hn
  rw [e1, e2, ← Finset.sum_sub_distrib, Finset.mul_sum]
  refine (Finset.abs_sum_le_sum_abs _ _).trans (Finset.sum_le_sum fun k hk => ?_)
  rw [← mul_sub, abs_mul]
  have := mul_le_mul_of_nonneg_left (moment_err hm h hw he k (Finset.mem_range.mp hk)) (abs_nonneg (p.coeff k))
  linarith

end Gauss
end H2
