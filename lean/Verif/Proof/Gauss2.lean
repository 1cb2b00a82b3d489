import Verif.Proof.Gauss

set_option linter.unusedSectionVars false

/-! Orthonormal polynomials, moments of the Jacobi matrix. -/

namespace H2
namespace Gauss
open Polynomial Spec

theorem poly_intble (p : ℝ[X]) : IntervalIntegrable (fun t => p.eval t) MeasureTheory.volume (-1) 1 :=
  (continuous_iff_continuousAt.mpr fun t => (p.hasDerivAt t).continuousAt).intervalIntegrable _ _

theorem integralP_add (p q : ℝ[X]) : integralP (p + q) = integralP p + integralP q := by
  unfold integralP
  rw [← intervalIntegral.integral_add (poly_intble p) (poly_intble q)]
  simp only [eval_add]

theorem integralP_C (c : ℝ) (p : ℝ[X]) : integralP (C c * p) = c * integralP p := by
  unfold integralP
  rw [← intervalIntegral.integral_const_mul]
  simp only [eval_mul, eval_C]

theorem integralP_deriv (p : ℝ[X]) : integralP (derivative p) = p.eval 1 - p.eval (-1) := by
  unfold integralP
  exact intervalIntegral.integral_eq_sub_of_hasDerivAt (fun t _ => p.hasDerivAt t) (poly_intble _)

theorem integralP_one : integralP 1 = 2 := by
  have := integralP_deriv X
  rw [derivative_X] at this
  rw [this]; norm_num

theorem integralP_leg (n : Nat) : integralP (leg (n + 1)) = 0 := by
  have h := (leg_deriv (n + 1)).1
  have h2 := (leg_deriv n).2
  simp only [map_add, map_natCast, C_1] at h h2
  have e : C (2 * (n : ℝ) + 3) * leg (n + 1) = derivative (leg (n + 2) + C (-1) * leg n) := by
    rw [derivative_add, derivative_mul, derivative_C]
    simp only [zero_mul, zero_add, map_add, map_mul, map_natCast, map_ofNat, C_1, map_neg]
    push_cast at h
    linear_combination -h - h2
  have := congrArg integralP e
  rw [integralP_C, integralP_deriv] at this
  simp only [eval_add, eval_mul, eval_C, (leg_one n).1, (leg_one (n + 1)).2, (leg_neg_one n).1, (leg_neg_one (n + 1)).2] at this
  have h3 : (2 * (n : ℝ) + 3) ≠ 0 := by positivity
  apply (mul_eq_zero.mp (this.trans ?_)).resolve_left h3
  ring

/-- the normalisation -/
noncomputable def nrm (j : Nat) : ℝ := √(2 * (j : ℝ) + 1)

theorem nrm_pos (j : Nat) : 0 < nrm j := Real.sqrt_pos.mpr (by positivity)
theorem nrm_sq (j : Nat) : nrm j * nrm j = 2 * (j : ℝ) + 1 := Real.mul_self_sqrt (by positivity)

/-- the subdiagonal of the Jacobi matrix -/
noncomputable def off (j : Nat) : ℝ := ((j : ℝ) + 1) / √((2 * (j : ℝ) + 1) * (2 * (j : ℝ) + 3))

theorem off_eq (j : Nat) : off j = ((j : ℝ) + 1) / (nrm j * nrm (j + 1)) := by
  unfold off nrm
  rw [Real.sqrt_mul (by positivity)]
  congr 3
  push_cast; ring_nf

theorem off_pos (j : Nat) : 0 < off j := by
  rw [off_eq]
  have := nrm_pos j
  have := nrm_pos (j + 1)
  positivity

theorem off_nrm (j : Nat) : off j * nrm (j + 1) = ((j : ℝ) + 1) / nrm j := by
  rw [off_eq]
  have := nrm_pos j
  have := nrm_pos (j + 1)
  field_simp

theorem off_nrm' (j : Nat) : off j * nrm j = ((j : ℝ) + 1) / nrm (j + 1) := by
  rw [off_eq]
  have := nrm_pos j
  have := nrm_pos (j + 1)
  field_simp

/-- the previous subdiagonal entry -/
noncomputable def offp (j : Nat) : ℝ := if j = 0 then 0 else off (j - 1)

theorem offp_succ (j : Nat) : offp (j + 1) = off j := rfl

/-- orthonormal polynomials -/
noncomputable def op (j : Nat) : ℝ[X] := C (nrm j) * leg j

theorem op_zero : op 0 = 1 := by
  unfold op nrm
  simp [leg]

theorem op_rec (j : Nat) : X * op j = C (off j) * op (j + 1) + C (offp j) * op (j - 1) := by
  cases j with
  | zero =>
    unfold op offp
    rw [if_pos rfl]
    have := off_nrm 0
    have h0 : nrm 0 = 1 := by unfold nrm; simp
    rw [h0] at this ⊢
    have e : (C (off 0) : ℝ[X]) * C (nrm 1) = 1 := by
      rw [← C_mul, this]; simp
    simp only [leg, C_1, C_0, zero_mul, add_zero, zero_add]
    linear_combination -X * e
  | succ n =>
    show X * op (n + 1) = C (off (n + 1)) * op (n + 2) + C (off n) * op n
    unfold op
    have h := nrm_pos (n + 1)
    have r := leg_rec n
    have hC : (C (nrm (n + 1)) : ℝ[X]) ≠ 0 := by rw [Ne, C_eq_zero]; exact h.ne'
    have e0 : (C (nrm (n + 1)) : ℝ[X]) * C (nrm (n + 1)) = C (2 * (n : ℝ) + 3) := by
      rw [← C_mul, nrm_sq]; congr 1; push_cast; ring
    have e1 : (C (nrm (n + 1)) : ℝ[X]) * (C (off (n + 1)) * C (nrm (n + 2))) = C ((n : ℝ) + 2) := by
      rw [← C_mul, ← C_mul, off_nrm]; congr 1; push_cast; field_simp; ring
    have e2 : (C (nrm (n + 1)) : ℝ[X]) * (C (off n) * C (nrm n)) = C ((n : ℝ) + 1) := by
      rw [← C_mul, ← C_mul, off_nrm']; congr 1; field_simp
    apply mul_left_cancel₀ hC
    linear_combination (X * leg (n + 1)) * e0 - leg (n + 2) * e1 - leg n * e2 - r

/-- moments -/
noncomputable def mom (k i j : Nat) : ℝ := integralP (X ^ k * op i * op j) / 2

theorem mom_symm (k i j : Nat) : mom k i j = mom k j i := by
  unfold mom; congr 2; ring

theorem mom_rec (k i j : Nat) : mom (k + 1) i j = off j * mom k i (j + 1) + offp j * mom k i (j - 1) := by
  unfold mom
  have : X ^ (k + 1) * op i * op j = C (off j) * (X ^ k * op i * op (j + 1)) + C (offp j) * (X ^ k * op i * op (j - 1)) := by
    linear_combination (X ^ k * op i) * op_rec j
  rw [this, integralP_add, integralP_C, integralP_C]
  ring

theorem mom_rec' (k i j : Nat) : mom (k + 1) i j = off i * mom k (i + 1) j + offp i * mom k (i - 1) j := by
  rw [mom_symm, mom_rec, mom_symm k j, mom_symm k j]

theorem mom_zero (i j : Nat) : mom 0 i j = if i = j then 1 else 0 := by
  induction i using Nat.strong_induction_on generalizing j with
  | _ i ih =>
    cases i with
    | zero =>
      unfold mom
      rw [op_zero, pow_zero, one_mul, one_mul]
      cases j with
      | zero => rw [op_zero, integralP_one, if_pos rfl]; norm_num
      | succ j =>
        rw [if_neg (by omega)]
        unfold op
        rw [integralP_C, integralP_leg]; simp
    | succ i =>
      have h1 := mom_rec 0 i j
      have h2 := mom_rec' 0 i j
      rw [ih i (by omega), ih i (by omega)] at h1
      have ho := off_pos i
      apply mul_left_cancel₀ ho.ne'
      have h3 : offp i * mom 0 (i - 1) j = offp i * (if i - 1 = j then 1 else 0) := by
        unfold offp
        split_ifs with a b b
        · simp
        · simp
        · rw [ih (i - 1) (by omega), if_pos b]
        · rw [ih (i - 1) (by omega), if_neg b]
      have h4 : off i * mom 0 (i + 1) j = off j * (if i = j + 1 then 1 else 0) + offp j * (if i = j - 1 then 1 else 0) -
        offp i * (if i - 1 = j then 1 else 0) := by linarith
      rw [h4]
      unfold offp
      rcases Nat.lt_trichotomy j (i + 1) with h | h | h
      · by_cases hj : i = j + 1
        · subst hj
          rw [if_neg (show j + 1 + 1 ≠ j by omega), if_neg (show j + 1 ≠ j - 1 by omega)]
          simp
        · rw [if_neg hj, if_neg (show i + 1 ≠ j by omega)]
          by_cases hj0 : j = 0
          · subst hj0
            by_cases hi : i = 0
            · subst hi; simp
            · rw [if_neg hi, if_neg (show i - 1 ≠ 0 by omega)]; simp
          · rw [if_neg hj0, if_neg (show i ≠ j - 1 by omega)]
            by_cases hi : i = 0
            · subst hi; simp
            · rw [if_neg hi, if_neg (show i - 1 ≠ j by omega)]; simp
      · subst h
        rw [if_neg (show i ≠ i + 1 + 1 by omega), if_neg (show i + 1 ≠ 0 by omega), if_pos (show i = i + 1 - 1 by omega),
          if_neg (show i - 1 ≠ i + 1 by omega)]
        simp
      · rw [if_neg (show i ≠ j + 1 by omega), if_neg (show j ≠ 0 by omega), if_neg (show i ≠ j - 1 by omega), if_neg (show i - 1 ≠ j by omega),
          if_neg (show i + 1 ≠ j by omega)]
        simp

theorem mom_lt {k i j : Nat} (h : i + k < j) : mom k i j = 0 := by
  induction k generalizing i with
  | zero => rw [mom_zero, if_neg (by omega)]
  | succ k ih =>
    rw [mom_rec', ih (by omega), ih (by omega)]
    simp

/-- the powers of the Jacobi matrix contain the moments -/
theorem jac_pow {m : Nat} (k : Nat) (i j : Fin m) (h : i.1 + j.1 + k < 2 * m) : (triMat m (fun _ => 0) off ^ k) i j = mom k i j := by
  induction k generalizing j with
  | zero =>
    rw [pow_zero, mom_zero, Matrix.one_apply]
    simp only [Fin.ext_iff]
  | succ k ih =>
    rw [pow_succ, Matrix.mul_apply, mom_rec]
    have e : ∀ l : Fin m, (triMat m (fun _ => 0) off ^ k) i l * triMat m (fun _ => 0) off l j =
        (if l.1 = j.1 + 1 then off j * (triMat m (fun _ => 0) off ^ k) i l else 0) +
        (if l.1 + 1 = j.1 then off l * (triMat m (fun _ => 0) off ^ k) i l else 0) := by
      intro l
      unfold triMat
      beta_reduce
      split_ifs <;> first | omega | ring
    rw [Finset.sum_congr rfl (fun l _ => e l), Finset.sum_add_distrib]
    congr 1
    · by_cases hj : j.1 + 1 < m
      · rw [Finset.sum_eq_single (⟨j.1 + 1, hj⟩ : Fin m)]
        · rw [if_pos rfl, ih _ (by show i.1 + (j.1 + 1) + k < _; omega)]
        · intro b _ hb
          rw [if_neg (fun x => hb (Fin.ext x))]
        · intro hx; exact absurd (Finset.mem_univ _) hx
      · rw [mom_lt (by omega), mul_zero]
        apply Finset.sum_eq_zero
        intro l _
        rw [if_neg (by have := l.2; omega)]
    · unfold offp
      by_cases hj : j.1 = 0
      · rw [if_pos hj, zero_mul]
        apply Finset.sum_eq_zero
        intro l _
        rw [if_neg (by omega)]
      · rw [if_neg hj, Finset.sum_eq_single (⟨j.1 - 1, by have := j.2; omega⟩ : Fin m)]
        · rw [if_pos (by show j.1 - 1 + 1 = j.1; omega), ih _ (by show i.1 + (j.1 - 1) + k < _; omega)]
        · intro b _ hb
          rw [if_neg (fun x => hb (Fin.ext (by show b.1 = j.1 - 1; omega)))]
        · intro hx; exact absurd (Finset.mem_univ _) hx

theorem jac_moment {m : Nat} (hm : 0 < m) (k : Nat) (h : k < 2 * m) : 2 * (triMat m (fun _ => 0) off ^ k) ⟨0, hm⟩ ⟨0, hm⟩ = integralP (X ^ k) := by
  rw [jac_pow k _ _ (by show 0 + 0 + k < _; omega)]
  show 2 * mom k 0 0 = _
  unfold mom
  rw [op_zero, mul_one, mul_one]
  ring

end Gauss
end H2
