import Verif.Spec.Gauss
import Mathlib.Tactic.LinearCombination
import Mathlib.Algebra.Polynomial.Derivative
import Mathlib.Analysis.Calculus.Deriv.Polynomial

set_option linter.unusedSectionVars false

/-! Legendre polynomials and their orthogonality. -/

namespace H2
namespace Gauss
open Polynomial Spec

/-- Legendre polynomials by the three-term recurrence -/
noncomputable def leg : Nat → ℝ[X]
  | 0 => 1
  | 1 => X
  | n + 2 => C ((2 * (n : ℝ) + 3) / (n + 2)) * X * leg (n + 1) - C (((n : ℝ) + 1) / (n + 2)) * leg n

theorem leg_rec (n : Nat) : C ((n : ℝ) + 2) * leg (n + 2) = C (2 * (n : ℝ) + 3) * X * leg (n + 1) - C ((n : ℝ) + 1) * leg n := by
  have h : (n : ℝ) + 2 ≠ 0 := by positivity
  have e1 : (C ((n : ℝ) + 2) : ℝ[X]) * C ((2 * (n : ℝ) + 3) / (n + 2)) = C (2 * (n : ℝ) + 3) := by
    rw [← C_mul]; congr 1; field_simp
  have e2 : (C ((n : ℝ) + 2) : ℝ[X]) * C (((n : ℝ) + 1) / (n + 2)) = C ((n : ℝ) + 1) := by
    rw [← C_mul]; congr 1; field_simp
  rw [leg]
  linear_combination (X * leg (n + 1)) * e1 - leg n * e2

theorem leg_one (n : Nat) : (leg n).eval 1 = 1 ∧ (leg (n + 1)).eval 1 = 1 := by
  induction n with
  | zero => simp [leg]
  | succ n ih =>
    refine ⟨ih.2, ?_⟩
    have h : (n : ℝ) + 2 ≠ 0 := by positivity
    have := congrArg (eval 1) (leg_rec n)
    simp only [eval_mul, eval_sub, eval_C, eval_X, ih.1, ih.2] at this
    apply mul_left_cancel₀ h
    rw [this]; ring

theorem leg_neg_one (n : Nat) : (leg n).eval (-1) = (-1) ^ n ∧ (leg (n + 1)).eval (-1) = (-1) ^ (n + 1) := by
  induction n with
  | zero => simp [leg]
  | succ n ih =>
    refine ⟨ih.2, ?_⟩
    have h : (n : ℝ) + 2 ≠ 0 := by positivity
    have := congrArg (eval (-1)) (leg_rec n)
    simp only [eval_mul, eval_sub, eval_C, eval_X, ih.1, ih.2] at this
    apply mul_left_cancel₀ h
    rw [this]; ring

theorem leg_deriv (n : Nat) : derivative (leg (n + 1)) = X * derivative (leg n) + C ((n : ℝ) + 1) * leg n ∧
    X * derivative (leg (n + 1)) - derivative (leg n) = C ((n : ℝ) + 1) * leg (n + 1) := by
  induction n with
  | zero => simp [leg]
  | succ n ih =>
    obtain ⟨h1, h2⟩ := ih
    have h : (C ((n : ℝ) + 2) : ℝ[X]) ≠ 0 := by
      rw [Ne, C_eq_zero]; positivity
    have r := leg_rec n
    have d := congrArg derivative r
    simp only [derivative_mul, derivative_sub, derivative_C, derivative_X, zero_mul, zero_add, mul_one] at d
    simp only [map_add, map_mul, map_natCast, C_1, map_ofNat] at *
    have a : derivative (leg (n + 2)) = X * derivative (leg (n + 1)) + ((n : ℝ[X]) + 1 + 1) * leg (n + 1) := by
      apply mul_left_cancel₀ h
      linear_combination d + ((n : ℝ[X]) + 1) * h2
    have a' : derivative (leg (n + 1 + 1)) = X * derivative (leg (n + 1)) + (((n + 1 : ℕ) : ℝ[X]) + 1) * leg (n + 1) := by
      push_cast; exact a
    refine ⟨a', ?_⟩
    push_cast
    linear_combination X * a + X * h2 - h1 - r

end Gauss
end H2
