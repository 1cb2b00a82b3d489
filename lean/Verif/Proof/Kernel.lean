import Verif.Spec.Kernel
import Mathlib.LinearAlgebra.Lagrange
import Mathlib.Analysis.SpecialFunctions.Trigonometric.Inverse

/-! Interpolation: one-dimensional and tensor Lagrange interpolation. -/

set_option linter.unusedSectionVars false

namespace H2.Kern
open Spec
variable {𝕜 : Type} [RCLike 𝕜]

theorem forT_pair (f g : Nat → ℝ) (lo hi : Nat) (h : lo ≤ hi) (s : ℝ × ℝ) :
    forT lo hi (fun j (s : ℝ × ℝ) => (s.1 * f j, s.2 * g j)) s = (s.1 * ∏ j ∈ Finset.Ico lo hi, f j, s.2 * ∏ j ∈ Finset.Ico lo hi, g j) := by
  induction hi, h using Nat.le_induction with
  | base => simp [forT_self]
  | succ n hn ih => rw [forT_succ hn, ih, Finset.prod_Ico_succ_top hn, Finset.prod_Ico_succ_top hn, mul_assoc, mul_assoc]

theorem prod_skip (f : Nat → ℝ) {i m : Nat} (hi : i < m) : (∏ j ∈ Finset.Ico 0 i, f j) * ∏ j ∈ Finset.Ico (i + 1) m, f j = ∏ j ∈ (Finset.range m).erase i, f j := by
  rw [← Finset.prod_union (Finset.disjoint_left.mpr fun x h1 h2 => by rw [Finset.mem_Ico] at h1 h2; omega)]
  refine Finset.prod_congr ?_ fun _ _ => rfl
  ext x
  simp only [Finset.mem_union, Finset.mem_Ico, Finset.mem_erase, Finset.mem_range]
  omega

theorem lagrange_ok {m : Nat} {xi : Nat → ℝ} (hx : ∀ i < m, ∀ j < m, xi i = xi j → i = j) {i : Nat} (hi : i < m) (t : ℝ) : KM.lagrange m xi i t = .ok (lag1 m xi i t) := by
  unfold KM.lagrange
  simp only []
  rw [forT_pair _ _ _ _ (Nat.zero_le _), forT_pair _ _ _ _ hi]
  simp only [one_mul]
  rw [prod_skip _ hi, prod_skip _ hi]
  unfold Krylov.cdiv
  rw [if_neg, lag1, Finset.prod_div_distrib]
  rw [Finset.prod_eq_zero_iff]
  rintro ⟨j, hj, h⟩
  rw [Finset.mem_erase, Finset.mem_range] at hj
  exact hj.1 (hx i hi j hj.2 (sub_eq_zero.mp h)).symm

/-- coinciding points -/
theorem lagrange_nan {m : Nat} {xi : Nat → ℝ} {i j : Nat} (hi : i < m) (hj : j < m) (hij : i ≠ j) (hx : xi i = xi j) (t : ℝ) : KM.lagrange m xi i t = .error .nan := by
  unfold KM.lagrange
  simp only []
  rw [forT_pair _ _ _ _ (Nat.zero_le _), forT_pair _ _ _ _ hi]
  simp only [one_mul]
  rw [prod_skip _ hi, prod_skip _ hi]
  unfold Krylov.cdiv
  rw [if_pos]
  exact Finset.prod_eq_zero (Finset.mem_erase.mpr ⟨hij.symm, Finset.mem_range.mpr hj⟩) (by rw [hx, sub_self])

theorem interp1 {m : Nat} {xi : Nat → ℝ} (hx : ∀ i < m, ∀ j < m, xi i = xi j → i = j) {p : Polynomial 𝕜} (hp : p.degree < m) (t : ℝ) :
    ∑ i ∈ Finset.range m, (lag1 m xi i t : 𝕜) * p.eval ((xi i : ℝ) : 𝕜) = p.eval (t : 𝕜) := by
  have hinj : Set.InjOn (fun i => ((xi i : ℝ) : 𝕜)) (Finset.range m) := by
    intro i hi j hj h
    rw [Finset.mem_coe, Finset.mem_range] at hi hj
    exact hx i hi j hj (RCLike.ofReal_inj.mp h)
  have h := Lagrange.eq_interpolate (f := p) hinj (by rw [Finset.card_range]; exact hp)
  conv_rhs => rw [h]
  rw [Lagrange.interpolate_apply, Polynomial.eval_finset_sum]
  refine Finset.sum_congr rfl fun i hi => ?_
  rw [Polynomial.eval_mul, Polynomial.eval_C, mul_comm]
  congr 1
  unfold lag1 Lagrange.basis
  rw [Polynomial.eval_prod, RCLike.ofReal_prod]
  refine Finset.prod_congr rfl fun j _ => ?_
  unfold Lagrange.basisDivisor
  simp only [Polynomial.eval_mul, Polynomial.eval_C, Polynomial.eval_sub, Polynomial.eval_X, RCLike.ofReal_div, RCLike.ofReal_sub]
  rw [div_eq_inv_mul]

theorem sum_digits {M : Type _} [AddCommMonoid M] (F : Nat → M) (n q : Nat) : ∑ a ∈ Finset.range (n * q), F a = ∑ i ∈ Finset.range q, ∑ l ∈ Finset.range n, F (l + i * n) := by
  induction q with
  | zero => simp
  | succ q ih =>
    rw [Nat.mul_succ, Finset.sum_range_add, ih, Finset.sum_range_succ]
    congr 1
    exact Finset.sum_congr rfl fun l _ => by rw [Nat.mul_comm n q, Nat.add_comm]

theorem digit_low {m d d' l i : Nat} (h : d' < d) : digit m (l + i * m ^ d) d' = digit m l d' := by
  unfold digit
  rcases Nat.eq_zero_or_pos m with rfl | hm
  · rw [Nat.zero_pow (by omega : 0 < d), Nat.mul_zero, Nat.add_zero]
  obtain ⟨e, rfl⟩ := Nat.exists_eq_add_of_lt h
  rw [show i * m ^ (d' + e + 1) = m ^ d' * (m * (i * m ^ e)) by ring, Nat.add_mul_div_left _ _ (Nat.pow_pos hm), Nat.add_mul_mod_self_left]

theorem digit_top {m d l i : Nat} (hl : l < m ^ d) (hi : i < m) : digit m (l + i * m ^ d) d = i := by
  unfold digit
  rw [Nat.add_mul_div_right _ _ (by omega), Nat.div_eq_of_lt hl, Nat.zero_add, Nat.mod_eq_of_lt hi]

/-- point with the first `d` coordinates taken from the interpolation points -/
def pt (xi : Nat → Nat → ℝ) (m a d : Nat) (x : Nat → ℝ) : Nat → ℝ := fun e => if e < d then xi e (digit m a e) else x e

theorem tensor {m : Nat} {xi : Nat → Nat → ℝ} {f : (Nat → ℝ) → 𝕜} : ∀ (d : Nat) (_ : ∀ e < d, ∀ i < m, ∀ j < m, xi e i = xi e j → i = j)
    (_ : ∀ e < d, ∀ x, ∃ p : Polynomial 𝕜, p.degree < m ∧ ∀ s : ℝ, f (Function.update x e s) = p.eval (s : 𝕜)) (x : Nat → ℝ),
    ∑ a ∈ Finset.range (m ^ d), ((∏ e ∈ Finset.range d, lag1 m (xi e) (digit m a e) (x e) : ℝ) : 𝕜) * f (pt xi m a d x) = f x := by
  intro d
  induction d with
  | zero =>
    intro _ _ x
    simp only [pow_zero, Finset.range_one, Finset.sum_singleton, Finset.range_zero, Finset.prod_empty, RCLike.ofReal_one, one_mul]
    rfl
  | succ d ih =>
    intro hx hf x
    rw [pow_succ, sum_digits]
    have h1 : ∀ i ∈ Finset.range m, ∑ l ∈ Finset.range (m ^ d), ((∏ e ∈ Finset.range (d + 1), lag1 m (xi e) (digit m (l + i * m ^ d) e) (x e) : ℝ) : 𝕜) * f (pt xi m (l + i * m ^ d) (d + 1) x) =
        (lag1 m (xi d) i (x d) : 𝕜) * f (Function.update x d (xi d i)) := by
      intro i hi
      rw [Finset.mem_range] at hi
      rw [← ih (fun e he => hx e (by omega)) (fun e he => hf e (by omega)) (Function.update x d (xi d i)), Finset.mul_sum]
      refine Finset.sum_congr rfl fun l hl => ?_
      rw [Finset.mem_range] at hl
      have e1 : pt xi m (l + i * m ^ d) (d + 1) x = pt xi m l d (Function.update x d (xi d i)) := by
        funext e
        unfold pt
        by_cases h1 : e < d
        · rw [if_pos (by omega), if_pos h1, digit_low h1]
        · rw [if_neg h1]
          by_cases h2 : e = d
          · subst h2
            rw [if_pos (by omega), digit_top hl hi, Function.update_self]
          · rw [if_neg (by omega), Function.update_of_ne h2]
      have e2 : (∏ e ∈ Finset.range d, lag1 m (xi e) (digit m (l + i * m ^ d) e) (x e) : ℝ) = ∏ e ∈ Finset.range d, lag1 m (xi e) (digit m l e) (Function.update x d (xi d i) e) := by
        refine Finset.prod_congr rfl fun e he => ?_
        rw [Finset.mem_range] at he
        rw [digit_low he, Function.update_of_ne (by omega)]
      rw [e1, Finset.prod_range_succ, digit_top hl hi, e2, RCLike.ofReal_mul]
      ring
    rw [Finset.sum_congr rfl h1]
    obtain ⟨p, hp, hq⟩ := hf d (by omega) x
    rw [Finset.sum_congr rfl fun i _ => by rw [hq (xi d i)], interp1 (hx d (by omega)) hp, ← hq, Function.update_eq_self]

/-- A Lagrange polynomial is a polynomial. -/
theorem lag1_poly (m : Nat) (xi : Nat → ℝ) {i : Nat} (hi : i < m) : ∃ p : Polynomial 𝕜, p.degree < m ∧ ∀ s : ℝ, ((lag1 m xi i s : ℝ) : 𝕜) = p.eval (s : 𝕜) := by
  refine ⟨∏ j ∈ (Finset.range m).erase i, (Polynomial.C ((xi i - xi j : ℝ) : 𝕜)⁻¹ * (Polynomial.X - Polynomial.C ((xi j : ℝ) : 𝕜))), ?_, fun s => ?_⟩
  · refine lt_of_le_of_lt (Polynomial.degree_prod_le _ _) ?_
    refine lt_of_le_of_lt (Finset.sum_le_sum (g := fun _ => (1 : WithBot ℕ)) fun j _ => ?_) ?_
    · refine (Polynomial.degree_mul_le _ _).trans ?_
      refine (add_le_add Polynomial.degree_C_le (Polynomial.degree_X_sub_C_le _)).trans ?_
      rw [zero_add]
    · rw [Finset.sum_const, Finset.card_erase_of_mem (Finset.mem_range.mpr hi), Finset.card_range]
      simp only [nsmul_eq_mul, mul_one]
      exact_mod_cast (by omega : m - 1 < m)
  · unfold lag1
    rw [Polynomial.eval_prod, RCLike.ofReal_prod]
    refine Finset.prod_congr rfl fun j _ => ?_
    simp only [Polynomial.eval_mul, Polynomial.eval_C, Polynomial.eval_sub, Polynomial.eval_X, RCLike.ofReal_div, RCLike.ofReal_sub]
    rw [div_eq_inv_mul]

/-- Chebyshev points are different. -/
theorem cheb_inj (m : Nat) : ∀ i < m, ∀ j < m, KM.cheb m i = KM.cheb m j → i = j := by
  intro i hi j hj h
  unfold KM.cheb at h
  have hm : (0 : ℝ) < m := by exact_mod_cast (by omega : 0 < m)
  have key : ∀ i < m, Real.pi * ((m : ℝ) - i - 1 / 2) / m ∈ Set.Icc 0 Real.pi := by
    intro i hi
    have h1 : (i : ℝ) + 1 ≤ m := by exact_mod_cast hi
    have h0 : (0 : ℝ) ≤ i := by positivity
    have hp := Real.pi_pos
    constructor
    · apply div_nonneg (mul_nonneg hp.le (by linarith)) hm.le
    · rw [div_le_iff₀ hm]
      exact mul_le_mul_of_nonneg_left (by linarith) hp.le
  have h2 := Real.injOn_cos (key i hi) (key j hj) h
  rw [div_left_inj' hm.ne', mul_right_inj' Real.pi_pos.ne'] at h2
  have : (i : ℝ) = j := by linarith
  exact_mod_cast this

end H2.Kern
