import Verif.Proof.Gauss3

set_option linter.unusedSectionVars false

/-! Nodes and weights of exact rules; the code. -/

namespace H2
namespace Gauss
open Polynomial Spec Eig
variable {𝕜 : Type} [RCLike 𝕜]

theorem integralP_pos {r : ℝ[X]} (h0 : ∀ t : ℝ, -1 ≤ t → t ≤ 1 → 0 ≤ r.eval t) (hr : r ≠ 0) : 0 < integralP r := by
  unfold integralP
  apply intervalIntegral.intervalIntegral_pos_of_pos_on_aux h0 hr
where
  intervalIntegral.intervalIntegral_pos_of_pos_on_aux {r : ℝ[X]} (h0 : ∀ t : ℝ, -1 ≤ t → t ≤ 1 → 0 ≤ r.eval t) (hr : r ≠ 0) :
      0 < ∫ t in (-1 : ℝ)..1, r.eval t := by
    refine intervalIntegral.integral_pos (by norm_num) (continuous_iff_continuousAt.mpr fun t => (r.hasDerivAt t).continuousAt).continuousOn
      (fun t ht => h0 t ht.1.le ht.2) ?_
    by_contra hx
    push Not at hx
    apply hr
    apply Polynomial.eq_zero_of_infinite_isRoot
    refine Set.Infinite.mono (s := Set.Icc (-1 : ℝ) 1) (fun t ht => ?_) (Set.Icc_infinite (by norm_num))
    exact le_antisymm (hx t ht) (h0 t ht.1 ht.2)

/-- the product of the linear factors of all nodes but `i` -/
noncomputable def others (m : Nat) (x : Nat → ℝ) (i : Nat) : ℝ[X] := ∏ j ∈ (Finset.range m).erase i, (X - C (x j))

theorem others_ne (m : Nat) (x : Nat → ℝ) (i : Nat) : others m x i ≠ 0 :=
  Finset.prod_ne_zero_iff.mpr fun j _ => X_sub_C_ne_zero _

theorem others_deg {m : Nat} (x : Nat → ℝ) {i : Nat} (hi : i < m) : (others m x i).natDegree = m - 1 := by
  unfold others
  rw [natDegree_prod_of_monic _ _ (fun j _ => monic_X_sub_C _)]
  simp only [natDegree_X_sub_C, Finset.sum_const, smul_eq_mul, mul_one]
  rw [Finset.card_erase_of_mem (Finset.mem_range.mpr hi), Finset.card_range]

theorem others_eval {m : Nat} (x : Nat → ℝ) {i j : Nat} (hj : j < m) (h : j ≠ i) : (others m x i).eval (x j) = 0 := by
  unfold others
  rw [eval_prod]
  apply Finset.prod_eq_zero (Finset.mem_erase.mpr ⟨h, Finset.mem_range.mpr hj⟩)
  simp

theorem exact_weight {m : Nat} {x w : Nat → ℝ} (h : ExactRule m x w) {i : Nat} (hi : i < m) : 0 < w i ∧ (others m x i).eval (x i) ≠ 0 := by
  have hd : (others m x i * others m x i).degree < (2 * m : Nat) := by
    rw [degree_eq_natDegree (mul_ne_zero (others_ne m x i) (others_ne m x i)), natDegree_mul (others_ne m x i) (others_ne m x i), others_deg x hi]
    exact_mod_cast (by omega : m - 1 + (m - 1) < 2 * m)
  have e := h _ hd
  have hp : 0 < integralP (others m x i * others m x i) := integralP_pos (fun t _ _ => by
    rw [eval_mul]; exact mul_self_nonneg _) (mul_ne_zero (others_ne m x i) (others_ne m x i))
  rw [← e] at hp
  unfold quadRule at hp
  rw [Finset.sum_eq_single i (fun j hj hji => by
    rw [eval_mul, others_eval x (Finset.mem_range.mp hj) hji]; simp) (fun hx => absurd (Finset.mem_range.mpr hi) hx), eval_mul] at hp
  refine ⟨?_, fun h0 => ?_⟩
  · by_contra hw
    have := mul_self_nonneg ((others m x i).eval (x i))
    nlinarith
  · rw [h0] at hp; simp at hp

theorem exact_distinct {m : Nat} {x w : Nat → ℝ} (h : ExactRule m x w) {i j : Nat} (hi : i < m) (hj : j < m) (hij : i ≠ j) : x i ≠ x j := by
  intro e
  apply (exact_weight h hi).2
  rw [e]
  exact others_eval x hj hij.symm

theorem exact_node {m : Nat} {x w : Nat → ℝ} (h : ExactRule m x w) {i : Nat} (hi : i < m) : -1 < x i ∧ x i < 1 := by
  have key : ∀ s : ℝ, s ≠ 0 → ¬ ∀ t : ℝ, -1 ≤ t → t ≤ 1 → 0 ≤ s * (t - x i) := by
    intro s hs hneg
    have hne : C s * ((X - C (x i)) * (others m x i * others m x i)) ≠ 0 :=
      mul_ne_zero (by rw [Ne, C_eq_zero]; exact hs) (mul_ne_zero (X_sub_C_ne_zero _) (mul_ne_zero (others_ne m x i) (others_ne m x i)))
    have hd : (C s * ((X - C (x i)) * (others m x i * others m x i))).degree < ((2 * m : Nat) : WithBot ℕ) := by
      rw [degree_C_mul hs, degree_eq_natDegree (mul_ne_zero (X_sub_C_ne_zero _) (mul_ne_zero (others_ne m x i) (others_ne m x i))),
        natDegree_mul (X_sub_C_ne_zero _) (mul_ne_zero (others_ne m x i) (others_ne m x i)),
        natDegree_mul (others_ne m x i) (others_ne m x i), others_deg x hi, natDegree_X_sub_C]
      exact_mod_cast (by omega : 1 + (m - 1 + (m - 1)) < 2 * m)
    have hp := integralP_pos (fun t t1 t2 => by
      rw [eval_mul, eval_mul, eval_mul, eval_C, eval_sub, eval_X, eval_C, ← mul_assoc]
      exact mul_nonneg (hneg t t1 t2) (mul_self_nonneg _)) hne
    rw [← h _ hd] at hp
    refine absurd hp (not_lt.mpr (le_of_eq ?_))
    unfold quadRule
    apply Finset.sum_eq_zero
    intro j hj
    rw [eval_mul, eval_mul, eval_mul]
    by_cases hji : j = i
    · rw [hji]; simp
    · rw [others_eval x (Finset.mem_range.mp hj) hji]; simp
  constructor
  · by_contra hx
    exact key 1 one_ne_zero fun t t1 _ => by linarith
  · by_contra hx
    exact key (-1) (by norm_num) fun t _ t2 => by linarith

/-! ## The code -/

theorem jacobi_tot (junk : Nat → ℝ) {m : Nat} (hm : 0 < m) : Tot (jacobi junk m) fun T => T.d.n = m ∧ T.l.n = m - 1 ∧
    (∀ i < m, T.d.v i = 0) ∧ (∀ i < m - 1, T.l.v i = off i) := by
  unfold jacobi
  simp only
  refine Tot.bind (P := fun (d : Arr ℝ) => d.n = m ∧ ∀ i < m, d.v i = 0) ?_ ?_
  · refine forUp_tot (fun k (d : Arr ℝ) => d.n = m ∧ ∀ i < k, d.v i = 0) (Nat.zero_le _) ⟨rfl, fun i hi => absurd hi (by omega)⟩ ?_
    rintro k d _ hk ⟨h1, h2⟩
    refine ⟨_, Arr.set_ok (by omega), h1, fun i hi => ?_⟩
    show (if i = k then (0 : ℝ) else d.v i) = 0
    split_ifs with hik
    · rfl
    · exact h2 i (by omega)
  · rintro d - ⟨d1, d2⟩
    have hp : predU m = m - 1 := if_neg (by omega)
    rw [hp]
    refine Tot.bind (P := fun (l : Arr ℝ) => l.n = m - 1 ∧ ∀ i < m - 1, l.v i = off i) ?_ ?_
    · refine forUp_tot (fun k (l : Arr ℝ) => l.n = m - 1 ∧ ∀ i < k, l.v i = off i) (Nat.zero_le _) ⟨rfl, fun i hi => absurd hi (by omega)⟩ ?_
      rintro k l _ hk ⟨h1, h2⟩
      refine ⟨_, Arr.set_ok (by omega), h1, fun i hi => ?_⟩
      show (if i = k then ((k : ℝ) + 1) / √((2 * (k : ℝ) + 1) * (2 * (k : ℝ) + 3)) else l.v i) = off i
      split_ifs with hik
      · rw [hik]; rfl
      · exact h2 i (by omega)
    · rintro l - ⟨l1, l2⟩
      exact Tot.pure ⟨d1, l1, d2, l2⟩

theorem jacobi_triMat {T : Tri} {m : Nat} (h1 : ∀ i < m, T.d.v i = 0) (h2 : ∀ i < m - 1, T.l.v i = off i) :
    triMat m T.d.v T.l.v = triMat m (fun _ => 0) off := by
  ext i j
  have := i.2
  have := j.2
  unfold triMat
  split_ifs with a b c
  · exact h1 i (by omega)
  · exact h2 _ (by omega)
  · exact h2 _ (by omega)
  · rfl

theorem readOff_tot {m : Nat} {T : Tri} {Q : VMat 𝕜} {x w : Arr ℝ} (hT : T.d.n = m) (hr : 0 < Q.rows) (hc : Q.cols = m) (hx : m ≤ x.n) (hw : m ≤ w.n) :
    Tot (readOff m T Q x w) fun s => s.1.n = x.n ∧ s.2.n = w.n ∧ (∀ i, s.1.v i = if i < m then T.d.v i else x.v i) ∧
      ∀ i, s.2.v i = if i < m then 2 * ‖Q.e 0 i‖ ^ 2 else w.v i := by
  unfold readOff
  refine forUp_tot (fun k (s : Arr ℝ × Arr ℝ) => s.1.n = x.n ∧ s.2.n = w.n ∧ (∀ i, s.1.v i = if i < k then T.d.v i else x.v i) ∧
      ∀ i, s.2.v i = if i < k then 2 * ‖Q.e 0 i‖ ^ 2 else w.v i) (Nat.zero_le _) ⟨rfl, rfl, fun i => rfl, fun i => rfl⟩ ?_
  rintro k ⟨a, b⟩ _ hk ⟨h1, h2, h3, h4⟩
  replace h1 : a.n = x.n := h1
  replace h2 : b.n = w.n := h2
  simp only
  rw [Arr.get_ok (by omega), ok_bind, Arr.set_ok (by omega), ok_bind]
  have hq : Q.get 0 k = .ok (Q.e 0 k) := if_pos ⟨hr, by omega⟩
  rw [hq, ok_bind, Arr.set_ok (by omega), ok_bind]
  refine Tot.pure ⟨h1, h2, fun i => ?_, fun i => ?_⟩
  · show (if i = k then T.d.v k else a.v i) = _
    by_cases hik : i = k
    · rw [if_pos hik, if_pos (by omega), hik]
    · rw [if_neg hik, show a.v i = _ from h3 i]
      by_cases h : i < k
      · rw [if_pos h, if_pos (by omega)]
      · rw [if_neg h, if_neg (by omega)]
  · show (if i = k then 2 * ‖Q.e 0 k‖ ^ 2 else b.v i) = _
    by_cases hik : i = k
    · rw [if_pos hik, if_pos (by omega), hik]
    · rw [if_neg hik, show b.v i = _ from h4 i]
      by_cases h : i < k
      · rw [if_pos h, if_pos (by omega)]
      · rw [if_neg h, if_neg (by omega)]

end Gauss
end H2
