import Verif.Proof.QR6

/-! # Sign functions, specification of the truncation -/

set_option linter.unusedSectionVars false

namespace H2.QR
open Spec Dense Matrix
variable {𝕜 : Type} [RCLike 𝕜] {n : Nat}

theorem sgnReal_fn : SignFn (𝕜 := ℝ) 0 sgnReal := by
  refine ⟨fun x => ?_, fun x => ?_⟩
  · unfold sgnReal; split_ifs <;> simp
  · unfold sgnReal
    have : ((‖x‖ : ℝ) : ℝ) = |x| := rfl
    simp only [RCLike.ofReal_real_eq_id, id, Real.norm_eq_abs]
    split_ifs with h
    · rw [abs_of_neg h]; simp
    · rw [abs_of_nonneg (not_lt.mp h)]; simp

theorem sgnComplex_fn {tiny : ℝ} (ht : 0 ≤ tiny) : SignFn (𝕜 := ℂ) (4 * tiny) (sgnComplex tiny) := by
  have key : ∀ x : ℂ, ¬ ‖x‖ ^ 2 ≤ tiny → sgnComplex tiny x = x / (‖x‖ : ℂ) := by
    intro x h
    unfold sgnComplex
    rw [if_neg h]
    have e : √(x.re * x.re + x.im * x.im) = ‖x‖ := by
      rw [Complex.norm_def, Complex.normSq_apply]
    rw [e]
    apply Complex.ext
    · simp [Complex.div_re, Complex.normSq_apply]
      by_cases h0 : ‖x‖ = 0
      · simp [h0]
      · field_simp
    · simp [Complex.div_im, Complex.normSq_apply]
      by_cases h0 : ‖x‖ = 0
      · simp [h0]
      · field_simp
  refine ⟨fun x => ?_, fun x => ?_⟩
  · by_cases h : ‖x‖ ^ 2 ≤ tiny
    · unfold sgnComplex; rw [if_pos h]; simp
    · rw [key x h, norm_div]
      have : ‖x‖ ≠ 0 := fun h0 => h (by rw [h0]; simpa using ht)
      simp [this]
  · by_cases h : ‖x‖ ^ 2 ≤ tiny
    · unfold sgnComplex
      rw [if_pos h, one_mul]
      have h1 : ‖x - (‖x‖ : ℂ)‖ ≤ 2 * ‖x‖ := by
        refine (norm_sub_le _ _).trans ?_
        simp
        linarith
      have h2 := pow_le_pow_left₀ (norm_nonneg _) h1 2
      have h3 : ‖x - (RCLike.ofReal ‖x‖ : ℂ)‖ = ‖x - (‖x‖ : ℂ)‖ := rfl
      rw [h3]
      nlinarith
    · rw [key x h]
      have h0 : (‖x‖ : ℂ) ≠ 0 := by
        intro h0
        have : ‖x‖ = 0 := by exact_mod_cast h0
        exact h (by rw [this]; simpa using ht)
      have h3 : x - x / (‖x‖ : ℂ) * (RCLike.ofReal ‖x‖ : ℂ) = 0 := by
        show x - x / (‖x‖ : ℂ) * (‖x‖ : ℂ) = 0
        rw [div_mul_cancel₀ _ h0, sub_self]
      rw [h3]
      simp
      exact ht

theorem PivOk.of_room {c : Nat} {piv : Option (Arr Nat)} (h : PivRoom c piv) : ∃ c', c ≤ c' ∧ PivOk c' piv := by
  cases piv with
  | none => exact ⟨c, le_rfl, trivial⟩
  | some q => exact ⟨q.n, h, rfl⟩

theorem colSq_tail {r c : Nat} (A : Nat → Nat → 𝕜) (j : Fin c) : colSq (toMat r c A) j = tail2 r A 0 j := (tail2_norm A j).symm

theorem rankTol_of {tm : Option TMode} {c : Nat} {A : Nat → Nat → 𝕜} {eps x : ℝ} (h : Tol tm n c A eps x) : RankTol tm (toMat n c A) eps x := by
  have hs : ∑ j : Fin c, colSq (toMat n c A) j = ∑ j ∈ Finset.range c, tail2 n A 0 j := by
    rw [← Fin.sum_univ_eq_sum_range]
    exact Finset.sum_congr rfl fun j _ => colSq_tail A j
  unfold Tol at h
  rw [← pow_two] at h
  have g : isAbs tm = false → isFrob tm = false → ∀ M, 0 ≤ M → (∀ j : Fin c, colSq (toMat n c A) j ≤ M) → x ≤ eps ^ 2 * M := fun h1 h2 M hM hj => by
    rw [if_neg (by simp [h1]), if_neg (by simp [h2])] at h
    exact h M hM fun j hjc => by rw [← colSq_tail A (⟨j, hjc⟩ : Fin c)]; exact hj _
  match tm, h, g with
  | none, _, g => exact g rfl rfl
  | some ⟨false, true⟩, h, _ => exact h
  | some ⟨true, true⟩, h, _ => exact h
  | some ⟨true, false⟩, h, _ => 
    show x ≤ eps ^ 2 * ∑ j, colSq (toMat n c A) j
    rw [hs]; exact h
  | some ⟨false, false⟩, _, g => exact g rfl rfl

theorem Dom.spec {c : Nat} {tiny : ℝ} {k : Nat} {W : Nat → Nat → 𝕜} (h : Dom n c tiny k W) (hk : k ≤ n) :
    DiagDominates k tiny (toMat n c fun i j => if i < k then tri false false W i j else 0) := by
  intro l hr hc hl j hj
  have h1 : (toMat n c fun i j => if i < k then tri false false W i j else 0) ⟨l, hr⟩ ⟨l, hc⟩ = W l l := by
    show (if l < k then tri false false W l l else 0) = _
    rw [if_pos hl]; simp [tri]
  rw [h1]
  refine le_trans ?_ (h l hl j hj j.2)
  have h2 : ∀ i : Fin n, (if l ≤ i.1 then ‖(toMat n c fun i j => if i < k then tri false false W i j else 0) i j‖ ^ 2 else 0) ≤
      (fun x : ℕ => if l ≤ x ∧ x < (if j.1 < k then j.1 + 1 else n) then ‖W x j‖ ^ 2 else 0) i.1 := by
    intro i
    show (if l ≤ i.1 then ‖(if i.1 < k then tri false false W i j else 0)‖ ^ 2 else 0) ≤ _
    beta_reduce
    by_cases e1 : l ≤ i.1
    · rw [if_pos e1]
      by_cases e2 : i.1 < k
      · have := upcol_eq W j i
        replace this : tri false false W i j = _ := this
        rw [if_pos e2, this]
        by_cases e3 : i.1 ≤ j.1
        · rw [if_pos e3, if_pos]
          refine ⟨e1, ?_⟩
          split_ifs <;> omega
        · rw [if_neg e3]
          simp
          split_ifs
          all_goals first | positivity | exact le_rfl
      · rw [if_neg e2]
        simp
        split_ifs
        all_goals first | positivity | exact le_rfl
    · rw [if_neg e1, if_neg (fun h => e1 h.1)]
  refine (Finset.sum_le_sum fun i _ => h2 i).trans ?_
  rw [Fin.sum_univ_eq_sum_range (fun x : ℕ => if l ≤ x ∧ x < (if j.1 < k then j.1 + 1 else n) then ‖W x j‖ ^ 2 else 0), ← Finset.sum_filter]
  refine Finset.sum_le_sum_of_subset_of_nonneg (fun i hi => ?_) fun _ _ _ => sq_nonneg _
  simp only [Finset.mem_filter] at hi
  exact Finset.mem_Ico.mpr hi.2

theorem tri_min {r c : Nat} (W : Nat → Nat → 𝕜) : toMat r c (fun i j => if i < min r c then tri false false W i j else 0) = toMat r c (tri false false W) := by
  ext i j
  show (if i.1 < min r c then tri false false W i j else 0) = tri false false W i j
  by_cases h : i.1 < min r c
  · rw [if_pos h]
  · have := upcol_eq W j i
    rw [if_neg (by have := i.2; have := j.2; omega)] at this
    rw [if_neg h]; exact this.symm

end H2.QR
