import Verif.Spec.TruncBasis
import Verif.Proof.Trunc4
import Verif.Proof.Ortho5

/-! Weighted error estimates for the truncation of cluster bases. -/

set_option linter.unusedSectionVars false

namespace H2.TB
open Spec Svd
variable {G 𝕜 : Type} [RCLike 𝕜]

/-- `D Z^*` -/
def dz (D : Nat → Nat → 𝕜) (k : Nat) (Z : Nat → Nat → 𝕜) (i j : Nat) : 𝕜 := ∑ a ∈ Finset.range k, D i a * star (Z j a)

/-- squared norm of `Z x` -/
def en (k p : Nat) (Z : Nat → Nat → 𝕜) (x : Nat → 𝕜) : ℝ := vecSq p (matVec k Z x)

theorem en_nonneg (k p : Nat) (Z : Nat → Nat → 𝕜) (x : Nat → 𝕜) : 0 ≤ en k p Z x := vecSq_nonneg _ _

theorem frob_rows (rows cols : Nat) (M : Nat → Nat → 𝕜) : frobSq rows cols M = ∑ i ∈ Finset.range rows, vecSq cols (fun j => star (M i j)) := by
  unfold frobSq vecSq
  rw [Finset.sum_comm]
  simp only [norm_star]

theorem dz_star (D : Nat → Nat → 𝕜) (k : Nat) (Z : Nat → Nat → 𝕜) (i j : Nat) : star (dz D k Z i j) = matVec k Z (fun a => star (D i a)) j := by
  unfold dz matVec
  rw [star_sum]
  refine Finset.sum_congr rfl fun a _ => ?_
  rw [star_mul', star_star, mul_comm]

theorem frob_en (D : Nat → Nat → 𝕜) (rows k p : Nat) (Z : Nat → Nat → 𝕜) : frobSq rows p (dz D k Z) = ∑ i ∈ Finset.range rows, en k p Z (fun a => star (D i a)) := by
  rw [frob_rows]
  refine Finset.sum_congr rfl fun i _ => ?_
  unfold en vecSq
  refine Finset.sum_congr rfl fun j _ => ?_
  beta_reduce
  rw [dz_star]

/-- the spectral norm of the adjoint matrix -/
theorem spec_adj {rows cols : Nat} {M : Nat → Nat → 𝕜} {B : ℝ} (hB : 0 ≤ B) (h : SpecBound rows cols M B) : SpecBound cols rows (fun i j => star (M j i)) B := by
  intro u
  obtain ⟨w, hw⟩ : ∃ w, w = matVec rows (fun i j => star (M j i)) u := ⟨_, rfl⟩
  rw [← hw]
  -- |w|² = <w, M^* u> = <M w, u>
  have h1 : ((vecSq cols w : ℝ) : 𝕜) = inner 𝕜 (vec rows (matVec cols M w)) (vec rows u) := by
    rw [vec_inner]
    have h2 : ((vecSq cols w : ℝ) : 𝕜) = ∑ j ∈ Finset.range cols, star (w j) * w j := by
      unfold vecSq
      push_cast
      exact Finset.sum_congr rfl fun j _ => (RCLike.conj_mul (w j)).symm
    rw [h2]
    have h3 : ∀ j, star (w j) * w j = ∑ i ∈ Finset.range rows, star (M i j * w j) * u i := fun j => by
      conv_lhs => rw [show w j = ∑ i ∈ Finset.range rows, star (M i j) * u i by rw [hw]; rfl]
      rw [Finset.mul_sum]
      refine Finset.sum_congr rfl fun i _ => ?_
      rw [show star (∑ i ∈ Finset.range rows, star (M i j) * u i) = star (w j) by rw [hw]; rfl, star_mul']
      ring
    rw [Finset.sum_congr rfl fun j _ => h3 j, Finset.sum_comm]
    refine Finset.sum_congr rfl fun i _ => ?_
    unfold matVec
    rw [star_sum, Finset.sum_mul]
  have h2 : vecSq cols w ≤ ‖vec rows (matVec cols M w)‖ * ‖vec rows u‖ := by
    have := norm_inner_le_norm (𝕜 := 𝕜) (vec rows (matVec cols M w)) (vec rows u)
    rw [← h1, RCLike.norm_ofReal, abs_of_nonneg (vecSq_nonneg _ _)] at this
    exact this
  have h3 := h w
  rw [← vec_norm] at h3 ⊢
  rw [← vec_norm] at h2 ⊢
  rw [← vec_norm] at h3
  obtain ⟨a, ha⟩ : ∃ a, a = ‖vec cols w‖ := ⟨_, rfl⟩
  obtain ⟨b, hb⟩ : ∃ b, b = ‖vec rows (matVec cols M w)‖ := ⟨_, rfl⟩
  obtain ⟨c, hc⟩ : ∃ c, c = ‖vec rows u‖ := ⟨_, rfl⟩
  have ha0 : 0 ≤ a := ha ▸ norm_nonneg _
  have hb0 : 0 ≤ b := hb ▸ norm_nonneg _
  have hc0 : 0 ≤ c := hc ▸ norm_nonneg _
  rw [← ha, ← hb, ← hc] at h2
  rw [← ha, ← hb] at h3
  rw [← ha, ← hc]
  -- a² ≤ b c, b² ≤ B a²
  by_cases h0 : a = 0
  · rw [h0, zero_pow two_ne_zero]; exact mul_nonneg hB (sq_nonneg _)
  have hpos : 0 < a ^ 2 := by positivity
  have h4 : (a ^ 2) ^ 2 ≤ (b * c) ^ 2 := pow_le_pow_left₀ hpos.le h2 2
  have h5 : (b * c) ^ 2 ≤ B * a ^ 2 * c ^ 2 := by rw [mul_pow]; exact mul_le_mul_of_nonneg_right h3 (sq_nonneg _)
  have h6 : a ^ 2 * a ^ 2 ≤ a ^ 2 * (B * c ^ 2) := by nlinarith
  exact le_of_mul_le_mul_left h6 hpos

theorem spec_adj' {rows cols : Nat} {M : Nat → Nat → 𝕜} {B : ℝ} (hB : 0 ≤ B) (h : SpecBound cols rows (fun i j => star (M j i)) B) : SpecBound rows cols M B := by
  have := spec_adj hB h
  simpa only [star_star] using this

theorem dz_adj (D : Nat → Nat → 𝕜) (rows k p : Nat) (Z : Nat → Nat → 𝕜) (u : Nat → 𝕜) :
    vecSq p (matVec rows (fun i j => star (dz D k Z j i)) u) = en k p Z (fun a => ∑ i ∈ Finset.range rows, star (D i a) * u i) := by
  unfold en
  refine vecSq_congr fun j _ => ?_
  unfold matVec
  simp only [dz_star]
  unfold matVec
  simp only [Finset.sum_mul, Finset.mul_sum]
  rw [Finset.sum_comm]
  exact Finset.sum_congr rfl fun a _ => Finset.sum_congr rfl fun i _ => by ring

theorem errLe_nonneg {frob : Bool} {rows cols : Nat} {M : Nat → Nat → 𝕜} {B B' : ℝ} (h : ErrLe frob rows cols M B) (hB : B ≤ B') : ErrLe frob rows cols M B' := by
  unfold ErrLe at h ⊢
  split
  · next hf => rw [if_pos hf] at h; exact h.trans hB
  · next hf =>
    rw [if_neg hf] at h
    exact fun x => (h x).trans (mul_le_mul_of_nonneg_right hB (vecSq_nonneg _ _))

/-- A smaller weight leads to a smaller error. -/
theorem errLe_energy {frob : Bool} {D : Nat → Nat → 𝕜} {rows k p p' : Nat} {Y Z : Nat → Nat → 𝕜} {B : ℝ} (hB : 0 ≤ B) (h : ∀ x, en k p' Y x ≤ en k p Z x)
    (he : ErrLe frob rows p (dz D k Z) B) : ErrLe frob rows p' (dz D k Y) B := by
  unfold ErrLe at he ⊢
  split
  · next hf =>
    rw [if_pos hf, frob_en] at he
    rw [frob_en]
    exact (Finset.sum_le_sum fun i _ => h _).trans he
  · next hf =>
    rw [if_neg hf] at he
    refine spec_adj' hB fun u => ?_
    have h1 := spec_adj hB he u
    rw [dz_adj] at h1 ⊢
    exact (h _).trans h1

theorem matVec_unit {cols : Nat} (M : Nat → Nat → 𝕜) {j : Nat} (hj : j < cols) : (matVec cols M fun l => if l = j then 1 else 0) = fun i => M i j := by
  funext i
  unfold matVec
  rw [Finset.sum_eq_single j]
  · beta_reduce; rw [if_pos rfl, mul_one]
  · intro l _ hl; beta_reduce; rw [if_neg hl, mul_zero]
  · intro h; exact absurd (Finset.mem_range.mpr hj) h

/-- orthogonal decomposition of an error -/
theorem errLe_add {frob : Bool} {n rows p m : Nat} {rows' : Fin n → Nat} {M L : Nat → Nat → 𝕜} {M' : Fin n → Nat → Nat → 𝕜} {B : ℝ} {B' : Fin n → ℝ}
    (h : ∀ x, vecSq rows (matVec p M x) = ∑ i, vecSq (rows' i) (matVec p (M' i) x) + vecSq m (matVec p L x)) (h1 : ErrLe frob m p L B) (h2 : ∀ i, ErrLe frob (rows' i) p (M' i) (B' i)) :
    ErrLe frob rows p M (∑ i, B' i + B) := by
  unfold ErrLe at h1 h2 ⊢
  split
  · next hf =>
    rw [if_pos hf] at h1
    simp only [if_pos hf] at h2
    have h3 : frobSq rows p M = ∑ i, frobSq (rows' i) p (M' i) + frobSq m p L := by
      unfold frobSq
      rw [Finset.sum_comm, ← Finset.sum_add_distrib]
      refine Finset.sum_congr rfl fun j hj => ?_
      have := h fun l => if l = j then 1 else 0
      simpa only [matVec_unit _ (Finset.mem_range.mp hj)] using this
    rw [h3]
    exact add_le_add (Finset.sum_le_sum fun i _ => h2 i) h1
  · next hf =>
    rw [if_neg hf] at h1
    simp only [if_neg hf] at h2
    intro x
    rw [h x, add_mul, Finset.sum_mul]
    exact add_le_add (Finset.sum_le_sum fun i _ => h2 i x) (h1 x)

theorem errLe_scale {frob : Bool} {rows p : Nat} {M N : Nat → Nat → 𝕜} {c B : ℝ} (h : ∀ i j, N i j = M i j * (c : 𝕜)) (h1 : ErrLe frob rows p M B) : ErrLe frob rows p N (c ^ 2 * B) := by
  have hv : ∀ x, vecSq rows (matVec p N x) = c ^ 2 * vecSq rows (matVec p M x) := fun x => by
    unfold vecSq matVec
    rw [Finset.mul_sum]
    refine Finset.sum_congr rfl fun i _ => ?_
    rw [← sq_abs c, ← mul_pow, show |c| = ‖(c : 𝕜)‖ from (RCLike.norm_ofReal c).symm, ← norm_mul, Finset.mul_sum]
    congr 2
    exact Finset.sum_congr rfl fun j _ => by rw [h]; ring
  unfold ErrLe at h1 ⊢
  split
  · next hf =>
    rw [if_pos hf] at h1
    have h3 : frobSq rows p N = c ^ 2 * frobSq rows p M := by
      unfold frobSq
      rw [Finset.mul_sum]
      refine Finset.sum_congr rfl fun j hj => ?_
      have := hv fun l => if l = j then 1 else 0
      simpa only [matVec_unit _ (Finset.mem_range.mp hj)] using this
    rw [h3]
    exact mul_le_mul_of_nonneg_left h1 (sq_nonneg _)
  · next hf =>
    rw [if_neg hf] at h1
    intro x
    rw [hv, mul_assoc]
    exact mul_le_mul_of_nonneg_left (h1 x) (sq_nonneg _)

theorem errLe_congr {frob : Bool} {rows p : Nat} {M N : Nat → Nat → 𝕜} {B : ℝ} (h : ∀ i < rows, ∀ j < p, N i j = M i j) (h1 : ErrLe frob rows p M B) : ErrLe frob rows p N B := by
  unfold ErrLe at h1 ⊢
  split
  · next hf => rw [if_pos hf] at h1; rw [frobSq_congr h]; exact h1
  · next hf => rw [if_neg hf] at h1; exact (specBound_congr h B).mpr h1

end H2.TB
