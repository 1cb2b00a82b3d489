import Verif.Proof.TruncSvd
import Mathlib.Analysis.InnerProductSpace.SingularValues

/-! Every matrix has a singular value decomposition. -/

set_option linter.unusedSectionVars false

namespace H2.Svd
open Spec
variable {𝕜 : Type} [RCLike 𝕜]

theorem exists_form (rows cols : Nat) (M : Nat → Nat → 𝕜) : ∃ s U V, SvdForm rows cols (min rows cols) M s U V := by
  obtain ⟨T, hT⟩ : ∃ T : EuclideanSpace 𝕜 (Fin cols) →ₗ[𝕜] EuclideanSpace 𝕜 (Fin rows), T = Matrix.toEuclideanLin (Matrix.of fun (i : Fin rows) (j : Fin cols) => M i j) := ⟨_, rfl⟩
  have hn : Module.finrank 𝕜 (EuclideanSpace 𝕜 (Fin cols)) = cols := finrank_euclideanSpace_fin
  have hm : Module.finrank 𝕜 (EuclideanSpace 𝕜 (Fin rows)) = rows := finrank_euclideanSpace_fin
  obtain ⟨v, hv⟩ : ∃ v, v = T.isSymmetric_adjoint_comp_self.eigenvectorBasis hn := ⟨_, rfl⟩
  obtain ⟨s, hs⟩ : ∃ s : Nat → ℝ, s = fun l => T.singularValues l := ⟨_, rfl⟩
  have hgram : ∀ l l' : Fin cols, inner 𝕜 (T (v l)) (T (v l')) = if l = l' then ((s l : 𝕜)) ^ 2 else 0 := by
    intro l l'
    have h1 := (T.isSymmetric_adjoint_comp_self.hasEigenvector_eigenvectorBasis hn l').apply_eq_smul
    rw [← hv] at h1
    have h2 : inner 𝕜 (v l) ((LinearMap.adjoint T ∘ₗ T) (v l')) = inner 𝕜 (T (v l)) (T (v l')) := by
      rw [LinearMap.comp_apply, LinearMap.adjoint_inner_right]
    rw [← h2, h1, inner_smul_right, orthonormal_iff_ite.mp v.orthonormal]
    have h3 := T.sq_singularValues_fin hn l'
    by_cases e : l = l'
    · subst e
      rw [if_pos rfl, if_pos rfl, mul_one, ← h3, hs]
      push_cast
      rfl
    · rw [if_neg e, if_neg e, mul_zero]
  have hnorm : ∀ l : Fin cols, s l = 0 → T (v l) = 0 := fun l h => by
    have := hgram l l
    rw [if_pos rfl, h] at this
    simpa using this
  have hpos : ∀ l, s l ≠ 0 → l < rows := by
    intro l h
    have h1 : 0 < T.singularValues l := lt_of_le_of_ne (T.singularValues_nonneg l) (by rw [hs] at h; exact Ne.symm h)
    have h2 := T.singularValues_pos_iff_lt_finrank_range.mp h1
    have h3 := Submodule.finrank_le (LinearMap.range T)
    omega
  obtain ⟨b, hb⟩ := Orthonormal.exists_orthonormalBasis_extension_of_card_eq (𝕜 := 𝕜) (E := EuclideanSpace 𝕜 (Fin rows)) (ι := Fin rows) (by rw [hm]; simp)
    (v := fun l => if h : l.1 < cols then ((s l : 𝕜))⁻¹ • T (v ⟨l, h⟩) else 0) (s := {l : Fin rows | l.1 < cols ∧ s l ≠ 0}) (by
      rw [orthonormal_iff_ite]
      rintro ⟨l, hl, hl0⟩ ⟨l', hl', hl0'⟩
      simp only [Set.domRestrict_apply, hl, hl', dif_pos]
      rw [inner_smul_left, inner_smul_right, hgram]
      by_cases e : l = l'
      · subst e
        rw [if_pos rfl, if_pos rfl]
        have : (s l : 𝕜) ≠ 0 := by exact_mod_cast hl0
        simp only [map_inv₀, RCLike.conj_ofReal]
        field_simp
      · rw [if_neg (by simpa [Fin.ext_iff] using e), if_neg (by simpa using e), mul_zero, mul_zero])
  refine ⟨s, fun i l => if h : i < rows ∧ l < rows then b ⟨l, h.2⟩ ⟨i, h.1⟩ else 0, fun j l => if h : j < cols ∧ l < cols then v ⟨l, h.2⟩ ⟨j, h.1⟩ else 0, ?_, ?_, ?_, ?_, ?_⟩
  · intro l hl l' hl'
    have h1 := orthonormal_iff_ite.mp b.orthonormal ⟨l, by omega⟩ ⟨l', by omega⟩
    rw [PiLp.inner_apply] at h1
    simp only [Fin.mk.injEq] at h1
    rw [← h1, ← Fin.sum_univ_eq_sum_range (fun i => star (if h : i < rows ∧ l < rows then b ⟨l, h.2⟩ ⟨i, h.1⟩ else 0) * (if h : i < rows ∧ l' < rows then b ⟨l', h.2⟩ ⟨i, h.1⟩ else 0))]
    refine Finset.sum_congr rfl fun i _ => ?_
    rw [dif_pos ⟨i.2, by omega⟩, dif_pos ⟨i.2, by omega⟩, RCLike.inner_apply, mul_comm]
    rfl
  · intro l hl l' hl'
    have h1 := orthonormal_iff_ite.mp v.orthonormal ⟨l, by omega⟩ ⟨l', by omega⟩
    rw [PiLp.inner_apply] at h1
    simp only [Fin.mk.injEq] at h1
    rw [← h1, ← Fin.sum_univ_eq_sum_range (fun i => star (if h : i < cols ∧ l < cols then v ⟨l, h.2⟩ ⟨i, h.1⟩ else 0) * (if h : i < cols ∧ l' < cols then v ⟨l', h.2⟩ ⟨i, h.1⟩ else 0))]
    refine Finset.sum_congr rfl fun i _ => ?_
    rw [dif_pos ⟨i.2, by omega⟩, dif_pos ⟨i.2, by omega⟩, RCLike.inner_apply, mul_comm]
    rfl
  · intro l _
    rw [hs]
    exact T.singularValues_nonneg l
  · intro l l' hl _
    rw [hs]
    exact T.singularValues_antitone hl
  · intro i hi j hj
    have h1 : M i j = T (EuclideanSpace.single ⟨j, hj⟩ 1) ⟨i, hi⟩ := by
      rw [hT, Matrix.toLpLin_apply]
      simp
    have h2 : (EuclideanSpace.single (⟨j, hj⟩ : Fin cols) (1 : 𝕜)) = ∑ l : Fin cols, star (v l ⟨j, hj⟩) • v l := by
      conv_lhs => rw [← v.sum_repr' (EuclideanSpace.single (⟨j, hj⟩ : Fin cols) (1 : 𝕜))]
      refine Finset.sum_congr rfl fun l _ => ?_
      congr 1
      rw [EuclideanSpace.inner_single_right, one_mul]
      rfl
    have h3 : ∀ l : Fin cols, T (v l) = if h : l.1 < rows then (s l : 𝕜) • b ⟨l, h⟩ else 0 := by
      intro l
      by_cases h0 : s l = 0
      · rw [hnorm l h0, h0]
        split <;> simp
      · have h4 := hpos l h0
        rw [dif_pos h4, hb ⟨l, h4⟩ ⟨l.2, h0⟩]
        simp only [l.2, dif_pos, smul_smul]
        have : (s l : 𝕜) ≠ 0 := by exact_mod_cast h0
        rw [mul_inv_cancel₀ this, one_smul]
    rw [h1, h2, map_sum, WithLp.ofLp_sum, Finset.sum_apply]
    obtain ⟨f, hf⟩ : ∃ f : Nat → 𝕜, f = fun l => if h : l < rows ∧ l < cols then b ⟨l, h.1⟩ ⟨i, hi⟩ * (s l : 𝕜) * star (v ⟨l, h.2⟩ ⟨j, hj⟩) else 0 := ⟨_, rfl⟩
    have h4 : ∀ l : Fin cols, (T (star (v l ⟨j, hj⟩) • v l)).ofLp ⟨i, hi⟩ = f l := by
      intro l
      rw [map_smul, h3, hf]
      by_cases h5 : l.1 < rows
      · rw [dif_pos h5]
        simp only [h5, l.2, and_self, dif_pos, WithLp.ofLp_smul, Pi.smul_apply, smul_eq_mul]
        ring
      · rw [dif_neg h5]
        simp [h5]
    rw [Finset.sum_congr rfl fun l _ => h4 l, Fin.sum_univ_eq_sum_range f]
    rw [← Finset.sum_subset (Finset.range_subset_range.mpr (Nat.min_le_right rows cols))]
    · refine Finset.sum_congr rfl fun l hl => ?_
      have hl := Finset.mem_range.mp hl
      rw [hf]
      simp only
      rw [dif_pos ⟨by omega, by omega⟩, dif_pos ⟨hi, by omega⟩, dif_pos ⟨hj, by omega⟩]
    · intro l hl hl'
      have hl := Finset.mem_range.mp hl
      have hl' : ¬ l < min rows cols := fun h => hl' (Finset.mem_range.mpr h)
      rw [hf]
      simp only
      rw [dif_neg (by omega)]

open Classical in
/-- a function that computes singular value decompositions -/
noncomputable def svdFn (c : VMat 𝕜) : R (Arr ℝ × VMat 𝕜 × VMat 𝕜) :=
  .ok (⟨min c.rows c.cols, (exists_form c.rows c.cols c.e).choose⟩, ⟨c.rows, min c.rows c.cols, (exists_form c.rows c.cols c.e).choose_spec.choose⟩,
    ⟨min c.rows c.cols, c.cols, fun l j => star ((exists_form c.rows c.cols c.e).choose_spec.choose_spec.choose j l)⟩)

theorem svdFn_ok : SvdFn (svdFn (𝕜 := 𝕜)) := by
  intro c
  refine ⟨_, _, _, rfl, rfl, rfl, rfl, rfl, rfl, ?_⟩
  simp only [star_star]
  exact (exists_form c.rows c.cols c.e).choose_spec.choose_spec.choose_spec

end H2.Svd
