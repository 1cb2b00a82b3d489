import Verif.Proof.TruncBasis5
import Verif.Proof.Project

set_option linter.unusedSectionVars false

namespace H2.TB
open Spec Svd
variable {G 𝕜 : Type} [RCLike 𝕜]

theorem vecSq_zero {n : Nat} {x : Nat → 𝕜} (h : vecSq n x ≤ 0) {i : Nat} (hi : i < n) : x i = 0 := by
  have h1 := le_antisymm h (vecSq_nonneg n x)
  have h2 := (Finset.sum_eq_zero_iff_of_nonneg fun _ _ => sq_nonneg _).mp h1 i (Finset.mem_range.mpr hi)
  rwa [pow_eq_zero_iff two_ne_zero, norm_eq_zero] at h2

theorem en_one (k : Nat) (x : Nat → 𝕜) : en k k (fun j l => if l = j then (1 : 𝕜) else 0) x = vecSq k x := by
  unfold en
  refine vecSq_congr fun j hj => ?_
  unfold matVec
  rw [Finset.sum_eq_single j]
  · beta_reduce; rw [if_pos rfl, one_mul]
  · intro l _ hl; beta_reduce; rw [if_neg hl, zero_mul]
  · intro h; exact absurd (Finset.mem_range.mpr hj) h

theorem errLe_zero {frob : Bool} {rows p : Nat} {M : Nat → Nat → 𝕜} (h : ErrLe frob rows p M 0) : ∀ i < rows, ∀ j < p, M i j = 0 := by
  intro i hi j hj
  unfold ErrLe at h
  split at h
  · unfold frobSq at h
    have h1 := le_antisymm h (Finset.sum_nonneg fun _ _ => vecSq_nonneg _ _)
    have h2 := (Finset.sum_eq_zero_iff_of_nonneg fun _ _ => vecSq_nonneg _ _).mp h1 j (Finset.mem_range.mpr hj)
    exact vecSq_zero (x := fun i => M i j) h2.le hi
  · have h1 := h fun l => if l = j then 1 else 0
    rw [zero_mul, matVec_unit M hj] at h1
    exact vecSq_zero (x := fun i => M i j) h1 hi

theorem matVec_zero {k : Nat} {M : Nat → Nat → 𝕜} {i : Nat} (h : ∀ l < k, M i l = 0) (x : Nat → 𝕜) : matVec k M x i = 0 := by
  unfold matVec
  exact Finset.sum_eq_zero fun l hl => by rw [h l (Finset.mem_range.mp hl), zero_mul]

/-- the tolerance zero without weights: nothing is lost -/
theorem cert_zero {frob : Bool} {za zl : ℝ} : ∀ (cb : CBV G 𝕜) {Ein : (Nat → 𝕜) → ℝ} {cb' : CBV G 𝕜} {clw : Option (COp G 𝕜)},
    (∀ x, 0 ≤ Ein x) → Cert frob True za zl Ein 0 cb cb' clw none → ∀ i < cb.t.cl.size, ∀ l < cb.k, dErr cb cb' i l = 0 := by
  intro cb
  induction cb with
  | mk t k kt kb V E n son ih =>
    intro Ein cb' clw h0 hc i hi l hl
    obtain ⟨p0, Z, m, L, e, h1, h2, h3, h4⟩ := hc
    rw [zero_pow two_ne_zero] at h2
    have h5 : ErrLe frob m k (dz L k fun j l => if l = j then (1 : 𝕜) else 0) 0 := by
      refine errLe_energy le_rfl (fun x => ?_) h2
      rw [en_one]
      have a1 := h1 x
      have a2 := h0 x
      have a3 := locE_nonneg clw k x
      have a4 : totalSq True (none : Option (COp G 𝕜)) k x = vecSq k x := if_pos (c := True) (e := (0 : ℝ)) trivial
      rw [a4] at a1
      linarith
    have h6 : ∀ i < m, ∀ l < k, L i l = 0 := by
      intro i hi l hl
      have := errLe_zero h5 i hi l hl
      unfold dz at this
      rw [Finset.sum_eq_single l] at this
      · beta_reduce at this; rwa [if_pos rfl, star_one, mul_one] at this
      · intro b _ hb; beta_reduce; rw [if_neg hb, star_zero, mul_zero]
      · intro h; exact absurd (Finset.mem_range.mpr hl) h
    have h7 := h3 fun b => if b = l then 1 else 0
    replace hl : l < k := hl
    rw [matVec_unit _ hl] at h7
    have h8 : ∀ j, vecSq (son j).t.cl.size (matVec (son j).k (dErr (son j) (cb'.son (Fin.cast e.symm j))) (matVec k (son j).E.e fun b => if b = l then 1 else 0)) = 0 := by
      intro j
      refine Finset.sum_eq_zero fun r hr => ?_
      rw [matVec_zero (fun b hb => ih j (fun x => mul_nonneg (sq_nonneg _) (add_nonneg (h0 _) (locE_nonneg _ _ _))) (by have h5 := h4 j; rw [zero_mul] at h5; exact h5) r (Finset.mem_range.mp hr) b hb), norm_zero, zero_pow two_ne_zero]
    have h9 : vecSq m (matVec k L fun b => if b = l then 1 else 0) = 0 := by
      refine Finset.sum_eq_zero fun r hr => ?_
      rw [matVec_zero (fun b hb => h6 r (Finset.mem_range.mp hr) b hb), norm_zero, zero_pow two_ne_zero]
    rw [h9, Finset.sum_eq_zero fun j _ => h8 j, add_zero] at h7
    exact vecSq_zero (x := fun i => dErr (.mk t k kt kb V E n son) cb' i l) h7.le hi

/-- tolerance zero without weights: the change of bases is exact -/
theorem cert_changes {frob : Bool} {za zl : ℝ} : ∀ (cb : CBV G 𝕜) {Ein : (Nat → 𝕜) → ℝ} {cb' : CBV G 𝕜} {clw : Option (COp G 𝕜)} {co : COp G 𝕜},
    (∀ x, 0 ≤ Ein x) → Cert frob True za zl Ein 0 cb cb' clw none → CBVOk cb → CBVOk cb' → OpDims cb cb' co → Products cb' cb co → Changes cb cb' co := by
  intro cb
  induction cb with
  | mk t k kt kb V E n son ih =>
    intro Ein cb' clw co h0 hc ho ho' hd hp
    cases cb' with
    | mk t' k' kt' kb' V' E' n' son' =>
    cases co with
    | mk tc kr kc C nc sonc =>
    have hz := cert_zero _ h0 hc
    obtain ⟨p0, Z, m, L, e, h1, h2, h3, h4⟩ := hc
    obtain ⟨d1, d2, d3, d4, d5, d6, d7, d8⟩ := hd
    replace e : n' = n := e
    subst d6 d7
    obtain ⟨c1, c2, c3, c4, c5, c6⟩ := hp
    refine ⟨d2, d3, d4, d5, fun r l hl => ?_, rfl, rfl, fun i => ?_⟩
    · by_cases hr : In t r
      · have h7 : r - t.cl.off < t.cl.size := by unfold In at hr; omega
        have h8 := hz _ h7 l hl
        unfold dErr projected at h8
        rw [sub_eq_zero] at h8
        have h9 : t.cl.off + (r - t.cl.off) = r := by unfold In at hr; omega
        simp only [CBV.t, CBV.k, h9] at h8
        rw [h8]
        exact Finset.sum_congr rfl fun a ha => by rw [c5 a (Finset.mem_range.mp ha) l hl]
      · rw [vbasis_zero ho l hr]
        refine (Finset.sum_eq_zero fun a _ => ?_).symm
        rw [vbasis_zero ho' a (by show ¬ In t' r; rw [d1]; exact hr), zero_mul]
    · obtain ⟨g1, g2, g3⟩ := c6 i
      have h5 := h4 i
      rw [zero_mul] at h5
      exact ih i (fun x => mul_nonneg (sq_nonneg _) (add_nonneg (h0 _) (locE_nonneg _ _ _))) h5 (ho.2.2 i).2.2 (ho'.2.2 i).2.2 (d8 i) g3

/-- orthonormal bases: the transfer matrices are contractions -/
theorem inherits_orth {un : Prop} [Decidable un] (hu : un) {za : ℝ} (h0 : 0 ≤ za) (hza : za ≤ 1) : ∀ (cb : CBV G 𝕜), CBVOk cb → Spec.Orthonormal cb → Inherits un za cb none := by
  intro cb
  induction cb with
  | mk t k kt kb V E n son ih =>
    intro ho hO i
    refine ⟨fun x => ?_, ih i (ho.2.2 i).2.2 (hO.2 i)⟩
    have hn : 0 < n := by have := i.2; omega
    have hS : SpecBound (son i).k k (son i).E.e 1 := by
      intro y
      rw [one_mul]
      have h1 : vecSq k y = ∑ j, vecSq (son j).k (matVec k (son j).E.e y) := by
        have h2 : ∀ a < k, ∀ b < k, ∑ j, ∑ nu ∈ Finset.range (son j).k, star ((son j).E.e nu a) * (son j).E.e nu b = if a = b then 1 else 0 := by
          intro a ha b hb
          rw [← cross_node_ortho hn ho (fun j => (hO.2 j).root)]
          exact hO.1 a ha b hb
        have h3 : ∀ z : 𝕜, ((‖z‖ ^ 2 : ℝ) : 𝕜) = star z * z := fun z => by rw [RCLike.ofReal_pow]; exact (RCLike.conj_mul z).symm
        have h4 : ((vecSq k y : ℝ) : 𝕜) = ((∑ j, vecSq (son j).k (matVec k (son j).E.e y) : ℝ) : 𝕜) := by
          unfold vecSq
          simp only [RCLike.ofReal_sum, h3]
          have h5 : ∀ j : Fin n, ∑ i ∈ Finset.range (son j).k, star (matVec k (son j).E.e y i) * matVec k (son j).E.e y i =
              ∑ a ∈ Finset.range k, ∑ b ∈ Finset.range k, star (y a) * y b * ∑ nu ∈ Finset.range (son j).k, star ((son j).E.e nu a) * (son j).E.e nu b := by
            intro j
            unfold matVec
            simp only [star_sum, star_mul', Finset.sum_mul, Finset.mul_sum]
            rw [Finset.sum_comm]
            rw [Finset.sum_comm]
            rw [Finset.sum_congr rfl fun i _ => Finset.sum_comm, Finset.sum_comm]
            refine Finset.sum_congr rfl fun a _ => ?_
            rw [Finset.sum_comm]
            exact Finset.sum_congr rfl fun b _ => Finset.sum_congr rfl fun nu _ => by ring
          simp only [h5]
          rw [Finset.sum_comm]
          refine Finset.sum_congr rfl fun a ha => ?_
          rw [Finset.sum_comm, Finset.sum_eq_single a]
          · rw [← Finset.mul_sum, h2 a (Finset.mem_range.mp ha) a (Finset.mem_range.mp ha), if_pos rfl, mul_one]
          · intro b hb hne
            rw [← Finset.mul_sum, h2 a (Finset.mem_range.mp ha) b (Finset.mem_range.mp hb), if_neg (Ne.symm hne), mul_zero]
          · intro h; exact absurd ha h
        exact_mod_cast h4
      rw [h1]
      exact Finset.single_le_sum (f := fun j => vecSq (son j).k (matVec k (son j).E.e y)) (fun j _ => vecSq_nonneg _ _) (Finset.mem_univ i)
    have h5 := spec_adj zero_le_one hS x
    rw [one_mul] at h5
    show za ^ 2 * totalSq un none k (matVec (son i).k (fun l a => star ((son i).E.e a l)) x) ≤ totalSq un none (son i).k x
    have a1 : ∀ k (y : Nat → 𝕜), totalSq un (none : Option (COp G 𝕜)) k y = vecSq k y := fun k y => if_pos hu
    rw [a1, a1]
    have := vecSq_nonneg k (matVec (son i).k (fun l a => star ((son i).E.e a l)) x)
    have h6 : za ^ 2 ≤ 1 := by nlinarith
    exact (mul_le_mul_of_nonneg_right h6 this).trans ((one_mul _).le.trans h5)

end H2.TB
