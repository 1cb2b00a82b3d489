import Verif.Proof.Trunc2

set_option linter.unusedSectionVars false

namespace H2.Tr
open Spec Dense Svd
variable {𝕜 : Type} [RCLike 𝕜] {env : TrEnv 𝕜} (tm : Option Trunc.Mode) (eps : ℝ)

theorem scaled_e (alpha : 𝕜) (w : VMat 𝕜) : (scaled (some alpha) w).rows = w.rows ∧ (scaled (some alpha) w).cols = w.cols ∧ ∀ i l, (scaled (some alpha) w).e i l = w.e i l * alpha := by
  unfold scaled
  simp only
  by_cases e : alpha = 1
  · rw [if_neg (by simpa using e)]
    exact ⟨rfl, rfl, fun i l => by simp [e]⟩
  · rw [if_pos e]
    exact ⟨rfl, rfl, fun i l => rfl⟩

theorem addz_tot (alpha : 𝕜) {x y w : VMat 𝕜} (h : x.cols = y.cols) (hr : w.rows = x.rows) (hc : w.cols = y.rows) :
    Tot (VMat.addmul 1 false x true y (scaled (some alpha) w)) fun z => z.rows = x.rows ∧ z.cols = y.rows ∧
      ∀ i < x.rows, ∀ j < y.rows, z.e i j = w.e i j * alpha + lowRank x.cols x.e y.e i j := by
  obtain ⟨h1, h2, h3⟩ := scaled_e alpha w
  refine (HV.addmul_tot (c := scaled (some alpha) w) (alpha := 1) (by simpa [VMat.ocols, VMat.orows] using h) (by simp [VMat.orows, h1, hr]) (by simp [VMat.ocols, h2, hc])).mono ?_
  rintro z ⟨a1, a2, a3⟩
  refine ⟨by omega, by omega, fun i hi j hj => ?_⟩
  rw [a3 i (by omega) j (by omega), h3]
  unfold VMat.ocols VMat.oe lowRank
  simp

/-- the padded left singular vectors, multiplied by `Q` -/
theorem pad_sum {n k knew : Nat} (Q : Nat → Nat → 𝕜) (u : VMat 𝕜) (hr : u.rows = k) (hc : u.cols = knew) (hk : k ≤ n) (i : Nat) {l : Nat} (hl : l < knew) :
    ∑ p ∈ Finset.range n, Q i p * (VMat.copySub false u (VMat.zero n knew)).e p l = ∑ p ∈ Finset.range k, Q i p * u.e p l := by
  rw [← Finset.sum_subset (Finset.range_subset_range.mpr hk)]
  · refine Finset.sum_congr rfl fun p hp => ?_
    have hp := Finset.mem_range.mp hp
    unfold VMat.copySub VMat.orows VMat.ocols VMat.oe
    simp only [Bool.false_eq_true, if_false]
    rw [if_pos ⟨by omega, by omega⟩]
  · intro p hp hp'
    have hp' : ¬ p < k := fun h => hp' (Finset.mem_range.mpr h)
    unfold VMat.copySub VMat.orows VMat.ocols VMat.oe VMat.zero
    simp only [Bool.false_eq_true, if_false]
    rw [if_neg (by omega), mul_zero]

/-- the function `add_amatrix_rkmatrix`; in the case `rows < cols` the factor is conjugated -/
theorem addAm_tot (he : ExactEnv env) (alpha : 𝕜) (atrans : Bool) {a : VMat 𝕜} {b : VRk 𝕜} (hb : RkOk b) (h1 : a.orows atrans = b.A.rows) (h2 : a.ocols atrans = b.B.rows) :
    Tot (addAm env tm eps alpha atrans a b) (CoreRes tm eps b.A.rows b.B.rows fun i j =>
      rkVal b i j + (if b.A.rows < b.B.rows then star alpha else alpha) * a.oe atrans i j) := by
  obtain ⟨hb1, hb2⟩ := hb
  have hab : b.A.cols = b.B.cols := by omega
  unfold addAm
  refine Tot.bind (P := fun _ => True) ?_ fun _ _ _ => ?_
  · cases atrans
    · exact Tot.cassert (by simpa [VMat.orows] using h1) (by rw [cassert_true (by simpa [VMat.ocols] using h2)]; exact Tot.pure trivial)
    · exact Tot.cassert (by simpa [VMat.ocols] using h2) (by rw [cassert_true (by simpa [VMat.orows] using h1)]; exact Tot.pure trivial)
  simp only
  obtain ⟨k, hk⟩ : ∃ k, k = min b.A.rows b.B.rows := ⟨_, rfl⟩
  rw [← hk]
  by_cases hc : b.B.rows < b.A.rows
  · rw [if_pos hc, if_neg (by omega), HV.copy_tot h1 h2, ok_bind]
    refine Tot.bind (addz_tot alpha hab rfl rfl) ?_
    rintro z - ⟨z1, z2, z3⟩
    refine Tot.bind (vqr_tot he.sgn he.tiny z _) ?_
    rintro ⟨W, tau⟩ - ⟨Q, hQ⟩
    have hWr := hQ.rows
    have hWc := hQ.cols
    simp only at hWr hWc ⊢
    refine Tot.bind (vupper_tot _ W (by omega) (by omega)) ?_
    rintro c - ⟨hr, hc, hce⟩
    obtain ⟨sigma, u, vt, g0, g1, g2, g3, g4, g5, g6, gk⟩ := svd_get tm eps he c
    rw [g0, ok_bind]
    refine Tot.bind gk ?_
    rintro knew - ⟨g7, g8, g9⟩
    simp only
    rw [HV.sub_tot (by omega) (by omega), ok_bind]
    refine Tot.bind (hQ.eval _ (by simp [VMat.copySub, VMat.zero, z1])) ?_
    rintro A - ⟨hAr, hAc, hAe⟩
    rw [HV.sub_tot (by omega) (by omega), ok_bind]
    refine Tot.bind (vdiageval_tot false false sigma _ (by simpa using g7)) ?_
    rintro v1 - ⟨hvr, hvc, hve⟩
    simp only at hvr hvc hve
    rw [HV.copy_tot (by simp [VMat.orows]; omega) (by simp [VMat.ocols, hvr]), ok_bind]
    rw [hr, hc] at g6
    have hform := form_comp g6 (orth_le hQ.orth (show k ≤ z.rows by omega)) (N := z.e) fun i hi j hj => by
      rw [hQ.fac i hi j (by omega), show min z.rows z.cols = k by omega]
      exact Finset.sum_congr rfl fun p hp => by rw [hce p (Finset.mem_range.mp hp) j hj]
    rw [z1, show k = b.B.rows by omega] at hform
    refine Tot.pure ⟨⟨hAc, rfl⟩, hAr, rfl, sigma.n, sigma.v, _, _, by omega, form_congr hform fun i hi j hj => ?_, g7, g8, g9, fun i hi j hj => ?_⟩
    · rw [z3 i hi j hj]
      unfold rkVal lowRank
      rw [hb1]
      simp only
      ring
    · unfold rkVal part
      refine Finset.sum_congr rfl fun l hl => ?_
      have hl := Finset.mem_range.mp hl
      replace hl : l < knew := hl
      rw [hAe i (by omega) l hl, z1, pad_sum (n := b.A.rows) (k := k) Q _ rfl rfl (by omega) i hl]
      simp only [VMat.oe, if_true, Nat.zero_add]
      rw [hve l hl j (by omega), star_star, show k = b.B.rows by omega]
      simp only [Bool.false_eq_true, if_false, Nat.zero_add, star_star]
      ring
  rw [if_neg hc]
  by_cases hd : b.A.rows < b.B.rows
  · rw [if_pos hd, if_pos hd, HV.copy_tot (by cases atrans <;> simpa [VMat.orows, VMat.ocols] using h2) (by cases atrans <;> simpa [VMat.orows, VMat.ocols] using h1), ok_bind]
    refine Tot.bind (addz_tot alpha hab.symm rfl rfl) ?_
    rintro z - ⟨z1, z2, z3⟩
    refine Tot.bind (vqr_tot he.sgn he.tiny z _) ?_
    rintro ⟨W, tau⟩ - ⟨Q, hQ⟩
    have hWr := hQ.rows
    have hWc := hQ.cols
    simp only at hWr hWc ⊢
    refine Tot.bind (vupper_tot _ W (by omega) (by omega)) ?_
    rintro c - ⟨hr, hc, hce⟩
    obtain ⟨sigma, u, vt, g0, g1, g2, g3, g4, g5, g6, gk⟩ := svd_get tm eps he c
    rw [g0, ok_bind]
    refine Tot.bind gk ?_
    rintro knew - ⟨g7, g8, g9⟩
    simp only
    rw [HV.sub_tot (by omega) (by omega), ok_bind]
    rw [HV.copy_tot (by simp [VMat.orows]; omega) (by simp [VMat.ocols]), ok_bind]
    rw [HV.sub_tot (by omega) (by omega), ok_bind]
    refine Tot.bind (vdiageval_tot true true sigma _ (by simpa using g7)) ?_
    rintro v1 - ⟨hvr, hvc, hve⟩
    simp only at hvr hvc hve
    refine Tot.bind (hQ.eval _ (by simp [VMat.copySub, VMat.zero, z1])) ?_
    rintro B - ⟨hBr, hBc, hBe⟩
    rw [hr, hc] at g6
    have hform := form_comp g6 (orth_le hQ.orth (show k ≤ z.rows by omega)) (N := z.e) fun i hi j hj => by
      rw [hQ.fac i hi j (by omega), show min z.rows z.cols = k by omega]
      exact Finset.sum_congr rfl fun p hp => by rw [hce p (Finset.mem_range.mp hp) j hj]
    rw [z1, show k = b.A.rows by omega] at hform
    have key : CoreRes tm eps b.B.rows b.A.rows z.e (⟨B, ⟨b.A.rows, knew, VMat.oe true ⟨knew, k, fun i j => vt.e (0 + i) (0 + j)⟩⟩, knew⟩ : VRk 𝕜) := by
      refine ⟨⟨hBc, rfl⟩, hBr, rfl, sigma.n, sigma.v, _, _, by omega, hform, g7, g8, g9, fun i hi j hj => ?_⟩
      unfold rkVal part
      refine Finset.sum_congr rfl fun l hl => ?_
      have hl := Finset.mem_range.mp hl
      replace hl : l < knew := hl
      rw [hBe i (by omega) l hl, z1, pad_sum (n := b.B.rows) Q _ hvr hvc (by omega) i hl]
      simp only [VMat.oe, if_true, Nat.zero_add]
      rw [Finset.sum_congr rfl fun p hp => by rw [hve p (Finset.mem_range.mp hp) l hl, if_pos trivial, Nat.zero_add, Nat.zero_add, ← mul_assoc], ← Finset.sum_mul, show k = b.A.rows by omega]
    refine Tot.pure (key.swap.congr fun i hi j hj => ?_)
    rw [z3 j hj i hi]
    unfold rkVal lowRank
    rw [star_add, star_sum, hb2, add_comm, star_mul', mul_comm (star alpha)]
    congr 1
    · cases atrans <;> simp [VMat.oe]
    · exact Finset.sum_congr rfl fun l _ => by rw [star_mul', star_star, mul_comm]
  · rw [if_neg hd, if_neg hd, HV.copy_tot h1 h2, ok_bind]
    refine Tot.bind (addz_tot alpha hab rfl rfl) ?_
    rintro z - ⟨z1, z2, z3⟩
    obtain ⟨sigma, u, vt, g0, g1, g2, g3, g4, g5, g6, gk⟩ := svd_get tm eps he z
    rw [g0, ok_bind]
    refine Tot.bind gk ?_
    rintro knew - ⟨g7, g8, g9⟩
    simp only
    rw [HV.sub_tot (by omega) (by omega), ok_bind]
    refine Tot.bind (vdiageval_tot true true sigma _ (by simpa using g7)) ?_
    rintro v1 - ⟨hvr, hvc, hve⟩
    simp only at hvr hvc hve
    rw [HV.copy_tot (by simpa [VMat.orows] using hvr) (by simpa [VMat.ocols] using hvc), ok_bind, HV.sub_tot (by omega) (by omega), ok_bind,
      HV.copy_tot (by simp [VMat.orows]) (by simp [VMat.ocols]), ok_bind]
    rw [z1, z2] at g6
    refine Tot.pure ⟨⟨rfl, rfl⟩, rfl, rfl, sigma.n, sigma.v, _, _, by omega, form_congr g6 fun i hi j hj => ?_, g7, g8, g9, fun i hi j hj => ?_⟩
    · rw [z3 i hi j hj]
      unfold rkVal lowRank
      rw [hb1]
      simp only
      ring
    · unfold rkVal part
      refine Finset.sum_congr rfl fun l hl => ?_
      have hl := Finset.mem_range.mp hl
      replace hl : l < knew := hl
      simp only [VMat.oe, if_true, Bool.false_eq_true, if_false, Nat.zero_add]
      rw [hve i (by omega) l hl]
      simp

end H2.Tr
