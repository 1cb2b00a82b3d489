import Verif.Proof.Trunc3

set_option linter.unusedSectionVars false

namespace H2.Tr
open Spec Dense Svd
variable {𝕜 : Type} [RCLike 𝕜] {env : TrEnv 𝕜} (tm : Option Trunc.Mode) (eps : ℝ)

/-- `blockdiag(Q1, Q2)` -/
def diag2 (n1 k1 : Nat) (Q1 Q2 : Nat → Nat → 𝕜) (j q : Nat) : 𝕜 :=
  if j < n1 then (if q < k1 then Q1 j q else 0) else (if q < k1 then 0 else Q2 (j - n1) (q - k1))

theorem diag2_lo {n1 k1 : Nat} {Q1 Q2 : Nat → Nat → 𝕜} {j : Nat} (h : j < n1) (q : Nat) : diag2 n1 k1 Q1 Q2 j q = if q < k1 then Q1 j q else 0 := if_pos h

theorem diag2_hi {n1 k1 : Nat} {Q1 Q2 : Nat → Nat → 𝕜} (i q : Nat) : diag2 n1 k1 Q1 Q2 (n1 + i) q = if q < k1 then 0 else Q2 i (q - k1) := by
  unfold diag2
  rw [if_neg (by omega), Nat.add_sub_cancel_left]

theorem glue_e (X Y : VMat 𝕜) (r c i j : Nat) : (X.glue r c Y).e i j = if (r ≤ i ∧ i < r + Y.rows) ∧ c ≤ j ∧ j < c + Y.cols then Y.e (i - r) (j - c) else X.e i j := by
  unfold VMat.glue
  by_cases h : (r ≤ i ∧ i < r + Y.rows) ∧ c ≤ j ∧ j < c + Y.cols
  · rw [if_pos h]; exact if_pos ⟨h.1.1, h.1.2, h.2.1, h.2.2⟩
  · rw [if_neg h]; exact if_neg fun h' => h ⟨⟨h'.1, h'.2.1⟩, h'.2.2.1, h'.2.2.2⟩

theorem diag2_orth {n1 n2 k1 k2 : Nat} {Q1 Q2 : Nat → Nat → 𝕜} (h1 : OrthCols n1 k1 Q1) (h2 : OrthCols n2 k2 Q2) : OrthCols (n1 + n2) (k1 + k2) (diag2 n1 k1 Q1 Q2) := by
  intro l hl l' hl'
  rw [Finset.sum_range_add]
  have e1 : ∑ i ∈ Finset.range n1, star (diag2 n1 k1 Q1 Q2 i l) * diag2 n1 k1 Q1 Q2 i l' = if l < k1 ∧ l' < k1 then (if l = l' then 1 else 0) else 0 := by
    by_cases e : l < k1 ∧ l' < k1
    · rw [if_pos e, ← h1 l e.1 l' e.2]
      refine Finset.sum_congr rfl fun i hi => ?_
      rw [diag2_lo (Finset.mem_range.mp hi), diag2_lo (Finset.mem_range.mp hi), if_pos e.1, if_pos e.2]
    · rw [if_neg e]
      refine Finset.sum_eq_zero fun i hi => ?_
      rw [diag2_lo (Finset.mem_range.mp hi), diag2_lo (Finset.mem_range.mp hi)]
      by_cases e1 : l < k1
      · rw [if_neg (show ¬ l' < k1 from fun h => e ⟨e1, h⟩), mul_zero]
      · rw [if_neg e1, star_zero, zero_mul]
  have e2 : ∑ i ∈ Finset.range n2, star (diag2 n1 k1 Q1 Q2 (n1 + i) l) * diag2 n1 k1 Q1 Q2 (n1 + i) l' = if ¬ l < k1 ∧ ¬ l' < k1 then (if l = l' then 1 else 0) else 0 := by
    by_cases e : ¬ l < k1 ∧ ¬ l' < k1
    · rw [if_pos e]
      have := h2 (l - k1) (by omega) (l' - k1) (by omega)
      rw [show (if l = l' then (1 : 𝕜) else 0) = if l - k1 = l' - k1 then 1 else 0 from if_congr (by omega) rfl rfl, ← this]
      refine Finset.sum_congr rfl fun i hi => ?_
      rw [diag2_hi, diag2_hi, if_neg e.1, if_neg e.2]
    · rw [if_neg e]
      refine Finset.sum_eq_zero fun i hi => ?_
      rw [diag2_hi, diag2_hi]
      by_cases e1 : l < k1
      · rw [if_pos e1, star_zero, zero_mul]
      · rw [if_pos (show l' < k1 from by by_contra h; exact e ⟨e1, h⟩), mul_zero]
  rw [e1, e2]
  by_cases a : l < k1 <;> by_cases b : l' < k1 <;> simp [a, b] <;> intro h <;> omega

theorem copyF {a : VMat 𝕜} {r c : Nat} (h1 : a.rows = r) (h2 : a.cols = c) : VMat.copy false a r c = .ok ⟨r, c, a.e⟩ := by
  rw [HV.copy_tot (by simpa [VMat.orows] using h1) (by simpa [VMat.ocols] using h2)]
  rfl

theorem copyT {a : VMat 𝕜} {r c : Nat} (h1 : a.cols = r) (h2 : a.rows = c) : VMat.copy true a r c = .ok ⟨r, c, fun i j => star (a.e j i)⟩ := by
  rw [HV.copy_tot (by simpa [VMat.orows] using h1) (by simpa [VMat.ocols] using h2)]
  rfl

theorem sum_head {n k : Nat} (hk : k ≤ n) {f g : Nat → 𝕜} (h1 : ∀ p < k, f p = g p) (h2 : ∀ p < n, ¬ p < k → f p = 0) : ∑ p ∈ Finset.range n, f p = ∑ p ∈ Finset.range k, g p := by
  rw [← Finset.sum_subset (Finset.range_subset_range.mpr hk)]
  · exact Finset.sum_congr rfl fun p hp => h1 p (Finset.mem_range.mp hp)
  · exact fun p hp hp' => h2 p (Finset.mem_range.mp hp) fun h => hp' (Finset.mem_range.mpr h)

theorem mergeCore_tot (he : ExactEnv env) {n : Nat} {x1 y1 x2 y2 : VMat 𝕜} {kt ks : Nat} (hx1 : x1.rows = n) (hx1c : x1.cols = kt) (hy1 : y1.cols = kt) (hx2 : x2.rows = n) (hx2c : x2.cols = ks)
    (hy2 : y2.cols = ks) : Tot (mergeCore env tm eps n x1 y1 kt x2 y2 ks) fun r => CoreRes tm eps n (y1.rows + y2.rows)
      (fun i j => if j < y1.rows then lowRank kt x1.e y1.e i j else lowRank ks x2.e y2.e i (j - y1.rows)) ⟨r.1, r.2.1, r.2.2⟩ := by
  unfold mergeCore
  simp only
  rw [HV.sub_tot (by simp [VMat.fresh]) (by simp [VMat.fresh]), ok_bind, copyF hx1 hx1c, ok_bind,
    HV.sub_tot (by simp [VMat.fresh, VMat.glue]) (by simp [VMat.fresh, VMat.glue]), ok_bind, copyF hx2 hx2c, ok_bind]
  obtain ⟨b, hb⟩ : ∃ b : VMat 𝕜, b = ((VMat.fresh env.toQrEnv n (kt + ks)).glue 0 0 ⟨n, kt, x1.e⟩).glue 0 kt ⟨n, ks, x2.e⟩ := ⟨_, rfl⟩
  have hbr : b.rows = n := by rw [hb]; rfl
  have hbc : b.cols = kt + ks := by rw [hb]; rfl
  have hbe1 : ∀ i < n, ∀ l < kt, b.e i l = x1.e i l := fun i hi l hl => by
    rw [hb, glue_e, if_neg (by simp only; omega), glue_e, if_pos (by simp only; omega)]
    simp
  have hbe2 : ∀ i < n, ∀ l < ks, b.e i (kt + l) = x2.e i l := fun i hi l hl => by
    rw [hb, glue_e, if_pos (by simp only; omega)]
    simp
  rw [← hb]
  clear hb
  rw [copyF rfl hy1, ok_bind]
  refine Tot.bind (vqr_tot he.sgn he.tiny _ _) ?_
  rintro ⟨W1, tau1⟩ - ⟨Q1, hQ1⟩
  have hW1r := hQ1.rows
  have hW1c := hQ1.cols
  simp only at hW1r hW1c ⊢
  rw [copyF rfl hy2, ok_bind]
  refine Tot.bind (vqr_tot he.sgn he.tiny _ _) ?_
  rintro ⟨W2, tau2⟩ - ⟨Q2, hQ2⟩
  have hW2r := hQ2.rows
  have hW2c := hQ2.cols
  simp only at hW2r hW2c ⊢
  obtain ⟨k1, hk1⟩ : ∃ k1, k1 = min y1.rows kt := ⟨_, rfl⟩
  obtain ⟨k2, hk2⟩ : ∃ k2, k2 = min y2.rows ks := ⟨_, rfl⟩
  rw [← hk1, ← hk2]
  rw [HV.sub_tot (by omega) (by omega), ok_bind, HV.sub_tot (by omega) (by omega), ok_bind]
  refine Tot.bind (vtrieval_tot _ _ (show k1 ≤ kt by omega) rfl) ?_
  rintro b1 - ⟨b1r, b1c, b1e⟩
  simp only at b1r b1c b1e
  obtain ⟨b', hb'⟩ : ∃ b' : VMat 𝕜, b' = b.glue 0 0 b1 := ⟨_, rfl⟩
  rw [← hb']
  have hb'r : b'.rows = n := by rw [hb']; exact hbr
  have hb'c : b'.cols = kt + ks := by rw [hb']; exact hbc
  have hb'1 : ∀ i < n, ∀ l < kt, b'.e i l = b1.e i l := fun i hi l hl => by
    rw [hb', glue_e, if_pos (by omega)]; rfl
  have hb'2 : ∀ i < n, ∀ l < ks, b'.e i (kt + l) = x2.e i l := fun i hi l hl => by
    rw [hb', glue_e, if_neg (by omega), hbe2 i hi l hl]
  clear hb'
  rw [HV.sub_tot (by omega) (by omega), ok_bind, HV.sub_tot (by simp [VMat.fresh]) (by simp [VMat.fresh]), ok_bind, copyF rfl rfl, ok_bind]
  simp only
  rw [HV.sub_tot (by omega) (by omega), ok_bind, HV.sub_tot (by omega) (by omega), ok_bind]
  refine Tot.bind (vtrieval_tot _ _ (show k2 ≤ ks by omega) rfl) ?_
  rintro b2 - ⟨b2r, b2c, b2e⟩
  simp only at b2r b2c b2e
  obtain ⟨b'', hb''⟩ : ∃ b'' : VMat 𝕜, b'' = b'.glue 0 kt b2 := ⟨_, rfl⟩
  rw [← hb'']
  have hb''r : b''.rows = n := by rw [hb'']; exact hb'r
  have hb''c : b''.cols = kt + ks := by rw [hb'']; exact hb'c
  have hb''2 : ∀ i < n, ∀ l < ks, b''.e i (kt + l) = b2.e i l := fun i hi l hl => by
    rw [hb'', glue_e, if_pos (by omega), Nat.sub_zero, Nat.add_sub_cancel_left]
  clear hb''
  rw [HV.sub_tot (by omega) (by omega), ok_bind, HV.sub_tot (by simp [VMat.fresh, VMat.glue]) (by simp [VMat.fresh, VMat.glue]), ok_bind, copyF rfl rfl, ok_bind]
  simp only
  obtain ⟨c, hc⟩ : ∃ c : VMat 𝕜, c = ((VMat.fresh env.toQrEnv n (k1 + k2)).glue 0 0 ⟨n, k1, fun i j => b'.e (0 + i) (0 + j)⟩).glue 0 k1
    ⟨n, k2, fun i j => b''.e (0 + i) (kt + j)⟩ := ⟨_, rfl⟩
  have hcr : c.rows = n := by rw [hc]; rfl
  have hcc : c.cols = k1 + k2 := by rw [hc]; rfl
  have hc1 : ∀ i < n, ∀ q < k1, c.e i q = b1.e i q := fun i hi q hq => by
    rw [hc, glue_e, if_neg (by simp only; omega), glue_e, if_pos (by simp only; omega), Nat.sub_zero, Nat.sub_zero]
    simp only [Nat.zero_add]
    exact hb'1 i hi q (by omega)
  have hc2 : ∀ i < n, ∀ q < k2, c.e i (k1 + q) = b2.e i q := fun i hi q hq => by
    rw [hc, glue_e, if_pos (by simp only; omega), Nat.sub_zero, Nat.add_sub_cancel_left]
    simp only [Nat.zero_add]
    exact hb''2 i hi q (by omega)
  rw [← hc]
  clear hc
  obtain ⟨sigma, u, vt, g0, g1, g2, g3, g4, g5, g6, gk⟩ := svd_get tm eps he c
  rw [g0, ok_bind]
  refine Tot.bind gk ?_
  rintro knew - ⟨g7, g8, g9⟩
  simp only
  rw [HV.sub_tot (by omega) (by omega), ok_bind, copyF rfl rfl, ok_bind, HV.sub_tot (by omega) (by omega), ok_bind,
    HV.sub_tot (by simp only [VMat.zero]; omega) (by simp [VMat.zero]), ok_bind, copyT rfl rfl, ok_bind, HV.sub_tot (by omega) (by omega), ok_bind,
    HV.sub_tot (by simp only [VMat.zero, VMat.glue]; omega) (by simp [VMat.zero, VMat.glue]), ok_bind, copyT rfl rfl, ok_bind]
  simp only
  obtain ⟨Y, hY⟩ : ∃ Y : VMat 𝕜, Y = ((VMat.zero (y1.rows + y2.rows) knew).glue 0 0 ⟨k1, knew, fun i j => star (vt.e (0 + j) (0 + i))⟩).glue y1.rows 0
    ⟨k2, knew, fun i j => star (vt.e (0 + j) (k1 + i))⟩ := ⟨_, rfl⟩
  have hYr : Y.rows = y1.rows + y2.rows := by rw [hY]; rfl
  have hYc : Y.cols = knew := by rw [hY]; rfl
  have hY1 : ∀ i < y1.rows, ∀ l < knew, Y.e i l = if i < k1 then star (vt.e l i) else 0 := fun i hi l hl => by
    rw [hY, glue_e, if_neg (by simp only; omega), glue_e]
    by_cases e : i < k1
    · rw [if_pos (by simp only; omega), if_pos e]
      simp
    · rw [if_neg (by simp only; omega), if_neg e]
      rfl
  have hY2 : ∀ i < y2.rows, ∀ l < knew, Y.e (y1.rows + i) l = if i < k2 then star (vt.e l (k1 + i)) else 0 := fun i hi l hl => by
    rw [hY, glue_e]
    by_cases e : i < k2
    · rw [if_pos (by simp only; omega), if_pos e]
      simp
    · rw [if_neg (by simp only; omega), glue_e, if_neg (by simp only; omega), if_neg e]
      rfl
  rw [← hY]
  clear hY
  rw [HV.sub_tot (by omega) (by omega), ok_bind]
  refine Tot.bind (hQ1.eval _ rfl) ?_
  rintro v1 - ⟨v1r, v1c, v1e⟩
  simp only at v1r v1c v1e
  obtain ⟨Z, hZ⟩ : ∃ Z : VMat 𝕜, Z = Y.glue 0 0 v1 := ⟨_, rfl⟩
  have hZr : Z.rows = y1.rows + y2.rows := by rw [hZ]; exact hYr
  have hZc : Z.cols = knew := by rw [hZ]; exact hYc
  have hZ1 : ∀ i < y1.rows, ∀ l < knew, Z.e i l = v1.e i l := fun i hi l hl => by
    rw [hZ, glue_e, if_pos (by omega)]; rfl
  have hZ2 : ∀ i < y2.rows, ∀ l < knew, Z.e (y1.rows + i) l = Y.e (y1.rows + i) l := fun i hi l hl => by
    rw [hZ, glue_e, if_neg (by omega)]
  rw [← hZ]
  clear hZ
  rw [HV.sub_tot (by omega) (by omega), ok_bind]
  refine Tot.bind (hQ2.eval _ rfl) ?_
  rintro v2 - ⟨v2r, v2c, v2e⟩
  simp only at v2r v2c v2e
  refine Tot.bind (vdiageval_tot true true sigma _ (by simpa using g7)) ?_
  rintro X - ⟨hXr, hXc, hXe⟩
  simp only at hXr hXc hXe
  rw [hcr, hcc] at g6
  have hform := form_adj (form_comp (form_adj g6) (diag2_orth (orth_le hQ1.orth (show k1 ≤ y1.rows by omega)) (orth_le hQ2.orth (show k2 ≤ y2.rows by omega)))
    (N := fun j i => star (if j < y1.rows then lowRank kt x1.e y1.e i j else lowRank ks x2.e y2.e i (j - y1.rows))) fun j hj i hi => by
      replace hj : j < y1.rows + y2.rows := hj
      simp only
      rw [Finset.sum_range_add]
      by_cases e : j < y1.rows
      · have z0 : ∑ x ∈ Finset.range k2, diag2 y1.rows k1 Q1 Q2 j (k1 + x) * star (c.e i (k1 + x)) = 0 := Finset.sum_eq_zero fun q _ => by
          rw [diag2_lo e, if_neg (by omega), zero_mul]
        rw [z0, add_zero, if_pos e]
        unfold lowRank
        rw [star_sum, Finset.sum_congr rfl fun l hl => by rw [hQ1.fac j e l (Finset.mem_range.mp hl)]]
        simp only [star_mul', star_star, Finset.mul_sum]
        rw [Finset.sum_comm, ← hk1]
        refine Finset.sum_congr rfl fun q hq => ?_
        have hq := Finset.mem_range.mp hq
        rw [diag2_lo e, if_pos hq, hc1 i hi q hq, b1e i hi q hq, star_sum, Finset.mul_sum]
        refine Finset.sum_congr rfl fun l hl => ?_
        rw [Nat.zero_add, Nat.zero_add, hbe1 i hi l (Finset.mem_range.mp hl), star_mul', star_star,
          tri_congr (A := fun i j => W1.e (0 + i) (0 + j)) (B := W1.e) (i := q) (j := l) false false (by simp)]
        ring
      · obtain ⟨t, rfl⟩ : ∃ t, j = y1.rows + t := ⟨j - y1.rows, by omega⟩
        have z0 : ∑ x ∈ Finset.range k1, diag2 y1.rows k1 Q1 Q2 (y1.rows + t) x * star (c.e i x) = 0 := Finset.sum_eq_zero fun q hq => by
          rw [diag2_hi, if_pos (Finset.mem_range.mp hq), zero_mul]
        rw [z0, zero_add, if_neg e, Nat.add_sub_cancel_left]
        unfold lowRank
        rw [star_sum, Finset.sum_congr rfl fun l hl => by rw [hQ2.fac t (show t < y2.rows by omega) l (Finset.mem_range.mp hl)]]
        simp only [star_mul', star_star, Finset.mul_sum]
        rw [Finset.sum_comm, ← hk2]
        refine Finset.sum_congr rfl fun q hq => ?_
        have hq := Finset.mem_range.mp hq
        rw [diag2_hi, if_neg (by omega), Nat.add_sub_cancel_left, hc2 i hi q hq, b2e i hi q hq, star_sum, Finset.mul_sum]
        refine Finset.sum_congr rfl fun l hl => ?_
        rw [Nat.zero_add, hb'2 i hi l (Finset.mem_range.mp hl), star_mul', star_star,
          tri_congr (A := fun i j => W2.e (0 + i) (0 + j)) (B := W2.e) (i := q) (j := l) false false (by simp)]
        ring)
  simp only [star_star] at hform
  refine Tot.pure ⟨⟨hXc, hZc⟩, hXr, hZr, sigma.n, sigma.v, _, _, by omega, hform, g7, g8, g9, fun i hi j hj => ?_⟩
  unfold rkVal part
  refine Finset.sum_congr rfl fun l hl => ?_
  have hl := Finset.mem_range.mp hl
  replace hl : l < knew := hl
  simp only
  rw [hXe i hi l hl]
  have key : (Z.glue y1.rows 0 v2).e j l = ∑ p ∈ Finset.range (k1 + k2), diag2 y1.rows k1 Q1 Q2 j p * star (vt.e l p) := by
    rw [Finset.sum_range_add, glue_e]
    by_cases e : j < y1.rows
    · rw [if_neg (by omega), hZ1 j e l hl, v1e j e l hl]
      rw [Finset.sum_eq_zero (s := Finset.range k2) fun q _ => by rw [diag2_lo e, if_neg (by omega), zero_mul], add_zero]
      refine sum_head (show _ ≤ _ by omega) (fun p hp => ?_) fun p hp hp' => ?_
      · rw [Nat.zero_add, Nat.zero_add, hY1 p (by omega) l hl, if_pos hp, diag2_lo e, if_pos hp]
      · rw [Nat.zero_add, Nat.zero_add, hY1 p hp l hl, if_neg hp', mul_zero]
    · obtain ⟨t, rfl⟩ : ∃ t, j = y1.rows + t := ⟨j - y1.rows, by omega⟩
      rw [if_pos (by omega), Nat.add_sub_cancel_left, Nat.sub_zero, v2e t (by omega) l hl]
      rw [Finset.sum_eq_zero (s := Finset.range k1) fun q hq => by rw [diag2_hi, if_pos (Finset.mem_range.mp hq), zero_mul], zero_add, zero_add]
      refine sum_head (show _ ≤ _ by omega) (fun p hp => ?_) fun p hp hp' => ?_
      · rw [hZ2 p (by omega) l hl, hY2 p (by omega) l hl, if_pos hp, diag2_hi, if_neg (by omega), Nat.add_sub_cancel_left]
      · rw [hZ2 p hp l hl, hY2 p hp l hl, if_neg hp', mul_zero]
  rw [key]
  simp

end H2.Tr

namespace H2.Svd
open Spec
variable {𝕜 : Type} [RCLike 𝕜] {tm : Option Trunc.Mode} {eps : ℝ}

theorem frob_nonneg (rows cols : Nat) (M : Nat → Nat → 𝕜) : 0 ≤ frobSq rows cols M :=
  Finset.sum_nonneg fun _ _ => Finset.sum_nonneg fun _ _ => by positivity

theorem vecSq_nonneg (n : Nat) (x : Nat → 𝕜) : 0 ≤ vecSq n x := Finset.sum_nonneg fun _ _ => by positivity

/-- the Frobenius norm bounds the spectral norm -/
theorem spec_frob (rows cols : Nat) (M : Nat → Nat → 𝕜) : SpecBound rows cols M (frobSq rows cols M) := by
  intro x
  unfold frobSq
  rw [show ∑ j ∈ Finset.range cols, vecSq rows (fun i => M i j) = ∑ i ∈ Finset.range rows, vecSq cols (M i) from Finset.sum_comm, Finset.sum_mul]
  refine Finset.sum_le_sum fun i _ => ?_
  unfold matVec vecSq
  calc _ ≤ (∑ j ∈ Finset.range cols, ‖M i j‖ * ‖x j‖) ^ 2 := by
        refine pow_le_pow_left₀ (norm_nonneg _) ((norm_sum_le _ _).trans (Finset.sum_le_sum fun j _ => (norm_mul _ _).le)) 2
    _ ≤ _ := Finset.sum_mul_sq_le_sq_mul_sq _ _ _

theorem spec_zero {rows cols : Nat} {M : Nat → Nat → 𝕜} (h : SpecBound rows cols M 0) {i j : Nat} (hi : i < rows) (hj : j < cols) : M i j = 0 := by
  have h1 := h fun q => if q = j then 1 else 0
  rw [zero_mul] at h1
  have h2 := (Finset.sum_eq_zero_iff_of_nonneg fun _ _ => by positivity).mp (le_antisymm h1 (vecSq_nonneg _ _)) i (Finset.mem_range.mpr hi)
  have h3 : matVec cols M (fun q => if q = j then 1 else 0) i = M i j := by
    unfold matVec
    rw [Finset.sum_eq_single_of_mem j (Finset.mem_range.mpr hj)] <;> simp +contextual
  rw [h3] at h2
  simpa using h2

/-- accuracy zero means equality -/
theorem close_zero {rows cols : Nat} {M N : Nat → Nat → 𝕜} (h : CloseTo tm 0 rows cols M N) {i j : Nat} (hi : i < rows) (hj : j < cols) : N i j = M i j := by
  have key : SpecBound rows cols (fun i j => M i j - N i j) 0 := by
    have hf : frobSq rows cols (fun i j => M i j - N i j) ≤ 0 → SpecBound rows cols (fun i j => M i j - N i j) 0 := fun h0 => by
      rw [← le_antisymm h0 (frob_nonneg _ _ _)]
      exact spec_frob _ _ _
    match tm, h with
    | some ⟨true, true⟩, h => exact hf (by simpa [CloseTo] using h)
    | some ⟨true, false⟩, h => exact hf (by simpa [CloseTo] using h)
    | some ⟨false, true⟩, h => simpa [CloseTo] using h
    | some ⟨false, false⟩, h => simpa using h _ (frob_nonneg _ _ _) (spec_frob rows cols M)
    | none, h => simpa using h _ (frob_nonneg _ _ _) (spec_frob rows cols M)
  exact (sub_eq_zero.mp (spec_zero key hi hj)).symm

/-- a matrix has every accuracy as an approximation of itself -/
theorem close_self {rows cols : Nat} {M N : Nat → Nat → 𝕜} (h : ∀ i < rows, ∀ j < cols, N i j = M i j) : CloseTo tm eps rows cols M N := by
  have hf : frobSq rows cols (fun i j => M i j - N i j) = 0 := by
    unfold frobSq vecSq
    refine Finset.sum_eq_zero fun j hj => Finset.sum_eq_zero fun i hi => ?_
    beta_reduce
    rw [h i (Finset.mem_range.mp hi) j (Finset.mem_range.mp hj), sub_self, norm_zero, zero_pow two_ne_zero]
  have hs : ∀ B, 0 ≤ B → SpecBound rows cols (fun i j => M i j - N i j) B := fun B hB x => by
    refine (spec_frob rows cols (fun i j => M i j - N i j) x).trans ?_
    rw [hf, zero_mul]
    exact mul_nonneg hB (vecSq_nonneg _ _)
  match tm with
  | some ⟨true, true⟩ => exact hf.le.trans (sq_nonneg _)
  | some ⟨true, false⟩ => exact hf.le.trans (mul_nonneg (sq_nonneg _) (frob_nonneg _ _ _))
  | some ⟨false, true⟩ => exact hs _ (sq_nonneg _)
  | some ⟨false, false⟩ => exact fun B hB _ => hs _ (mul_nonneg (sq_nonneg _) hB)
  | none => exact fun B hB _ => hs _ (mul_nonneg (sq_nonneg _) hB)

end H2.Svd
