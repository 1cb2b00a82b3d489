import Verif.Proof.Aca

/-! # C50: adaptive cross approximation -/

set_option linter.unusedSectionVars false

namespace H2.Props
open Spec Aca Dense
variable {𝕜 : Type} [RCLike 𝕜]

theorem sum_perm_cross {A0 F : Nat → Nat → 𝕜} {rows cols k : Nat} {P Q : Nat → Nat} (h : CrossInv A0 rows cols k P Q F)
    {C D : Nat → Nat → 𝕜} (hC : ∀ i < rows, ∀ l < k, C (P i) l = lo F i l) (hD : ∀ j < cols, ∀ l < k, D (Q j) l = star (up F l j))
    {i j : Nat} (hi : i < rows) (hj : j < cols) :
    A0 (P i) (Q j) - ∑ l ∈ Finset.range k, C (P i) l * star (D (Q j) l) = if k ≤ i ∧ k ≤ j then F i j else 0 := by
  rw [h i hi j hj]
  have : ∑ l ∈ Finset.range k, C (P i) l * star (D (Q j) l) = ∑ l ∈ Finset.range k, lo F i l * up F l j :=
    Finset.sum_congr rfl fun l hl => by
      rw [Finset.mem_range] at hl
      rw [hC i hi l hl, hD j hj l hl, star_star]
  rw [this]; ring

/-- For every matrix `A`, every accuracy and every allocator, `decomp_fullaca_rkmatrix` returns a cross approximation: it agrees with
`A` in all pivot rows and columns, the factors are triangular with respect to the pivots, no entry of the remainder exceeds `accur`
times the largest entry of `A`, and nothing but `A` and the factors has changed in memory. -/
theorem C50_fullaca {al : Alloc 𝕜} (hal : GoodAlloc al) (junk : Nat → 𝕜) {a : Mat} {r : Rk} {m : Mem 𝕜} (ha : a.Valid m)
    (hr : RkOwns r m) (hm : BoundedMem m) (hd : ∀ c, a.Cell c → ¬ Block r.A c ∧ ¬ Block r.B c) (accur : ℝ) :
    Tot (fullaca al junk a accur r m) fun res =>
      IsCross (a.val m) a.rows a.cols res.r res.ridx res.cidx res.mem ∧
      (∀ M : ℝ, (∀ x < a.rows, ∀ y < a.cols, ‖a.val m x y‖ ≤ M) → ∀ x < a.rows, ∀ y < a.cols,
        ‖a.val m x y - rkEntry res.r res.mem x y‖ ≤ |accur| * M) ∧
      RkOwns res.r res.mem ∧
      ∀ c, ¬ a.Cell c → ¬ Block r.A c → ¬ Block r.B c → ¬ Block res.r.A c → ¬ Block res.r.B c → res.mem c = m c := by
  unfold fullaca
  refine Tot.bind (findMax_tot (valid_becomes ha) (Nat.zero_le _) (Nat.zero_le _) 0 0) ?_
  rintro ⟨M0, i0, j0⟩ - hmax
  have ht : 0 ≤ M0 * accur * accur := by rw [mul_assoc]; exact mul_nonneg hmax.1 (mul_self_nonneg _)
  refine Tot.bind (fullLoop_tot (m0 := m) (F := a.val m) ht (min a.rows a.cols) ⟨valid_becomes ha, Nat.zero_le _, Nat.zero_le _, rfl, rfl, rfl, rfl,
    fun l hl => absurd hl (Nat.not_lt_zero _), fun l hl => absurd hl (Nat.not_lt_zero _), fun i => rfl, fun i => rfl,
    fun i _ j _ => by simp [idxArr], fun l hl => absurd hl (Nat.not_lt_zero _), hmax⟩ (by simp)) ?_
  rintro s - ⟨⟨F, hF⟩, hend⟩
  have hms : BoundedMem s.mem := bounded_becomes hm hF.mem
  have hrs : RkOwns r s.mem := ⟨hr.la, hr.lb, fun c h1 h2 => by
      rw [hF.mem.2.2 c fun h => (hd c h).1 ⟨h1, h2⟩]; exact hr.oa c h1 h2, fun c h1 h2 => by
      rw [hF.mem.2.2 c fun h => (hd c h).2 ⟨h1, h2⟩]; exact hr.ob c h1 h2, hr.disj⟩
  refine Tot.bind (resizeRk_tot hal junk hrs hms a.rows a.cols s.k (S := a.Cell) fun c hc => ⟨?_, hd c hc⟩) ?_
  · obtain ⟨i, hi, j, hj, rfl⟩ := hc
    exact hF.mem.1.2 i hi j hj
  rintro ⟨r', m1⟩ - ⟨e1, e2, e3, e4, e5, ho, hb1, hdis, hfr⟩
  simp only at e1 e2 e3 e4 e5 ho hb1 hdis hfr ⊢
  have hAB : Disj r'.A.Cell r'.B.Cell := fun c h1 h2 => ho.disj c (cell_block ho.la h1) (cell_block ho.lb h2)
  have haA : Disj a.Cell r'.A.Cell := fun c h1 h2 => (hdis c h1).1 (cell_block ho.la h2)
  have haB : Disj a.Cell r'.B.Cell := fun c h1 h2 => (hdis c h1).2 (cell_block ho.lb h2)
  have hA1 : ∀ i < a.rows, ∀ j < a.cols, m1 (a.addr i j) = some (F i j) := fun i hi j hj => by
    have hc : a.Cell (a.addr i j) := ⟨i, hi, j, hj, rfl⟩
    rw [hfr _ (hd _ hc).1 (hd _ hc).2 (hdis _ hc).1 (hdis _ hc).2, hF.mem.1.some hi hj, hF.mem.2.1 i hi j hj]
  have hv := owns_valid ho.la ho.oa
  have hw := owns_valid ho.lb ho.ob
  have hB1 : Both r'.A r'.B m1 (r'.A.val m1) (r'.B.val m1) m1 :=
    ⟨fun i hi j hj => hv.some hi hj, fun i hi j hj => hw.some hi hj, fun _ _ => rfl⟩
  refine Tot.bind (copyLowerC_tot hA1 haA hv e1 e3.ge hF.kc hF.kr) fun m2 _ h2 => ?_
  have hB2 := hB1.of_becomes hAB h2
  have hA2 : ∀ i < a.rows, ∀ j < a.cols, m2 (a.addr i j) = some (F i j) := fun i hi j hj => by
    rw [h2.2.2 _ (haA _ ⟨i, hi, j, hj, rfl⟩), hA1 i hi j hj]
  refine Tot.bind (copyUpperD_tot hA2 haB (hB2.symm.validL ho.lb) e2 e4.ge hF.kr hF.kc) fun m3 _ h3 => ?_
  have hB3 := (hB2.symm.of_becomes (fun c h1 h2 => hAB c h2 h1) h3).symm
  refine Tot.bind (reversePerm_tot ho.la ho.lb hAB e3.ge e4.ge (by rw [e1]; exact hF.kr) (by rw [e2]; exact hF.kc)
    (by rw [hF.nr]; exact le_min hF.kr hF.kc) (by rw [hF.nc]; exact le_min hF.kr hF.kc) (by rw [e1]; exact hF.rlt)
    (by rw [e2]; exact hF.clt) hB3) ?_
  rintro m4 - ⟨C', D', hB4, hC, hD⟩
  refine Tot.bind (copyIdx_tot (by rw [hF.nrp]; exact hF.kr)) fun ri _ hri => Tot.bind (copyIdx_tot (by rw [hF.ncp]; exact hF.kc)) fun ci _ hci => ?_
  have hk1 := hF.kr
  have hk2 := hF.kc
  -- the permutations
  have hP : ∀ i < s.k, ri.v i = perms s.rperm.v s.k i := fun i hi => by rw [hri.2 i hi, hF.rp]
  have hQ : ∀ i < s.k, ci.v i = perms s.cperm.v s.k i := fun i hi => by rw [hci.2 i hi, hF.cp]
  have hPlt := perms_lt hF.kr hF.rlt
  have hQlt := perms_lt hF.kc hF.clt
  have valA : ∀ x < a.rows, ∀ l < s.k, r'.A.val m4 x l = C' x l := fun x hx l hl => by
    unfold Mat.val; rw [hB4.1 x (by omega) l (by omega)]; rfl
  have valB : ∀ y < a.cols, ∀ l < s.k, r'.B.val m4 y l = D' y l := fun y hy l hl => by
    unfold Mat.val; rw [hB4.2.1 y (by omega) l (by omega)]; rfl
  have hCA : ∀ i < a.rows, ∀ l < s.k, r'.A.val m4 (perms s.rperm.v s.k i) l = lo F i l := fun i hi l hl => by
    rw [valA _ ((hPlt i).mpr hi) l hl, hC i (by omega) l hl, if_pos hl]
  have hDB : ∀ j < a.cols, ∀ l < s.k, r'.B.val m4 (perms s.cperm.v s.k j) l = star (up F l j) := fun j hj l hl => by
    rw [valB _ ((hQlt j).mpr hj) l hl, hD j (by omega) l hl, if_pos hl]
  have hcross : CrossInv (a.val m) a.rows a.cols s.k (perms s.rperm.v s.k) (perms s.cperm.v s.k) F := by
    have h := hF.cross
    rw [funext hF.rp, funext hF.cp] at h
    exact h
  have hrem : ∀ i < a.rows, ∀ j < a.cols, a.val m (perms s.rperm.v s.k i) (perms s.cperm.v s.k j) -
      rkEntry r' m4 (perms s.rperm.v s.k i) (perms s.cperm.v s.k j) = if s.k ≤ i ∧ s.k ≤ j then F i j else 0 := fun i hi j hj => by
    rw [rkEntry, e5]
    exact sum_perm_cross hcross hCA hDB hi hj
  refine Tot.pure ⟨⟨⟨hB4.validL ho.la, hB4.symm.validL ho.lb⟩, ⟨e1, e2, e3.trans e5.symm, e4.trans e5.symm⟩, by rw [e5]; exact ⟨hk1, hk2⟩, ?_, ?_, ?_, ?_, ?_, ?_⟩, ?_, ?_, ?_⟩
  · rw [e5]
    refine ⟨hri.1, fun i hi => ?_, fun i hi j hj h => ?_⟩
    · rw [hP i hi]; exact (hPlt i).mpr (by omega)
    · rw [hP i hi, hP j hj] at h; exact (perms s.rperm.v s.k).injective h
  · rw [e5]
    refine ⟨hci.1, fun i hi => ?_, fun i hi j hj h => ?_⟩
    · rw [hQ i hi]; exact (hQlt i).mpr (by omega)
    · rw [hQ i hi, hQ j hj] at h; exact (perms s.cperm.v s.k).injective h
  · intro l hl y hy
    rw [e5] at hl
    obtain ⟨j, hj, rfl⟩ := perms_inv hF.kc hF.clt hy
    have h := hrem l (by omega) j hj
    rw [if_neg (by omega)] at h
    rw [hP l hl]
    exact (sub_eq_zero.mp h).symm
  · intro l hl x hx
    rw [e5] at hl
    obtain ⟨i, hi, rfl⟩ := perms_inv hF.kr hF.rlt hx
    have h := hrem i hi l (by omega)
    rw [if_neg (by omega)] at h
    rw [hQ l hl]
    exact (sub_eq_zero.mp h).symm
  · intro i hi l hl hil
    rw [e5] at hi hl
    show r'.A.val m4 (ri.v i) l = _
    rw [hP i hi, hCA i (by omega) l hl, lo]
    by_cases e : i = l
    · rw [if_neg (by omega), if_pos e]; simp [e]
    · rw [if_pos (by omega), if_neg e]
  · intro i hi l hl hil
    rw [e5] at hi hl
    show r'.B.val m4 (ci.v i) l = 0 ↔ _
    rw [hQ i hi, hDB i (by omega) l hl, star_eq_zero, up]
    by_cases e : i = l
    · subst e; rw [if_neg (lt_irrefl _)]; simp [hF.piv i hi]
    · rw [if_pos (by omega)]; simp [e]
  · intro M hM x hx y hy
    obtain ⟨i, hi, rfl⟩ := perms_inv hF.kr hF.rlt hx
    obtain ⟨j, hj, rfl⟩ := perms_inv hF.kc hF.clt hy
    have h := hrem i hi j hj
    have hM0 : 0 ≤ M := (norm_nonneg _).trans (hM _ hx _ hy)
    show ‖_ - rkEntry r' m4 _ _‖ ≤ _
    rw [h]
    by_cases e : s.k ≤ i ∧ s.k ≤ j
    · rw [if_pos e]
      rcases hend with hend | hend
      · omega
      · have h1 := hF.max.2.1 i j e.1 hi e.2 hj
        have h2 : RCLike.normSq (F i j) ≤ M0 * accur * accur := h1.trans hend
        have hM1 : M0 ≤ M * M := by
          by_cases e0 : 0 < M0
          · obtain ⟨_, g1, _, g2, g3⟩ := hmax.2.2 e0
            simp only at g1 g2 g3
            rw [← g3, RCLike.normSq_eq_def', sq]
            exact mul_self_le_mul_self (norm_nonneg _) (hM _ g1 _ g2)
          · exact (not_lt.mp e0).trans (mul_self_nonneg M)
        rw [RCLike.normSq_eq_def'] at h2
        have h3 : ‖F i j‖ ^ 2 ≤ (|accur| * M) ^ 2 := by
          rw [mul_pow, sq_abs]
          calc ‖F i j‖ ^ 2 ≤ M0 * accur * accur := h2
            _ = accur ^ 2 * M0 := by ring
            _ ≤ accur ^ 2 * (M * M) := mul_le_mul_of_nonneg_left hM1 (sq_nonneg _)
            _ = accur ^ 2 * M ^ 2 := by ring
        exact le_of_sq_le_sq h3 (mul_nonneg (abs_nonneg _) hM0)
    · rw [if_neg e, norm_zero]
      exact mul_nonneg (abs_nonneg _) hM0
  · refine ⟨ho.la, ho.lb, fun c c1 c2 => ?_, fun c c1 c2 => ?_, ho.disj⟩
    · show (m4 c).isSome
      by_cases hc : r'.A.Cell c
      · obtain ⟨i, hi, j, hj, rfl⟩ := hc; rw [hB4.1 i hi j hj]; rfl
      · rw [hB4.2.2 c (fun h => h.elim hc fun h => ho.disj c ⟨c1, c2⟩ (cell_block ho.lb h))]; exact ho.oa c c1 c2
    · show (m4 c).isSome
      by_cases hc : r'.B.Cell c
      · obtain ⟨i, hi, j, hj, rfl⟩ := hc; rw [hB4.2.1 i hi j hj]; rfl
      · rw [hB4.2.2 c (fun h => h.elim (fun h => ho.disj c (cell_block ho.la h) ⟨c1, c2⟩) hc)]; exact ho.ob c c1 c2
  · intro c h1 h2 h3 h4 h5
    show m4 c = m c
    rw [hB4.2.2 c (fun h => h.elim (fun h => h4 (cell_block ho.la h)) fun h => h5 (cell_block ho.lb h)), hfr c h2 h3 h4 h5, hF.mem.2.2 c h1]

end H2.Props
