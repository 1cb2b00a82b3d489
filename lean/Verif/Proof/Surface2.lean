import Verif.Proof.Surface

set_option linter.unusedSectionVars false

/-! Normal vectors, translation, scaling. -/

namespace H2.Surf
open Spec Krylov

theorem min3_eq (a b c : ℝ) : min3 a b c = min a (min b c) := by
  unfold min3
  rcases lt_or_ge a b with h1 | h1
  · rw [if_pos h1]
    rcases lt_or_ge c a with h2 | h2
    · rw [if_pos h2, min_eq_right (h2.trans h1).le, min_eq_right h2.le]
    · rw [if_neg (not_lt.mpr h2), min_eq_left (le_min h1.le h2)]
  · rw [if_neg (not_lt.mpr h1)]
    rcases lt_or_ge c b with h2 | h2
    · rw [if_pos h2, min_eq_right h2.le, min_eq_right (h2.le.trans h1)]
    · rw [if_neg (not_lt.mpr h2), min_eq_left h2, min_eq_right h1]

theorem rmin_eq (a b : ℝ) : rmin a b = min a b := by
  unfold rmin
  split_ifs with h
  · exact (min_eq_left h.le).symm
  · exact (min_eq_right (not_lt.mp h)).symm

theorem rmax_eq (a b : ℝ) : rmax a b = max a b := by
  unfold rmax
  split_ifs with h
  · exact (max_eq_right h.le).symm
  · exact (max_eq_left (not_lt.mp h)).symm

theorem len3_vec (a b c : ℝ) : len3 ![a, b, c] = √(a ^ 2 + b ^ 2 + c ^ 2) := by
  unfold len3
  congr 1
  simp [dotProduct, Fin.sum_univ_three]
  ring

theorem len3_nonneg (p : Fin 3 → ℝ) : 0 ≤ len3 p := Real.sqrt_nonneg _

theorem len3_sq (p : Fin 3 → ℝ) : len3 p * len3 p = p ⬝ᵥ p := Real.mul_self_sqrt (by
  simp only [dotProduct, Fin.sum_univ_three]; nlinarith [mul_self_nonneg (p 0), mul_self_nonneg (p 1), mul_self_nonneg (p 2)])

theorem len3_eq_zero {p : Fin 3 → ℝ} : len3 p = 0 ↔ p = 0 := by
  constructor
  · intro h
    have h2 := len3_sq p
    rw [h, mul_zero] at h2
    simp only [dotProduct, Fin.sum_univ_three] at h2
    have a0 := mul_self_nonneg (p 0)
    have a1 := mul_self_nonneg (p 1)
    have a2 := mul_self_nonneg (p 2)
    ext k
    fin_cases k
    · exact mul_self_eq_zero.mp (by linarith : p 0 * p 0 = 0)
    · exact mul_self_eq_zero.mp (by linarith : p 1 * p 1 = 0)
    · exact mul_self_eq_zero.mp (by linarith : p 2 * p 2 = 0)
  · rintro rfl
    unfold len3; simp

theorem len3_pos {p : Fin 3 → ℝ} (h : p ≠ 0) : 0 < len3 p := lt_of_le_of_ne (len3_nonneg p) fun x => h (len3_eq_zero.mp x.symm)

/-- Heron's formula -/
theorem heron (u v : Fin 3 → ℝ) : √(2 * (len3 u * len3 u * (len3 v * len3 v) + len3 v * len3 v * (len3 (v - u) * len3 (v - u)) +
      len3 u * len3 u * (len3 (v - u) * len3 (v - u))) -
      (len3 u * len3 u * (len3 u * len3 u) + len3 v * len3 v * (len3 v * len3 v) + len3 (v - u) * len3 (v - u) * (len3 (v - u) * len3 (v - u)))) =
    2 * len3 (crossProduct u v) := by
  rw [len3_sq, len3_sq, len3_sq]
  have : len3 (crossProduct u v) = √(crossProduct u v ⬝ᵥ crossProduct u v) := rfl
  rw [this, show (2 : ℝ) = √4 by rw [show (4 : ℝ) = 2 ^ 2 by norm_num, Real.sqrt_sq (by norm_num)], ← Real.sqrt_mul (by norm_num)]
  congr 1
  rw [show √(4 : ℝ) = 2 by rw [show (4 : ℝ) = 2 ^ 2 by norm_num, Real.sqrt_sq (by norm_num)]]
  rw [cross_apply]
  simp only [dotProduct, Fin.sum_univ_three, Pi.sub_apply, Matrix.cons_val_zero, Matrix.cons_val_one, Matrix.cons_val_two, Matrix.head_cons, Matrix.tail_cons]
  ring

theorem cross_ne {u v : Fin 3 → ℝ} (h : crossProduct u v ≠ 0) : u ≠ 0 ∧ v ≠ 0 ∧ v - u ≠ 0 := by
  refine ⟨fun hu => h ?_, fun hv => h ?_, fun hw => h ?_⟩
  · rw [hu]; simp
  · rw [hv]; simp
  · rw [sub_eq_zero] at hw
    rw [hw]; exact cross_self u

theorem cdiv_ok {x y : ℝ} (h : y ≠ 0) : cdiv x y = .ok (x / y) := if_neg h

theorem prepareTri_eq {m : Surf} (hs : SurfSized m) (hc : ∀ i < m.triangles, ∀ k < 3, corner m i k < m.vertices) {i : Nat} (hi : i < m.triangles)
    (hn : crossTri m i ≠ 0) {st : PrepSt} (hn1 : 3 * m.triangles ≤ st.n.n) (hg1 : m.triangles ≤ st.g.n) :
    Tot (prepareTri m i st) fun st' => st'.n.n = st.n.n ∧ st'.g.n = st.g.n ∧ (∀ k, st'.g.v k = if k = i then len3 (crossTri m i) else st.g.v k) ∧
      (∀ k, st'.n.v k = if k = 3 * i + 2 then crossTri m i 2 / len3 (crossTri m i) else if k = 3 * i + 1 then crossTri m i 1 / len3 (crossTri m i) else
        if k = 3 * i then crossTri m i 0 / len3 (crossTri m i) else st.n.v k) ∧
      st'.hmin = min st.hmin (height m i) ∧ st'.hmax = max st.hmax (height m i) := by
  have := hs.t
  have := hs.x
  have c0 := hc i hi 0 (by norm_num)
  have c1 := hc i hi 1 (by norm_num)
  have c2 := hc i hi 2 (by norm_num)
  have e0 : m.t.v (3 * i) = corner m i 0 := rfl
  have e1 : m.t.v (3 * i + 1) = corner m i 1 := rfl
  have e2 : m.t.v (3 * i + 2) = corner m i 2 := rfl
  unfold prepareTri
  rw [get3_ok (by omega), ok_bind]
  simp only [e0, e1, e2]
  rw [get3_ok (by omega), ok_bind]
  simp only
  rw [get3_ok (by omega), ok_bind]
  simp only
  rw [get3_ok (by omega), ok_bind]
  simp only
  set P := spt m (corner m i 0) with hP
  set Q := spt m (corner m i 1) with hQ
  set S := spt m (corner m i 2) with hS
  have q0 : ∀ c, m.x.v (3 * c) = spt m c 0 := fun c => rfl
  have q1 : ∀ c, m.x.v (3 * c + 1) = spt m c 1 := fun c => rfl
  have q2 : ∀ c, m.x.v (3 * c + 2) = spt m c 2 := fun c => rfl
  simp only [q0, q1, q2, ← hP, ← hQ, ← hS]
  have hX : crossTri m i = ![(Q 1 - P 1) * (S 2 - P 2) - (Q 2 - P 2) * (S 1 - P 1), (Q 2 - P 2) * (S 0 - P 0) - (Q 0 - P 0) * (S 2 - P 2),
      (Q 0 - P 0) * (S 1 - P 1) - (Q 1 - P 1) * (S 0 - P 0)] := by
    show crossProduct (Q - P) (S - P) = _
    rw [cross_apply]; rfl
  have x0 : (Q 1 - P 1) * (S 2 - P 2) - (Q 2 - P 2) * (S 1 - P 1) = crossTri m i 0 := by rw [hX]; rfl
  have x1 : (Q 2 - P 2) * (S 0 - P 0) - (Q 0 - P 0) * (S 2 - P 2) = crossTri m i 1 := by rw [hX]; rfl
  have x2 : (Q 0 - P 0) * (S 1 - P 1) - (Q 1 - P 1) * (S 0 - P 0) = crossTri m i 2 := by rw [hX]; rfl
  rw [x0, x1, x2]
  have l3 : ∀ p : Fin 3 → ℝ, √(p 0 ^ 2 + p 1 ^ 2 + p 2 ^ 2) = len3 p := fun p => by
    rw [← len3_vec]; congr 1; ext k; fin_cases k <;> rfl
  have l3' : ∀ p q : Fin 3 → ℝ, √((p 0 - q 0) ^ 2 + (p 1 - q 1) ^ 2 + (p 2 - q 2) ^ 2) = len3 (p - q) := fun p q => l3 (p - q)
  rw [l3 (crossTri m i), l3' Q P, l3' S P, l3' S Q]
  have hlen := len3_pos hn
  rw [Arr.set_ok (by omega), ok_bind, cdiv_ok hlen.ne', ok_bind, cdiv_ok hlen.ne', ok_bind, cdiv_ok hlen.ne', ok_bind, set3_ok (by omega), ok_bind]
  have hcr : crossTri m i = crossProduct (Q - P) (S - P) := rfl
  obtain ⟨n1, n2, n3⟩ := cross_ne (hcr ▸ hn)
  have hSQ : S - P - (Q - P) = S - Q := by abel
  rw [hSQ] at n3
  have hmin : min3 (len3 (Q - P)) (len3 (S - P)) (len3 (S - Q)) = min (len3 (Q - P)) (min (len3 (S - P)) (len3 (S - Q))) := min3_eq _ _ _
  have hmp : 0 < min (len3 (Q - P)) (min (len3 (S - P)) (len3 (S - Q))) := lt_min (len3_pos n1) (lt_min (len3_pos n2) (len3_pos n3))
  rw [hmin, cdiv_ok (by positivity), ok_bind]
  have hh := heron (Q - P) (S - P)
  rw [hSQ] at hh
  have hheight : √(2 * (len3 (Q - P) * len3 (Q - P) * (len3 (S - P) * len3 (S - P)) + len3 (S - P) * len3 (S - P) * (len3 (S - Q) * len3 (S - Q)) +
      len3 (Q - P) * len3 (Q - P) * (len3 (S - Q) * len3 (S - Q))) -
      (len3 (Q - P) * len3 (Q - P) * (len3 (Q - P) * len3 (Q - P)) + len3 (S - P) * len3 (S - P) * (len3 (S - P) * len3 (S - P)) +
      len3 (S - Q) * len3 (S - Q) * (len3 (S - Q) * len3 (S - Q)))) / (2 * min (len3 (Q - P)) (min (len3 (S - P)) (len3 (S - Q)))) = height m i := by
    rw [hh]
    unfold height
    rw [mul_div_mul_left _ _ (by norm_num)]
    rfl
  rw [hheight]
  refine Tot.pure ⟨rfl, rfl, fun k => rfl, fun k => rfl, rmin_eq _ _, rmax_eq _ _⟩

/-- the result of the preparation -/
theorem prepare_tot {m : Surf} (hs : SurfSized m) (hc : ∀ i < m.triangles, ∀ k < 3, corner m i k < m.vertices) (hn : NonDegenerateSurf m) :
    Tot (prepare m) fun r => SameTopology m r ∧ r.x = m.x ∧ SurfSized r ∧ Prepared r := by
  unfold prepare
  refine Tot.bind (P := fun (st : PrepSt) => st.n.n = m.n.n ∧ st.g.n = m.g.n ∧ (∀ i < m.triangles, st.g.v i = len3 (crossTri m i) ∧
      ![st.n.v (3 * i), st.n.v (3 * i + 1), st.n.v (3 * i + 2)] = (1 / len3 (crossTri m i)) • crossTri m i) ∧
      (∀ i < m.triangles, st.hmin ≤ height m i) ∧ (∀ i < m.triangles, height m i ≤ st.hmax) ∧ (st.hmin ≤ 10 ^ 30 ∧ 0 ≤ st.hmax) ∧
      (st.hmin = 10 ^ 30 ∨ ∃ i < m.triangles, st.hmin = height m i) ∧ (st.hmax = 0 ∨ ∃ i < m.triangles, st.hmax = height m i)) ?_ ?_
  · refine forUp_tot (fun j (st : PrepSt) => st.n.n = m.n.n ∧ st.g.n = m.g.n ∧ (∀ i < j, st.g.v i = len3 (crossTri m i) ∧
      ![st.n.v (3 * i), st.n.v (3 * i + 1), st.n.v (3 * i + 2)] = (1 / len3 (crossTri m i)) • crossTri m i) ∧
      (∀ i < j, st.hmin ≤ height m i) ∧ (∀ i < j, height m i ≤ st.hmax) ∧ (st.hmin ≤ 10 ^ 30 ∧ 0 ≤ st.hmax) ∧
      (st.hmin = 10 ^ 30 ∨ ∃ i < j, st.hmin = height m i) ∧ (st.hmax = 0 ∨ ∃ i < j, st.hmax = height m i)) (Nat.zero_le _) ?_ ?_
    · exact ⟨rfl, rfl, fun i hi => absurd hi (by omega), fun i hi => absurd hi (by omega), fun i hi => absurd hi (by omega), ⟨le_refl _, le_refl _⟩, .inl rfl, .inl rfl⟩
    · rintro j st _ hj ⟨h1, h2, h3, h4, h5, h6, h7, h8⟩
      have hn1 := hs.n
      have hg1 := hs.g
      refine Tot.mono (prepareTri_eq hs hc hj (hn j hj) (by omega) (by omega)) ?_
      rintro st' ⟨s1, s2, s3, s4, s5, s6⟩
      refine ⟨s1.trans h1, s2.trans h2, fun i hi => ?_, fun i hi => ?_, fun i hi => ?_, ?_, ?_, ?_⟩
      · rcases Nat.lt_or_eq_of_le (Nat.le_of_lt_succ hi) with hh | hh
        · rw [s3, if_neg (by omega), s4, s4, s4, if_neg (by omega), if_neg (by omega), if_neg (by omega), if_neg (by omega), if_neg (by omega), if_neg (by omega),
            if_neg (by omega), if_neg (by omega), if_neg (by omega)]
          exact h3 i hh
        · subst hh
          rw [s3, if_pos rfl, s4, s4, s4, if_neg (by omega), if_neg (by omega), if_pos rfl, if_neg (by omega), if_pos rfl, if_pos rfl]
          refine ⟨rfl, ?_⟩
          ext k
          fin_cases k <;> simp [div_eq_inv_mul]
      · rw [s5]
        rcases Nat.lt_or_eq_of_le (Nat.le_of_lt_succ hi) with hh | hh
        · exact (min_le_left _ _).trans (h4 i hh)
        · subst hh; exact min_le_right _ _
      · rw [s6]
        rcases Nat.lt_or_eq_of_le (Nat.le_of_lt_succ hi) with hh | hh
        · exact (h5 i hh).trans (le_max_left _ _)
        · subst hh; exact le_max_right _ _
      · rw [s5, s6]; exact ⟨(min_le_left _ _).trans h6.1, h6.2.trans (le_max_left _ _)⟩
      · rw [s5]
        rcases le_total st.hmin (height m j) with hh | hh
        · rw [min_eq_left hh]
          rcases h7 with h7 | ⟨i, hi, h7⟩
          · exact .inl h7
          · exact .inr ⟨i, by omega, h7⟩
        · rw [min_eq_right hh]
          exact .inr ⟨j, by omega, rfl⟩
      · rw [s6]
        rcases le_total (height m j) st.hmax with hh | hh
        · rw [max_eq_left hh]
          rcases h8 with h8 | ⟨i, hi, h8⟩
          · exact .inl h8
          · exact .inr ⟨i, by omega, h8⟩
        · rw [max_eq_right hh]
          exact .inr ⟨j, by omega, rfl⟩
  · rintro st - ⟨h1, h2, h3, h4, h5, h6, h7, h8⟩
    refine Tot.pure ⟨⟨rfl, rfl, rfl, rfl, rfl, rfl⟩, rfl, ⟨hs.x, hs.e, hs.t, hs.s, by rw [show ({ m with n := st.n, g := st.g, hmin := st.hmin, hmax := st.hmax } : Surf).n = st.n from rfl, h1]; exact hs.n, by
      rw [show ({ m with n := st.n, g := st.g, hmin := st.hmin, hmax := st.hmax } : Surf).g = st.g from rfl, h2]; exact hs.g⟩, ?_, ?_, h4, h5, h6, h7, h8⟩
    · intro i hi
      show (![st.n.v (3 * i), st.n.v (3 * i + 1), st.n.v (3 * i + 2)] : Fin 3 → ℝ) ⬝ᵥ ![st.n.v (3 * i), st.n.v (3 * i + 1), st.n.v (3 * i + 2)] = 1
      have hp := len3_pos (hn i hi)
      rw [(h3 i hi).2, smul_dotProduct, dotProduct_smul, ← len3_sq, smul_eq_mul, smul_eq_mul]
      field_simp
    · intro i hi
      have hp := len3_pos (hn i hi)
      show 0 < st.g.v i ∧ st.g.v i • (![st.n.v (3 * i), st.n.v (3 * i + 1), st.n.v (3 * i + 2)] : Fin 3 → ℝ) = crossTri m i
      rw [(h3 i hi).2, (h3 i hi).1, smul_smul, mul_one_div, div_self hp.ne', one_smul]
      exact ⟨hp, rfl⟩

/-- the data of a prepared surface are determined by the cross products and heights -/
theorem prepared_unique {m r : Surf} (hm : Prepared m) (hr : Prepared r) (ht : r.triangles = m.triangles) (hc : ∀ i < m.triangles, crossTri r i = crossTri m i)
    (hh : ∀ i < m.triangles, height r i = height m i) :
    (∀ i < m.triangles, snormal r i = snormal m i ∧ r.g.v i = m.g.v i) ∧ r.hmin = m.hmin ∧ r.hmax = m.hmax := by
  refine ⟨fun i hi => ?_, ?_, ?_⟩
  · have key : ∀ {p : Surf}, Prepared p → i < p.triangles → p.g.v i = len3 (crossTri p i) := by
      intro p hp hi
      obtain ⟨h1, h2⟩ := hp.gram i hi
      have h3 := hp.unit i hi
      unfold len3
      rw [← h2, smul_dotProduct, dotProduct_smul, h3, smul_eq_mul, smul_eq_mul, mul_one, Real.sqrt_mul_self h1.le]
    have g1 := key hm hi
    have g2 := key hr (by omega)
    rw [hc i hi] at g2
    have g3 : r.g.v i = m.g.v i := g2.trans g1.symm
    refine ⟨?_, g3⟩
    have a := (hm.gram i hi)
    have b := (hr.gram i (by omega)).2
    rw [hc i hi, g3, ← a.2] at b
    exact smul_right_injective _ a.1.ne' b
  · apply le_antisymm
    · rcases hm.hmin with h | ⟨i, hi, h⟩
      · rw [h]; exact hr.bound.1
      · rw [h, ← hh i hi]; exact hr.lower i (by omega)
    · rcases hr.hmin with h | ⟨i, hi, h⟩
      · rw [h]; exact hm.bound.1
      · rw [h, hh i (by omega)]; exact hm.lower i (by omega)
  · apply le_antisymm
    · rcases hr.hmax with h | ⟨i, hi, h⟩
      · rw [h]; exact hm.bound.2
      · rw [h, hh i (by omega)]; exact hm.upper i (by omega)
    · rcases hm.hmax with h | ⟨i, hi, h⟩
      · rw [h]; exact hr.bound.2
      · rw [h, ← hh i hi]; exact hr.upper i (by omega)

end H2.Surf
