import Verif.Proof.Tridiag5

set_option linter.unusedSectionVars false

/-!
# C72 Tridiagonalization of self-adjoint matrices

`sb_tridiagonalize_amatrix` computes a unitary matrix `Q` and a real tridiagonal matrix `T`.  The eigenvalues of `T` are those of the given matrix; the
columns of `Q` belong to `T` unless a column vanishes during the elimination.
-/

namespace H2.Props
open H2 H2.Spec H2.Eig Matrix
open scoped Matrix.Norms.L2Operator
variable {𝕜 : Type} [RCLike 𝕜]

/-- C72: For a self-adjoint matrix `A`, the program returns normally, `Q` is unitary, the sub- and superdiagonal of `T` coincide and are non-negative, and
`A` is, up to `2 (n - 1) sqrt(tiny)` in the spectral norm, equal to `Q T_w Q^*`, where the subdiagonal entries of `T_w` are those of `T` multiplied by
numbers `w i` of modulus one.  The factor `w i` can differ from one only if the previous subdiagonal entry of `T` is zero. -/
theorem C72_tridiagonalize {sgn : 𝕜 → 𝕜} (hsgn : ∀ x, ‖sgn x‖ = 1 ∧ sgn x * (‖x‖ : 𝕜) = x) {n : Nat} {tiny : ℝ} (ht : 0 ≤ tiny) (A Q : VMat 𝕜) (T : Tri)
    (hr : A.rows = n) (hc : A.cols = n) (hd : T.d.n = n) (hl : T.l.n = n - 1) (hu : T.u.n = n - 1) (hqr : Q.rows = n) (hqc : Q.cols = n)
    (hA : ∀ i j, i < n → j < n → A.e i j = star (A.e j i)) :
    ∃ A' T' Q', tridiagonalize sgn tiny A T (some Q) = .ok (A', T', some Q') ∧ T'.d.n = n ∧ T'.l.n = n - 1 ∧ T'.u.n = n - 1 ∧ Q'.rows = n ∧ Q'.cols = n ∧
      (∀ i < n - 1, 0 ≤ T'.l.v i ∧ T'.u.v i = T'.l.v i) ∧ (vmat Q' : Matrix (Fin n) (Fin n) 𝕜) * (vmat Q')ᴴ = 1 ∧
      ∃ w : Nat → 𝕜, (∀ i < n - 1, ‖w i‖ = 1) ∧ (∀ i < n - 1, i = 0 ∨ T'.l.v (i - 1) ≠ 0 → w i = 1) ∧
        ‖(vmat Q' : Matrix (Fin n) (Fin n) 𝕜) * herTri n T'.d.v (fun i => w i * (T'.l.v i : 𝕜)) * (vmat Q')ᴴ - vmat A‖ ≤ (n - 1 : ℕ) * (2 * √tiny) := by
  obtain ⟨A', T', Q', w, e, h⟩ := tridiagonalize_tot hsgn ht hr hc hd (T := T) hl.ge hu.ge hqr hqc hA
  exact ⟨A', T', Q', e, h.dn, h.ln.trans hl, h.un.trans hu, h.qr, h.qc, h.lu, h.uni, w, h.w1, h.ww, h.err⟩

/-- C72: the matrix `T` is always unitarily similar to `A` (up to the threshold for vanishing columns), so its eigenvalues are correct. -/
theorem C72_similar {sgn : 𝕜 → 𝕜} (hsgn : ∀ x, ‖sgn x‖ = 1 ∧ sgn x * (‖x‖ : 𝕜) = x) {n : Nat} {tiny : ℝ} (ht : 0 ≤ tiny) (A Q : VMat 𝕜) (T : Tri)
    (hr : A.rows = n) (hc : A.cols = n) (hd : T.d.n = n) (hl : T.l.n = n - 1) (hu : T.u.n = n - 1) (hqr : Q.rows = n) (hqc : Q.cols = n)
    (hA : ∀ i j, i < n → j < n → A.e i j = star (A.e j i)) :
    ∃ A' T' Q', tridiagonalize sgn tiny A T (some Q) = .ok (A', T', some Q') ∧ ∃ V : Matrix (Fin n) (Fin n) 𝕜, V * Vᴴ = 1 ∧
      ‖V * herTri n T'.d.v (fun i => (T'.l.v i : 𝕜)) * Vᴴ - vmat A‖ ≤ (n - 1 : ℕ) * (2 * √tiny) := by
  obtain ⟨A', T', Q', w, e, h⟩ := tridiagonalize_tot hsgn ht hr hc hd (T := T) hl.ge hu.ge hqr hqc hA
  obtain ⟨E, hE, hE'⟩ := herTri_unimodular T'.d.v T'.l.v w h.w1
  refine ⟨A', T', Q', e, vmat Q' * E, ?_, ?_⟩
  · rw [Matrix.conjTranspose_mul, Matrix.mul_assoc, ← Matrix.mul_assoc E, hE, Matrix.one_mul, h.uni]
  · have := h.err
    rw [← hE'] at this
    refine le_of_eq_of_le ?_ this
    rw [Matrix.conjTranspose_mul]
    congr 2
    noncomm_ring

/-- C72: if no subdiagonal entry of `T` except the last one vanishes and no column is discarded, the factorization is exact: `A = Q T Q^*`. -/
theorem C72_unreduced {sgn : 𝕜 → 𝕜} (hsgn : ∀ x, ‖sgn x‖ = 1 ∧ sgn x * (‖x‖ : 𝕜) = x) {n : Nat} (A Q A' Q' : VMat 𝕜) (T T' : Tri)
    (hr : A.rows = n) (hc : A.cols = n) (hd : T.d.n = n) (hl : T.l.n = n - 1) (hu : T.u.n = n - 1) (hqr : Q.rows = n) (hqc : Q.cols = n)
    (hA : ∀ i j, i < n → j < n → A.e i j = star (A.e j i)) (hres : tridiagonalize sgn 0 A T (some Q) = .ok (A', T', some Q'))
    (hne : ∀ i, i + 2 < n → T'.l.v i ≠ 0) :
    (vmat Q' : Matrix (Fin n) (Fin n) 𝕜) * (vmat Q')ᴴ = 1 ∧
    (vmat Q' : Matrix (Fin n) (Fin n) 𝕜) * herTri n T'.d.v (fun i => (T'.l.v i : 𝕜)) * (vmat Q')ᴴ = vmat A := by
  obtain ⟨A1, T1, Q1, w, e, h⟩ := tridiagonalize_tot hsgn (le_refl (0 : ℝ)) hr hc hd (T := T) hl.ge hu.ge hqr hqc hA
  rw [e] at hres
  cases hres
  refine ⟨h.uni, ?_⟩
  have he := h.err
  rw [Real.sqrt_zero, mul_zero, mul_zero] at he
  have hz := sub_eq_zero.mp (norm_le_zero_iff.mp he)
  rw [← hz]
  congr 2
  ext i j
  have hi := i.2
  have hj := j.2
  have hw : ∀ m, m + 1 < n → w m = 1 := fun m hm => h.ww m (by omega) (by
    by_cases h0 : m = 0
    · exact .inl h0
    · exact .inr (hne (m - 1) (by omega)))
  unfold herTri
  beta_reduce
  split_ifs
  · rfl
  · rw [hw _ (by omega), one_mul]
  · rw [hw _ (by omega), one_mul]
  · rfl

/-- C72: `sb_eig_amatrix` may be called without a matrix for the eigenvectors, but the assertions of the tridiagonalization read through the null pointer. -/
theorem C72_null (sgn : 𝕜 → 𝕜) (tiny : ℝ) (A : VMat 𝕜) (T : Tri) (h : A.cols = A.rows) : tridiagonalize sgn tiny A T none = .error .ub := by
  unfold tridiagonalize
  simp only
  rw [cassert_true (by simpa using h), ok_bind]
  rfl

/-! ## A vanishing column -/

/-- two copies of the positive definite matrix `[[3, 1], [1, 3]]` -/
def swap72 : VMat ℝ := ⟨4, 4, fun i j => if i = j then 3 else if (i = 0 ∧ j = 1) ∨ (i = 1 ∧ j = 0) ∨ (i = 2 ∧ j = 3) ∨ (i = 3 ∧ j = 2) then 1 else 0⟩

theorem sgnReal_one : Dense.sgnReal 1 = 1 := by unfold Dense.sgnReal; rw [if_neg (by norm_num)]
theorem sgnReal_neg : Dense.sgnReal (-1) = -1 := by unfold Dense.sgnReal; rw [if_pos (by norm_num)]

/-- a step whose column is already a multiple of the unit vector -/
theorem unit_step72 {tiny : ℝ} (ht1 : tiny < 1) {n k : Nat} {a : ℝ} (ha : a = 1 ∨ a = -1) {st : TdSt ℝ} (hk : k + 1 < n) (g1 : st.A.rows = n) (g2 : st.A.cols = n) (g3 : st.T.d.n = n)
    (g4 : n - 1 ≤ st.T.l.n) (g5 : n - 1 ≤ st.T.u.n) (g6 : st.Q.rows = n) (g7 : st.Q.cols = n) (h1 : st.A.e (k + 1) k = a)
    (h0 : ∀ i, k + 1 < i → i < n → st.A.e i k = 0) :
    Tot (tdStep Dense.sgnReal tiny n k st) fun st' => st'.A.rows = n ∧ st'.A.cols = n ∧ st'.Q.rows = n ∧ st'.Q.cols = n ∧ st'.T.d.n = st.T.d.n ∧
      st'.T.l.n = st.T.l.n ∧ st'.T.u.n = st.T.u.n ∧ (∀ j, st'.T.l.v j = if j = k then 1 else st.T.l.v j) ∧ st'.psign = -(st.psign * a) ∧
      (∀ i j, k < i → i < n → k < j → j < n → st'.A.e i j = st.A.e i j * (if i = k + 1 then -1 else 1) * (if j = k + 1 then -1 else 1)) ∧
      (∀ i j, i < n → j < n → st'.Q.e i j = st.Q.e i j * (if j = k + 1 then st.psign * a else 1)) := by
  have han : ‖a‖ = 1 := by rcases ha with rfl | rfl <;> simp
  have hsa : Dense.sgnReal a = a := by
    rcases ha with rfl | rfl
    · exact sgnReal_one
    · exact sgnReal_neg
  have hsp : Dense.sgnReal (-a) = -a := by
    rcases ha with rfl | rfl
    · exact sgnReal_neg
    · rw [neg_neg]; exact sgnReal_one
  unfold tdStep
  obtain ⟨N, e, hN⟩ := subNorm2_tot (A := st.A) g1 g2 hk
  have hN1 : N = 1 := by
    rw [hN, Finset.sum_eq_single (k + 1)]
    · rw [h1, han, one_pow]
    · intro i hi hne
      have := Finset.mem_Ico.mp hi
      rw [h0 i (by omega) this.2, norm_zero]
      norm_num
    · intro hx
      exact absurd (Finset.mem_Ico.mpr ⟨le_refl _, hk⟩) hx
  rw [e, ok_bind, hN1, if_neg (not_le.mpr ht1)]
  refine (tdHouse_comp (s := a) (alpha := -a) (beta := 2) g1 g2 g3 g4 g5 g6 g7 hk (by rw [h1, hsa]) (by rw [Real.sqrt_one]; simp)
    (by rw [h1]; rcases ha with rfl | rfl <;> norm_num) (by rw [h1, han]; norm_num) (by rw [h1, han]; rcases ha with rfl | rfl <;> norm_num)).mono fun st' h => ?_
  have hv : ∀ i, i < n → hvq n k (st.A.e (k + 1) k - -a) st.A i = if i = k + 1 then 1 else 0 := by
    intro i hi
    unfold hvq
    split_ifs
    · omega
    · rfl
    · rfl
    · rw [h0 i (by omega) hi, zero_div]
  have hsum : ∀ f : Nat → ℝ, ∑ b ∈ Finset.range n, hvq n k (st.A.e (k + 1) k - -a) st.A b * f b = f (k + 1) := by
    intro f
    rw [Finset.sum_eq_single (k + 1)]
    · rw [hv _ hk, if_pos rfl, one_mul]
    · intro i hi hne
      rw [hv _ (Finset.mem_range.mp hi), if_neg hne, zero_mul]
    · intro hx
      exact absurd (Finset.mem_range.mpr hk) hx
  obtain ⟨a1, ha1, ha2⟩ := h.A
  refine ⟨h.ar, h.ac, h.qr, h.qc, by rw [h.T], by rw [h.T], by rw [h.T], fun j => by rw [h.T]; simp [han], by rw [h.p, hsp]; simp, ?_, ?_⟩
  · intro i j p1 p2 p3 p4
    have hb : ∀ j, k < j → j < n → a1 i j = st.A.e i j - 2 * st.A.e (k + 1) j * (if i = k + 1 then 1 else 0) := by
      intro j p3 p4
      rw [ha1 i j p1 p2 p3 p4]
      simp only [star_trivial]
      rw [hsum fun b => st.A.e b j, hv _ p2]
    rw [ha2 i j p1 p2 p3 p4, hsum, hb j p3 p4, hb (k + 1) (by omega) hk, star_trivial, hv j p4]
    by_cases q1 : i = k + 1 <;> by_cases q2 : j = k + 1
    · rw [if_pos q1, if_pos q2, if_pos q1, if_pos q2, q1, q2]; ring
    · rw [if_pos q1, if_neg q2, if_pos q1, if_neg q2, q1]; ring
    · rw [if_neg q1, if_pos q2, if_neg q1, if_pos q2, q2]; ring
    · rw [if_neg q1, if_neg q2, if_neg q1, if_neg q2]; ring
  · intro i j p1 p2
    rw [h.Q i j p1 p2, hsum, star_trivial, hv j p2, hsp, star_trivial]
    by_cases q2 : j = k + 1
    · rw [if_pos q2, if_pos q2, if_pos q2, q2]; ring
    · rw [if_neg q2, if_neg q2, if_neg q2]; ring

/-- C72: the matrix `Q` does not always belong to `T`: for this matrix, the sign collected before the vanishing column is applied behind it again, and
`Q T Q^*` has the entry `-1` where the matrix has the entry `1`. -/
theorem C72_defect {tiny : ℝ} (ht : 0 ≤ tiny) (ht1 : tiny < 1) (Q : VMat ℝ) (T : Tri) (hd : T.d.n = 4) (hl : T.l.n = 3) (hu : T.u.n = 3)
    (hqr : Q.rows = 4) (hqc : Q.cols = 4) :
    ∃ A' T' Q', tridiagonalize Dense.sgnReal tiny swap72 T (some Q) = .ok (A', T', some Q') ∧
      ((vmat Q' : Matrix (Fin 4) (Fin 4) ℝ) * (herTri 4 T'.d.v (fun i => T'.l.v i) : Matrix (Fin 4) (Fin 4) ℝ) * (vmat Q' : Matrix (Fin 4) (Fin 4) ℝ)ᴴ) 3 2 = -1 ∧
      (vmat swap72 : Matrix (Fin 4) (Fin 4) ℝ) 3 2 = 1 := by
  have key : Tot (tridiagonalize Dense.sgnReal tiny swap72 T (some Q)) fun r => ∃ A' T' Q', r = (A', T', some Q') ∧ T'.l.v 2 = 1 ∧
      ∀ i j, i < 4 → j < 4 → Q'.e i j = if i = j then (if j = 3 then -1 else 1) else 0 := by
    unfold tridiagonalize
    simp only
    rw [cassert_true (by simp [swap72]), ok_bind, cassert_true (by simp [swap72, hqr]), ok_bind, cassert_true (by simp [swap72, hqc]), ok_bind,
      cassert_true (by simp [swap72, hd]), ok_bind]
    rw [if_neg (by simp [swap72]), if_neg (by simp [swap72])]
    refine Tot.bind (P := fun (st : TdSt ℝ) => st.A.rows = 4 ∧ st.A.cols = 4 ∧ st.T.d.n = 4 ∧ st.T.l.v 2 = 1 ∧
      ∀ i j, i < 4 → j < 4 → st.Q.e i j = if i = j then (if j = 3 then -1 else 1) else 0) ?_ ?_
    · show Tot (forUp 0 3 (tdStep Dense.sgnReal tiny 4) _) _
      have e3 : ∀ s : TdSt ℝ, forUp 0 3 (tdStep Dense.sgnReal tiny 4) s = (do
          let s ← tdStep Dense.sgnReal tiny 4 0 s
          let s ← tdStep Dense.sgnReal tiny 4 1 s
          tdStep Dense.sgnReal tiny 4 2 s) := by
        intro s
        have eb : ∀ m : R (TdSt ℝ), (m >>= fun s' => Except.ok s') = m := fun m => by cases m <;> rfl
        simp [forUp, loopN, eb]
      rw [e3]
      refine Tot.bind (unit_step72 ht1 (Or.inl rfl) (by omega) rfl rfl hd (by show 3 ≤ T.l.n; omega) (by show 3 ≤ T.u.n; omega) (by show _ = _; exact hqr)
        (by show _ = _; exact hqc) (by simp [swap72]) ?_) ?_
      · intro i h1 h2
        interval_cases i <;> simp [swap72]
      rintro s1 - ⟨a1, a2, a3, a4, a5, a6, a7, a8, a9, a10, a11⟩
      refine Tot.bind (P := fun (st : TdSt ℝ) => st.A = s1.A ∧ st.T.d.n = 4 ∧ st.T.l.n = 3 ∧ st.T.u.n = 3 ∧ st.Q = s1.Q ∧ st.psign = s1.psign) ?_ ?_
      · unfold tdStep
        obtain ⟨N, e, hN⟩ := subNorm2_tot (A := s1.A) (k := 1) a1 a2 (by omega)
        have hN0 : N = 0 := by
          rw [hN]
          refine Finset.sum_eq_zero fun i hi => ?_
          have := Finset.mem_Ico.mp hi
          rw [a10 i 1 (by omega) this.2 (by omega) (by omega)]
          obtain ⟨h1, h2⟩ := this
          interval_cases i <;> simp [swap72]
        rw [e, ok_bind, hN0, if_pos ht, vget_ok (by omega) (by omega), ok_bind, Arr.set_ok (by show 1 < s1.T.d.n; rw [a5]; show 1 < T.d.n; omega), ok_bind,
          Arr.set_ok (by show 1 < s1.T.l.n; rw [a6]; show 1 < T.l.n; omega), ok_bind, Arr.set_ok (by show 1 < s1.T.u.n; rw [a7]; show 1 < T.u.n; omega), ok_bind]
        exact Tot.pure ⟨rfl, a5.trans hd, a6.trans hl, a7.trans hu, rfl, rfl⟩
      rintro s2 - ⟨b1, b2, b3, b4, b5, b6⟩
      refine (unit_step72 ht1 (Or.inl rfl) (by omega) (b1 ▸ a1) (b1 ▸ a2) b2 b3.ge b4.ge (b5 ▸ a3) (b5 ▸ a4) ?_ ?_).mono fun s3 h => ?_
      · rw [b1, a10 3 2 (by omega) (by omega) (by omega) (by omega)]
        simp [swap72]
      · intro i h1 h2
        omega
      · obtain ⟨c1, c2, c3, c4, c5, c6, c7, c8, c9, c10, c11⟩ := h
        refine ⟨c1, c2, c5.trans b2, by rw [c8]; rfl, fun i j hi hj => ?_⟩
        rw [c11 i j hi hj, b5, a11 i j hi hj, b6, a9]
        show (if i = j then (1 : ℝ) else 0) * (if j = 0 + 1 then (1 : ℝ) * 1 else 1) * (if j = 2 + 1 then -((1 : ℝ) * 1) * 1 else 1) = _
        split_ifs <;> first | omega | norm_num
    · rintro st - ⟨d1, d2, d3, d4, d5⟩
      rw [vget_ok (by rw [d1]; decide) (by rw [d2]; decide), ok_bind, Arr.set_ok (by rw [d3]; decide), ok_bind]
      exact Tot.pure ⟨_, _, _, rfl, d4, d5⟩
  obtain ⟨r, er, A', T', Q', rfl, hl2, hQ⟩ := key
  refine ⟨A', T', Q', er, ?_, by simp [vmat, swap72]⟩
  simp only [Matrix.mul_apply, Fin.sum_univ_four, vmat, Matrix.conjTranspose_apply, star_trivial]
  simp [hQ, herTri, hl2]

/-! ## Examples -/

theorem sign_real72 : ∀ x : ℝ, ‖Dense.sgnReal x‖ = 1 ∧ Dense.sgnReal x * ((‖x‖ : ℝ) : ℝ) = x := by
  intro x
  unfold Dense.sgnReal
  split_ifs with h
  · exact ⟨by norm_num, by rw [Real.norm_eq_abs, abs_of_neg h]; ring⟩
  · exact ⟨by norm_num, by rw [Real.norm_eq_abs, abs_of_nonneg (not_lt.mp h)]; ring⟩

/-- the hypotheses of the general theorems are met by a self-adjoint matrix -/
example : swap72.rows = 4 ∧ swap72.cols = 4 ∧ ∀ i j, i < 4 → j < 4 → swap72.e i j = star (swap72.e j i) := by
  refine ⟨rfl, rfl, fun i j _ _ => ?_⟩
  simp only [swap72, star_trivial]
  split_ifs <;> first | rfl | omega

/-- a path with three vertices -/
def path72 : VMat ℝ := ⟨3, 3, fun i j => if i + 1 = j ∨ j + 1 = i then 1 else 0⟩

/-- the hypotheses of `C72_unreduced` are met by the path with three vertices -/
example : ∃ A' T' Q', tridiagonalize Dense.sgnReal 0 path72 ⟨⟨3, fun _ => 0⟩, ⟨2, fun _ => 0⟩, ⟨2, fun _ => 0⟩⟩ (some ⟨3, 3, fun _ _ => 0⟩) = .ok (A', T', some Q') ∧
    ∀ i, i + 2 < 3 → T'.l.v i ≠ 0 := by
  have key : Tot (tridiagonalize Dense.sgnReal 0 path72 ⟨⟨3, fun _ => 0⟩, ⟨2, fun _ => 0⟩, ⟨2, fun _ => 0⟩⟩ (some ⟨3, 3, fun _ _ => 0⟩)) fun r =>
      ∃ A' T' Q', r = (A', T', some Q') ∧ T'.l.v 0 = 1 := by
    unfold tridiagonalize
    simp only
    repeat rw [cassert_true (by simp [path72]), ok_bind]
    rw [if_neg (by simp [path72]), if_neg (by simp [path72])]
    refine Tot.bind (P := fun (st : TdSt ℝ) => st.A.rows = 3 ∧ st.A.cols = 3 ∧ st.T.d.n = 3 ∧ st.T.l.v 0 = 1) ?_ ?_
    · show Tot (forUp 0 2 (tdStep Dense.sgnReal 0 3) _) _
      have e3 : ∀ s : TdSt ℝ, forUp 0 2 (tdStep Dense.sgnReal 0 3) s = (do
          let s ← tdStep Dense.sgnReal 0 3 0 s
          tdStep Dense.sgnReal 0 3 1 s) := by
        intro s
        have eb : ∀ m : R (TdSt ℝ), (m >>= fun s' => Except.ok s') = m := fun m => by cases m <;> rfl
        simp [forUp, loopN, eb]
      rw [e3]
      refine Tot.bind (unit_step72 (by norm_num) (Or.inl rfl) (by omega) rfl rfl rfl (by simp) (by simp) rfl rfl (by simp [path72]) ?_) ?_
      · intro i h1 h2
        interval_cases i
        simp [path72]
      rintro s1 - ⟨a1, a2, a3, a4, a5, a6, a7, a8, a9, a10, a11⟩
      refine (unit_step72 (by norm_num) (Or.inr rfl) (by omega) a1 a2 a5 a6.ge a7.ge a3 a4 ?_ ?_).mono fun s3 h => ?_
      · rw [a10 2 1 (by omega) (by omega) (by omega) (by omega)]
        simp [path72]
      · intro i h1 h2
        omega
      · obtain ⟨c1, c2, c3, c4, c5, c6, c7, c8, c9, c10, c11⟩ := h
        exact ⟨c1, c2, c5.trans a5, by rw [c8, a8]; rfl⟩
    · rintro st - ⟨d1, d2, d3, d4⟩
      rw [vget_ok (by rw [d1]; decide) (by rw [d2]; decide), ok_bind, Arr.set_ok (by rw [d3]; decide), ok_bind]
      exact Tot.pure ⟨_, _, _, rfl, d4⟩
  obtain ⟨r, er, A', T', Q', rfl, h⟩ := key
  refine ⟨A', T', Q', er, fun i hi => ?_⟩
  obtain rfl : i = 0 := by omega
  rw [h]
  exact one_ne_zero

end H2.Props
