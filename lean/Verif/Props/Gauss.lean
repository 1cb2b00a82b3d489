import Verif.Proof.Gauss4
import Verif.Props.Eigen

set_option linter.unusedSectionVars false

/-!
# C78 Gauss quadrature

`assemble_gauss` computes nodes and weights of quadrature on `[-1, 1]` by the eigenvalues of the Jacobi matrix of the Legendre polynomials.  The
quadrature rule is exact for all polynomials of degree less than `2 m` up to the backward error of the eigenvalue solver.
-/

namespace H2.Props
open H2 H2.Spec H2.Eig H2.Gauss
open scoped Matrix.Norms.L2Operator
variable {𝕜 : Type} [RCLike 𝕜]

/-- C78: for every eigenvalue solver with relative backward error `η`, if the function returns, the weights are not negative and their sum is two,
the nodes are in ascending order and between `-1 - η` and `1 + η`, the error of the quadrature rule for a polynomial of degree less than `2 m`
is bounded in terms of its coefficients and `η`, and only the first `m` entries of `x` and `w` change. -/
theorem C78_rule {m : Nat} (hm : 0 < m) {η : ℝ} (hη : 0 ≤ η) {eig : Tri → Option (VMat 𝕜) → R (Tri × Option (VMat 𝕜) × Nat)} (he : EigSolver m η eig)
    (junk : Nat → ℝ) (junkQ : Nat → Nat → 𝕜) (x w : Arr ℝ) (hx : m ≤ x.n) (hw : m ≤ w.n) {x' w' : Arr ℝ}
    (h : assembleWith eig junk junkQ m x w = .ok (x', w')) :
    x'.n = x.n ∧ w'.n = w.n ∧ (∀ i, m ≤ i → x'.v i = x.v i ∧ w'.v i = w.v i) ∧
    (∀ i < m, 0 ≤ w'.v i) ∧ ∑ i ∈ Finset.range m, w'.v i = 2 ∧ (∀ i j, i < j → j < m → x'.v i ≤ x'.v j) ∧ (∀ i < m, |x'.v i| ≤ 1 + η) ∧
    ∀ p : Polynomial ℝ, p.degree < (2 * m : Nat) →
      |quadRule m x'.v w'.v p - integralP p| ≤ 2 * ∑ k ∈ Finset.range (2 * m), |p.coeff k| * ((1 + η) ^ k - 1) := by
  unfold assembleWith at h
  obtain ⟨T, eT, t1, t2, t3, t4⟩ := jacobi_tot junk hm
  rw [eT, ok_bind] at h
  obtain ⟨⟨T', Q', info⟩, ee, h⟩ := bind_ok.mp h
  simp only at h
  obtain ⟨_, ec, h⟩ := bind_ok.mp h
  have hinfo : info = 0 := by simpa using cassert_ok.mp ec
  subst hinfo
  obtain ⟨d1, q', rfl, q1, q2, W, w1, w2, w3, w4⟩ := he T ⟨m, m, junkQ⟩ t1 t2.ge rfl rfl T' Q' ee
  obtain ⟨s, es, s1, s2, s3, s4⟩ := readOff_tot (T := T') (Q := q') (x := x) (w := w) d1 (by omega) q2 hx hw
  replace h : readOff m T' q' x w = .ok (x', w') := h
  rw [es] at h
  have hs := Except.ok.inj h
  subst hs
  simp only at s1 s2 s3 s4
  rw [jacobi_triMat t3 t4] at w4
  have w4' : ‖W * (Matrix.diagonal fun i : Fin m => x'.v i) * W.transpose - triMat m (fun _ => 0) off‖ ≤ η := by
    have e : (fun i : Fin m => x'.v i) = fun i : Fin m => T'.d.v i := by
      funext i; rw [s3, if_pos i.2]
    rw [e]
    refine w4.trans ?_
    have := mul_le_mul_of_nonneg_left (jac_norm m) hη
    linarith
  have hwt : ∀ i : Fin m, w'.v i = 2 * W ⟨0, hm⟩ i ^ 2 := by
    intro i
    rw [s4, if_pos i.2]
    have : q'.e 0 i = (W ⟨0, hm⟩ i : 𝕜) := w2 ⟨0, hm⟩ i
    rw [this, RCLike.norm_ofReal, sq_abs]
  refine ⟨s1, s2, fun i hi => ⟨by rw [s3, if_neg (by omega)], by rw [s4, if_neg (by omega)]⟩, fun i hi => ?_, ?_, fun i j hij hj => ?_, fun i hi => ?_,
    fun p hp => rule_err hm w1 hwt w4' p hp⟩
  · rw [hwt ⟨i, hi⟩]; positivity
  · have := moment_err hm w1 hwt w4' 0 (by omega)
    simp only [pow_zero, mul_one, sub_self, mul_zero, integralP_one] at this
    have := abs_nonpos_iff.mp this
    linarith
  · rw [s3, if_pos (by omega), s3, if_pos hj]
    exact w3 i j hij hj
  · have h1 : ‖W * (Matrix.diagonal fun i : Fin m => x'.v i) * W.transpose‖ ≤ 1 + η := by
      have e : W * (Matrix.diagonal fun i : Fin m => x'.v i) * W.transpose =
        triMat m (fun _ => 0) off + (W * (Matrix.diagonal fun i : Fin m => x'.v i) * W.transpose - triMat m (fun _ => 0) off) := by abel
      rw [e]
      exact (norm_add_le _ _).trans (add_le_add (jac_norm m) w4')
    rw [norm_conj w1] at h1
    have := (entry_le (Matrix.diagonal fun i : Fin m => x'.v i) ⟨i, hi⟩ ⟨i, hi⟩).trans h1
    rwa [Matrix.diagonal_apply_eq] at this

/-- C78: with an exact eigenvalue decomposition the quadrature rule is exact for all polynomials of degree less than `2 m`, all weights are positive,
and the nodes are strictly ascending and in the open interval. -/
theorem C78_exact {m : Nat} (hm : 0 < m) {eig : Tri → Option (VMat 𝕜) → R (Tri × Option (VMat 𝕜) × Nat)} (he : EigSolver m 0 eig)
    (junk : Nat → ℝ) (junkQ : Nat → Nat → 𝕜) (x w : Arr ℝ) (hx : m ≤ x.n) (hw : m ≤ w.n) {x' w' : Arr ℝ}
    (h : assembleWith eig junk junkQ m x w = .ok (x', w')) :
    ExactRule m x'.v w'.v ∧ (∀ i < m, 0 < w'.v i) ∧ (∀ i j, i < j → j < m → x'.v i < x'.v j) ∧ ∀ i < m, -1 < x'.v i ∧ x'.v i < 1 := by
  obtain ⟨-, -, -, -, -, h1, -, h2⟩ := C78_rule hm (le_refl 0) he junk junkQ x w hx hw h
  have h3 : ExactRule m x'.v w'.v := by
    intro p hp
    have := h2 p hp
    simp only [add_zero, one_pow, sub_self, mul_zero, Finset.sum_const_zero] at this
    have := abs_nonpos_iff.mp this
    linarith
  exact ⟨h3, fun i hi => (exact_weight h3 hi).1, fun i j hij hj => lt_of_le_of_ne (h1 i j hij hj) (exact_distinct h3 (by omega) hj (by omega)),
    fun i hi => exact_node h3 hi⟩

/-- C78: nodes and weights are determined by exactness, so they do not depend on the eigenvalue solver: two rules with `m` ascending nodes
that are exact for all polynomials of degree less than `2 m` coincide. -/
theorem C78_unique {m : Nat} {x w y v : Nat → ℝ} (hx : ExactRule m x w) (hy : ExactRule m y v) (sx : ∀ i j, i < j → j < m → x i ≤ x j)
    (sy : ∀ i j, i < j → j < m → y i ≤ y j) : ∀ i < m, x i = y i ∧ w i = v i := by
  have mono : ∀ {x w : Nat → ℝ}, ExactRule m x w → (∀ i j, i < j → j < m → x i ≤ x j) → StrictMono fun i : Fin m => x i := by
    intro x w h s i j hij
    exact lt_of_le_of_ne (s i j hij j.2) (exact_distinct h i.2 j.2 (by have : i.1 < j.1 := hij; omega))
  have sub : ∀ j < m, ∃ i < m, x i = y j := by
    intro j hj
    set π : Polynomial ℝ := ∏ i ∈ Finset.range m, (Polynomial.X - Polynomial.C (x i)) with hπ
    have hm : π.Monic := Polynomial.monic_prod_of_monic _ _ fun i _ => Polynomial.monic_X_sub_C _
    have hd : π.natDegree = m := by
      rw [hπ, Polynomial.natDegree_prod_of_monic _ _ (fun j _ => Polynomial.monic_X_sub_C _)]
      simp
    have hdeg : (π * others m y j).degree < (2 * m : Nat) := by
      rw [Polynomial.degree_eq_natDegree (mul_ne_zero hm.ne_zero (others_ne m y j)), Polynomial.natDegree_mul hm.ne_zero (others_ne m y j), hd, others_deg y hj]
      exact_mod_cast (by omega : m + (m - 1) < 2 * m)
    have e : quadRule m x w (π * others m y j) = quadRule m y v (π * others m y j) := (hx _ hdeg).trans (hy _ hdeg).symm
    have e1 : quadRule m x w (π * others m y j) = 0 := by
      unfold quadRule
      apply Finset.sum_eq_zero
      intro i hi
      have : π.eval (x i) = 0 := by
        rw [hπ, Polynomial.eval_prod]
        exact Finset.prod_eq_zero hi (by simp)
      rw [Polynomial.eval_mul, this]; simp
    rw [e1] at e
    unfold quadRule at e
    rw [Finset.sum_eq_single j (fun k hk hkj => by
      rw [Polynomial.eval_mul, others_eval y (Finset.mem_range.mp hk) hkj]; simp) (fun h => absurd (Finset.mem_range.mpr hj) h), Polynomial.eval_mul] at e
    obtain ⟨p1, p2⟩ := exact_weight hy hj
    have : π.eval (y j) = 0 := by
      rcases mul_eq_zero.mp e.symm with h | h
      · exact absurd h p1.ne'
      · exact (mul_eq_zero.mp h).resolve_right p2
    rw [hπ, Polynomial.eval_prod] at this
    obtain ⟨i, hi, h0⟩ := Finset.prod_eq_zero_iff.mp this
    refine ⟨i, Finset.mem_range.mp hi, ?_⟩
    simp only [Polynomial.eval_sub, Polynomial.eval_X, Polynomial.eval_C] at h0
    linarith
  have mx := mono hx sx
  have my := mono hy sy
  have hr : Set.range (fun i : Fin m => x i) = Set.range fun i : Fin m => y i := by
    have h1 : Finset.univ.image (fun i : Fin m => y i) = Finset.univ.image fun i : Fin m => x i := by
      apply Finset.eq_of_subset_of_card_le
      · intro t ht
        obtain ⟨j, -, rfl⟩ := Finset.mem_image.mp ht
        obtain ⟨i, hi, h⟩ := sub j j.2
        exact Finset.mem_image.mpr ⟨⟨i, hi⟩, Finset.mem_univ _, h⟩
      · rw [Finset.card_image_of_injective _ mx.injective, Finset.card_image_of_injective _ my.injective]
    have := congrArg (fun s : Finset ℝ => (s : Set ℝ)) h1
    simpa using this.symm
  have hf := congrFun ((StrictMono.range_inj mx my).mp hr)
  intro i hi
  have hn : ∀ k < m, x k = y k := fun k hk => hf ⟨k, hk⟩
  refine ⟨hn i hi, ?_⟩
  have ho : others m x i = others m y i := by
    unfold others
    apply Finset.prod_congr rfl
    intro k hk
    rw [hn k (Finset.mem_range.mp (Finset.mem_of_mem_erase hk))]
  have hdeg : (others m x i).degree < (2 * m : Nat) := by
    rw [Polynomial.degree_eq_natDegree (others_ne m x i), others_deg x hi]
    exact_mod_cast (by omega : m - 1 < 2 * m)
  have e : quadRule m x w (others m x i) = quadRule m y v (others m x i) := (hx _ hdeg).trans (hy _ hdeg).symm
  unfold quadRule at e
  rw [Finset.sum_eq_single i (fun k hk hkj => by
      rw [others_eval x (Finset.mem_range.mp hk) hkj]; simp) (fun h => absurd (Finset.mem_range.mpr hi) h)] at e
  rw [ho, Finset.sum_eq_single i (fun k hk hkj => by
      rw [others_eval y (Finset.mem_range.mp hk) hkj]; simp) (fun h => absurd (Finset.mem_range.mpr hi) h), ← ho, ← hn i hi] at e
  exact mul_right_cancel₀ (exact_weight hx hi).2 e

/-- C78: the library's own eigenvalue solver is a solver with backward error `(1 + 4 eps)^(33 m) - 1`, so `assemble_gauss` either fails with a division by
zero or an assertion (too many iterations), or it computes nodes and weights with an explicit error bound. -/
theorem C78_own {m : Nat} (hm : 0 < m) {eps : ℝ} (he : 0 < eps) (junk : Nat → ℝ) (junkQ : Nat → Nat → 𝕜) (x w : Arr ℝ) (hx : m ≤ x.n) (hw : m ≤ w.n) :
    assemble eps junk junkQ m x w = .error .nan ∨ assemble eps junk junkQ m x w = .error .assertFail ∨
    ∃ x' w', assemble eps junk junkQ m x w = .ok (x', w') ∧ (∀ i < m, 0 ≤ w'.v i) ∧ ∑ i ∈ Finset.range m, w'.v i = 2 ∧
      (∀ i j, i < j → j < m → x'.v i ≤ x'.v j) ∧ (∀ i < m, |x'.v i| ≤ (1 + 4 * eps) ^ (33 * m)) ∧
      ∀ p : Polynomial ℝ, p.degree < (2 * m : Nat) →
        |quadRule m x'.v w'.v p - integralP p| ≤ 2 * ∑ k ∈ Finset.range (2 * m), |p.coeff k| * ((1 + 4 * eps) ^ (33 * m * k) - 1) := by
  have hη : (0 : ℝ) ≤ (1 + 4 * eps) ^ (33 * m) - 1 := by
    have : (1 : ℝ) ≤ (1 + 4 * eps) ^ (33 * m) := one_le_pow₀ (by linarith)
    linarith
  have hs : EigSolver m ((1 + 4 * eps) ^ (33 * m) - 1) (eigTri (𝕜 := 𝕜) eps) := by
    intro T q h1 h2 h3 h4 T' Q' e
    rcases C71_eig_tridiag he T h1 h2 q h3 h4 with h | ⟨T'', q', ret, h, -, hd, h5, h6, W, w1, w2, w3, w4⟩
    · rw [h] at e; cases e
    · rw [h] at e
      cases e
      exact ⟨hd, q', rfl, h5, h6, W, w1, w2, w3, w4 rfl⟩
  have main : ∀ x' w', assemble eps junk junkQ m x w = .ok (x', w') → _ := fun x' w' h => C78_rule hm hη hs junk junkQ x w hx hw h
  have total : assemble eps junk junkQ m x w = .error .nan ∨ assemble eps junk junkQ m x w = .error .assertFail ∨
      ∃ s, assemble eps junk junkQ m x w = .ok s := by
    unfold assemble assembleWith
    obtain ⟨T, eT, t1, t2, t3, t4⟩ := jacobi_tot junk hm
    rw [eT, ok_bind]
    rcases C71_eig_tridiag he T t1 t2.ge (⟨m, m, junkQ⟩ : VMat 𝕜) rfl rfl with h | ⟨T', q', ret, h, -, hd, h5, h6, -⟩
    · left; rw [h]; rfl
    · rw [h, ok_bind]
      simp only
      by_cases hr : ret = 0
      · right; right
        rw [cassert_true (by simpa using hr), ok_bind]
        obtain ⟨s, es, -⟩ := readOff_tot (T := T') (Q := q') (x := x) (w := w) hd (by omega) h6 hx hw
        exact ⟨s, es⟩
      · right; left
        have : cassert (decide (ret = 0)) = .error .assertFail := by unfold cassert; rw [decide_eq_false hr]; rfl
        rw [this]; rfl
  rcases total with h | h | ⟨⟨x', w'⟩, h⟩
  · exact .inl h
  · exact .inr (.inl h)
  · right; right
    obtain ⟨-, -, -, h1, h2, h3, h4, h5⟩ := main x' w' h
    refine ⟨x', w', h, h1, h2, h3, fun i hi => (h4 i hi).trans (by linarith), fun p hp => ?_⟩
    have := h5 p hp
    simp only [add_sub_cancel, ← pow_mul] at this
    exact this

/-- C78: no nodes: the bound `m - 1` of the second loop wraps around and the loop writes to memory that is not allocated. -/
theorem C78_empty (eig : Tri → Option (VMat 𝕜) → R (Tri × Option (VMat 𝕜) × Nat)) (junk : Nat → ℝ) (junkQ : Nat → Nat → 𝕜) (x w : Arr ℝ) :
    assembleWith eig junk junkQ 0 x w = .error .ub := by
  have : jacobi junk 0 = .error .ub := rfl
  unfold assembleWith
  rw [this]
  rfl

/-! ## Non-vacuity -/

/-- an exact solver for the matrices of size two with vanishing diagonal and positive subdiagonal; it fails for all others -/
noncomputable def solver78 (T : Tri) (_ : Option (VMat ℝ)) : R (Tri × Option (VMat ℝ) × Nat) :=
  open Classical in
  if T.d.v 0 = 0 ∧ T.d.v 1 = 0 ∧ 0 < T.l.v 0 then
    .ok (⟨⟨2, fun i => if i = 0 then - T.l.v 0 else T.l.v 0⟩, T.u, T.l⟩, some ⟨2, 2, fun i j => if i = 1 ∧ j = 0 then - (1 / √2) else 1 / √2⟩, 0)
  else .error .abort

theorem solver78_ok : EigSolver 2 0 solver78 := by
  intro T q h1 h2 h3 h4 T' Q' e
  unfold solver78 at e
  split_ifs at e with hc
  obtain ⟨c1, c2, c3⟩ := hc
  cases e
  have s2 : (1 / √2 : ℝ) * (1 / √2) = 1 / 2 := by
    rw [div_mul_div_comm, Real.mul_self_sqrt (by norm_num)]; norm_num
  generalize hs : (1 / √2 : ℝ) = s at s2
  refine ⟨rfl, _, rfl, rfl, rfl, !![s, s; -s, s], ?_, fun i j => ?_, ?_, ?_⟩
  · ext i j
    fin_cases i <;> fin_cases j <;> simp [Matrix.mul_apply, Fin.sum_univ_two] <;> linarith
  · fin_cases i <;> fin_cases j <;> simp
  · intro i j hij hj
    obtain rfl : j = 1 := by omega
    obtain rfl : i = 0 := by omega
    show (if (0 : Nat) = 0 then - T.l.v 0 else T.l.v 0) ≤ if (1 : Nat) = 0 then - T.l.v 0 else T.l.v 0
    rw [if_pos rfl, if_neg (by norm_num)]
    linarith
  · rw [zero_mul]
    apply le_of_eq
    rw [norm_eq_zero, sub_eq_zero]
    have e1 : (Matrix.diagonal fun i : Fin 2 => if i.1 = 0 then - T.l.v 0 else T.l.v 0) = !![- T.l.v 0, 0; 0, T.l.v 0] := by
      ext i j
      fin_cases i <;> fin_cases j <;> simp
    have e2 : triMat 2 T.d.v T.l.v = !![0, T.l.v 0; T.l.v 0, 0] := by
      ext i j
      fin_cases i <;> fin_cases j <;> simp [triMat, c1, c2]
    show !![s, s; -s, s] * (Matrix.diagonal fun i : Fin 2 => if i.1 = 0 then - T.l.v 0 else T.l.v 0) * _ = _
    rw [e1, e2]
    ext i j
    fin_cases i <;> fin_cases j <;> simp [Matrix.mul_apply, Fin.sum_univ_two] <;>
      first | linear_combination (2 * T.l.v 0) * s2 | ring

/-- With two nodes, this solver yields `±1/√3` with weights one. -/
example : ∃ x' w', assembleWith solver78 (fun _ => 7) (fun _ _ => 7) 2 ⟨2, fun _ => 0⟩ ⟨2, fun _ => 0⟩ = .ok (x', w') ∧ ExactRule 2 x'.v w'.v := by
  obtain ⟨T, eT, t1, t2, t3, t4⟩ := jacobi_tot (fun _ => 7) (show 0 < 2 by norm_num)
  have hp : 0 < T.l.v 0 := by rw [t4 0 (by norm_num)]; exact off_pos 0
  have e : ∃ s, assembleWith solver78 (fun _ => 7) (fun _ _ => 7) 2 ⟨2, fun _ => 0⟩ ⟨2, fun _ => 0⟩ = .ok s := by
    unfold assembleWith
    rw [eT, ok_bind]
    unfold solver78
    rw [if_pos ⟨t3 0 (by norm_num), t3 1 (by norm_num), hp⟩, ok_bind]
    simp only
    rw [cassert_true (by simp), ok_bind]
    obtain ⟨s, es, -⟩ := readOff_tot (m := 2) (T := ⟨⟨2, fun i => if i = 0 then - T.l.v 0 else T.l.v 0⟩, T.u, T.l⟩)
      (Q := (⟨2, 2, fun i j => if i = 1 ∧ j = 0 then - (1 / √2) else 1 / √2⟩ : VMat ℝ)) (x := ⟨2, fun _ => 0⟩) (w := ⟨2, fun _ => 0⟩) rfl (by norm_num) rfl
      (le_refl _) (le_refl _)
    exact ⟨s, es⟩
  obtain ⟨⟨x', w'⟩, e⟩ := e
  exact ⟨x', w', e, (C78_exact (by norm_num) solver78_ok _ _ _ _ (le_refl _) (le_refl _) e).1⟩

example (eps : ℝ) (he : 0 < eps) := C78_own (𝕜 := ℂ) (m := 5) (by norm_num) he (fun _ => 7) (fun _ _ => 7) ⟨5, fun _ => 0⟩ ⟨6, fun _ => 0⟩ (by norm_num) (by norm_num)

/-- With one node, the library's solver needs no iteration and the function returns. -/
example (eps : ℝ) : ∃ s, assemble (𝕜 := ℝ) eps (fun _ => 7) (fun _ _ => 7) 1 ⟨1, fun _ => 0⟩ ⟨1, fun _ => 0⟩ = .ok s := by
  obtain ⟨T, eT, t1, t2, t3, t4⟩ := jacobi_tot (fun _ => 7) (show 0 < 1 by norm_num)
  unfold assemble assembleWith
  rw [eT, ok_bind]
  have e : eigTri eps T (some (⟨1, 1, fun _ _ => 7⟩ : VMat ℝ)) = .ok (T, some ⟨1, 1, fun i j => if i = j then 1 else 0⟩, 0) := by
    unfold eigTri muleig
    simp only [t1]
    rfl
  rw [e, ok_bind]
  simp only
  rw [cassert_true (by simp), ok_bind]
  obtain ⟨s, es, -⟩ := readOff_tot (m := 1) (T := T) (Q := (⟨1, 1, fun i j => if i = j then 1 else 0⟩ : VMat ℝ)) (x := ⟨1, fun _ => 0⟩)
    (w := ⟨1, fun _ => 0⟩) t1 (by norm_num) rfl (le_refl _) (le_refl _)
  exact ⟨s, es⟩

end H2.Props
