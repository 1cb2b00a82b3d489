import Verif.Proof.QR7

/-!
# C56: Householder factorizations

`𝕜` is `ℝ` or `ℂ`.  After a factorization the array `a` holds the triangular factor `R` on and above the diagonal and the vectors of the
elementary reflections below it, `tau` the scaling factors; `qprod` is the product of the reflections.  The functions skip columns with a squared norm
of at most `tiny` (`H2_ALMOST_ZERO`), therefore the factorizations are only exact up to this constant.
-/

set_option linter.unusedSectionVars false

namespace H2.Props
open Spec Dense Matrix QR
variable {𝕜 : Type} [RCLike 𝕜]

/-- The sign function of the real build is exact. -/
theorem C56_sign_real : SignFn (𝕜 := ℝ) 0 sgnReal := sgnReal_fn

/-- The sign function of the complex build returns `1` for all numbers with `|x|² ≤ tiny`, also for those that have a different phase:
it is only exact up to `4 tiny`. -/
theorem C56_sign_complex {tiny : ℝ} (ht : 0 ≤ tiny) : SignFn (𝕜 := ℂ) (4 * tiny) (sgnComplex tiny) := sgnComplex_fn ht

/-- and there are numbers for which the phase is wrong -/
theorem C56_sign_complex_defect {tiny : ℝ} (ht : 0 < tiny) : ∃ x : ℂ, x ≠ 0 ∧ x - sgnComplex tiny x * (‖x‖ : ℂ) ≠ 0 := by
  refine ⟨-(√tiny : ℂ), ?_, ?_⟩
  · have : √tiny ≠ 0 := (Real.sqrt_pos.mpr ht).ne'
    simpa using this
  · have h0 := Real.sqrt_pos.mpr ht
    have h1 : ‖(-(√tiny : ℂ))‖ = √tiny := by rw [norm_neg, Complex.norm_real, Real.norm_of_nonneg h0.le]
    unfold sgnComplex
    rw [h1, if_pos (by rw [Real.sq_sqrt ht.le])]
    intro h
    have h2 := congrArg Complex.re h
    simp at h2
    linarith

/-- `qrdecomp_amatrix`: for every matrix the function succeeds, changes nothing but `a` and `tau`, `tau` is as long as needed, `Q` is unitary,
the columns of `Q R` are those of the original matrix up to `max tiny e` in the squared norm, exactly those behind the square part. -/
theorem C56_qr {sgn : 𝕜 → 𝕜} {e tiny : ℝ} (hs : SignFn e sgn) (htiny : 0 ≤ tiny) (junk : Nat → 𝕜) {a : Mat} (tau : Arr 𝕜) {m : Mem 𝕜} (ha : a.Valid m) :
    ∃ tau' m', qrdecomp sgn tiny junk a tau m = .ok (tau', m') ∧ a.Valid m' ∧ Frame a.Cell m m' ∧ min a.rows a.cols ≤ tau'.n ∧
      (min a.rows a.cols ≤ tau.n → tau'.n = tau.n) ∧
      let Q := qprod a.rows (a.val m') tau'.v (min a.rows a.cols)
      let R := toMat a.rows a.cols (tri false false (a.val m'))
      Q ∈ unitaryGroup (Fin a.rows) 𝕜 ∧ (∀ j, colErr (toMat a.rows a.cols (a.val m)) (Q * R) j ≤ max tiny e) ∧
      ∀ j : Fin a.cols, a.rows ≤ j.1 → colErr (toMat a.rows a.cols (a.val m)) (Q * R) j = 0 := by
  obtain ⟨⟨tau', m'⟩, h0, h1, h2, W, h3, h4⟩ := qrdecomp_tot hs htiny junk tau ha
  have h5 := h4.congr (W' := a.val m') (by omega) h3.2.1
  refine ⟨tau', m', h0, h3.1, h3.2.2, h1, h2, qprod_mem h5.unit, fun j => ?_, fun j hj => h5.err_ge (by omega)⟩
  by_cases hj : j.1 < min a.rows a.cols
  · exact h5.err_lt hj
  · rw [h5.err_ge (by omega)]
    exact htiny.trans (le_max_left _ _)

/-- In exact arithmetic with an exact zero test (`tiny = 0`) and an exact sign function `Q R` is the original matrix. -/
theorem C56_qr_exact {sgn : 𝕜 → 𝕜} (hs : SignFn 0 sgn) (junk : Nat → 𝕜) {a : Mat} (tau : Arr 𝕜) {m : Mem 𝕜} (ha : a.Valid m) :
    ∃ tau' m', qrdecomp sgn 0 junk a tau m = .ok (tau', m') ∧ qprod a.rows (a.val m') tau'.v (min a.rows a.cols) ∈ unitaryGroup (Fin a.rows) 𝕜 ∧
      qprod a.rows (a.val m') tau'.v (min a.rows a.cols) * toMat a.rows a.cols (tri false false (a.val m')) = toMat a.rows a.cols (a.val m) := by
  obtain ⟨tau', m', h0, -, -, -, -, h1, h2, -⟩ := C56_qr hs le_rfl junk tau ha
  refine ⟨tau', m', h0, h1, ?_⟩
  ext i j
  have h3 := h2 j
  rw [max_self] at h3
  have h4 : ∑ i, ‖toMat a.rows a.cols (a.val m) i j - (qprod a.rows (a.val m') tau'.v (min a.rows a.cols) * toMat a.rows a.cols (tri false false (a.val m'))) i j‖ ^ 2 = 0 :=
    le_antisymm h3 (Finset.sum_nonneg fun _ _ => sq_nonneg _)
  have h5 := (Finset.sum_eq_zero_iff_of_nonneg fun _ _ => sq_nonneg _).mp h4 i (Finset.mem_univ _)
  rw [pow_eq_zero_iff two_ne_zero, norm_eq_zero, sub_eq_zero] at h5
  exact h5.symm

/-- `qrdecomp_pivot_amatrix`: the same for `A` with its columns in a suitable order; this order is recorded in `colpiv`, if requested, and
every diagonal element of `R` dominates the remaining columns. -/
theorem C56_pivot {sgn : 𝕜 → 𝕜} {e tiny : ℝ} (hs : SignFn e sgn) (htiny : 0 ≤ tiny) (junk : Nat → 𝕜) {a : Mat} (tau : Arr 𝕜) {piv : Option (Arr Nat)}
    (hp : PivRoom a.cols piv) {m : Mem 𝕜} (ha : a.Valid m) :
    ∃ tau' piv' m' p, qrdecompPivot sgn tiny junk a tau piv m = .ok (min a.rows a.cols, ⟨tau', piv', m'⟩) ∧ a.Valid m' ∧ Frame a.Cell m m' ∧
      min a.rows a.cols ≤ tau'.n ∧ ColPerm a.cols p ∧ (piv' = none ↔ piv = none) ∧ Recorded a.cols p piv' ∧
      let Q := qprod a.rows (a.val m') tau'.v (min a.rows a.cols)
      let R := toMat a.rows a.cols (tri false false (a.val m'))
      Q ∈ unitaryGroup (Fin a.rows) 𝕜 ∧ (∀ j, colErr (toMat a.rows a.cols (permCols (a.val m) p)) (Q * R) j ≤ max tiny e) ∧
      DiagDominates (min a.rows a.cols) tiny R := by
  obtain ⟨c', hc', hp'⟩ := PivOk.of_room hp
  obtain ⟨⟨k, tau', piv', m'⟩, h0, h1, h2, -, h4, -, p, W, h6, h7, h8, h9, h10⟩ := qrdecompPivot_tot hs htiny junk tau hc' hp' ha
  simp only at h1 h2 h4 h7 h8 h9 h10
  rw [h1] at h0
  have h5 := h9.congr (W' := a.val m') (by omega) h8.2.1
  refine ⟨tau', piv', m', p, h0, h8.1, h8.2.2, h2, h6, h4, h7, qprod_mem h5.unit, fun j => ?_, ?_⟩
  · by_cases hj : j.1 < min a.rows a.cols
    · exact h5.err_lt hj
    · refine le_of_eq_of_le (h5.err_ge (by omega)) ?_
      exact htiny.trans (le_max_left _ _)
  · have := (h10.congr (W' := a.val m') (by omega) (by omega) h8.2.1).spec (by omega)
    rwa [tri_min] at this

/-- `qrdecomp_rank_amatrix`: the numerical rank `k` is returned and `tau` has this length; with the first `k` rows of the triangular factor
`Q R` approximates the permuted matrix, the remainder is admitted by the truncation strategy. -/
theorem C56_rank {sgn : 𝕜 → 𝕜} {e : ℝ} (hs : SignFn e sgn) (he : 0 ≤ e) (junk : Nat → 𝕜) (tm : Option TMode) (eps : ℝ) {a : Mat} (tau : Arr 𝕜) {piv : Option (Arr Nat)}
    (hp : PivRoom a.cols piv) {m : Mem 𝕜} (ha : a.Valid m) :
    ∃ k tau' piv' m' p, qrdecompRank sgn junk tm eps a tau piv m = .ok (k, ⟨tau', piv', m'⟩) ∧ a.Valid m' ∧ Frame a.Cell m m' ∧
      k ≤ min a.rows a.cols ∧ tau'.n = k ∧ ColPerm a.cols p ∧ (piv' = none ↔ piv = none) ∧ Recorded a.cols p piv' ∧
      let Q := qprod a.rows (a.val m') tau'.v k
      let R := toMat a.rows a.cols (fun i j => if i < k then tri false false (a.val m') i j else 0)
      let A := toMat a.rows a.cols (permCols (a.val m) p)
      Q ∈ unitaryGroup (Fin a.rows) 𝕜 ∧ (∀ j : Fin a.cols, j.1 < k → colErr A (Q * R) j ≤ e) ∧
      RankTol tm (toMat a.rows a.cols (a.val m)) eps (∑ j : Fin a.cols, if k ≤ j.1 then colErr A (Q * R) j else 0) ∧ DiagDominates k 0 R := by
  obtain ⟨c', hc', hp'⟩ := PivOk.of_room hp
  unfold qrdecompRank
  simp only
  obtain ⟨tau0, ht0⟩ : ∃ t, t = (if tau.n < min a.rows a.cols then resizeTau junk tau (min a.rows a.cols) else tau) := ⟨_, rfl⟩
  have hn0 : min a.rows a.cols ≤ tau0.n := ht0 ▸ tau_n junk tau _
  rw [← ht0]
  obtain ⟨piv0, hi0, hi1, hi2, hi3⟩ := initPiv_tot hc' hp'
  rw [hi0, ok_bind]
  obtain ⟨⟨k, tau', piv', m'⟩, h0, h1, h2, h3, -, p, W, h6, h7, h8, h9, h10, h11⟩ := rankLoop_tot hs he tm eps (m := m) hc' piv tau0.n hn0 (min a.rows a.cols) 0 0 ⟨tau0, piv0, m⟩ (by omega)
    (fun h => absurd rfl h) rfl hi3 hi2 ⟨fun x => x, a.val m, ⟨fun _ h => h, fun _ _ _ _ h => h⟩, hi1, becomes_self ha, QInv.init _ _ _ _ _, fun l hl => by omega, fun _ => rfl⟩
  rw [h0, ok_bind]
  simp only at h1 h2 h3 h7 h8 h9 h10 h11 ⊢
  rw [cassert_true (by simp; omega), ok_bind]
  have h5 := h9.congr (W' := a.val m') (by omega) h8.2.1
  refine ⟨k, ⟨k, tau'.v⟩, piv', m', p, rfl, h8.1, h8.2.2, h1, rfl, h6, h3, h7, qprod_mem h5.unit, fun j hj => h5.trunc_lt hj, ?_, ?_⟩
  · rw [sum_ge (g := fun j => tail2 a.rows W k j)]
    · exact rankTol_of h11
    · intro j hj
      refine (h5.trunc_ge hj).trans ?_
      unfold tail2
      exact Finset.sum_congr rfl fun i hi => by rw [h8.2.1 i (Finset.mem_Ico.mp hi).2 j j.2]
  · exact (h10.congr (W' := a.val m') (by omega) (by omega) h8.2.1).spec (by omega)

/-- `qreval_amatrix_avector` multiplies the first entries of the vector by `Q` or its adjoint, whatever `a` and `tau` contain. -/
theorem C56_eval {a : Mat} {x : Vec} {m : Mem 𝕜} (ha : a.Valid m) (hx : x.Valid m) (hd : Disj a.Cell x.Cell) (hr : a.rows ≤ x.dim) (tau : Arr 𝕜)
    (qtrans : Bool) :
    ∃ m', qrevalVec qtrans a tau x m = .ok m' ∧ x.Valid m' ∧ Frame x.Cell m m' ∧
      let Q := qprod a.rows (a.val m) tau.v (min (min a.rows a.cols) tau.n)
      (fun i : Fin a.rows => x.val m' i) = (if qtrans then Qᴴ else Q) *ᵥ (fun i => x.val m i) ∧ ∀ i, a.rows ≤ i → i < x.dim → x.val m' i = x.val m i := by
  obtain ⟨m', h0, X, h1, h2, h3⟩ := qrevalVec_tot ha hx hd hr tau qtrans
  refine ⟨m', h0, h1.1, h1.2.2, ?_, fun i hi hid => by rw [h1.2.1 i hid, h2 i hi]⟩
  rw [← h3]
  funext i
  exact h1.2.1 i (by have := i.2; omega)

/-- `qreval_amatrix` does the same for all columns of a matrix. -/
theorem C56_eval_mat {a x : Mat} {m : Mem 𝕜} (ha : a.Valid m) (hx : x.Valid m) (hd : Disj a.Cell x.Cell) (hr : a.rows ≤ x.rows) (tau : Arr 𝕜)
    (qtrans : Bool) :
    ∃ m', qreval qtrans a tau x m = .ok m' ∧ x.Valid m' ∧ Frame x.Cell m m' ∧
      let Q := qprod a.rows (a.val m) tau.v (min (min a.rows a.cols) tau.n)
      toMat a.rows x.cols (x.val m') = (if qtrans then Qᴴ else Q) * toMat a.rows x.cols (x.val m) ∧
      ∀ i, a.rows ≤ i → i < x.rows → ∀ j < x.cols, x.val m' i j = x.val m i j := by
  obtain ⟨m', h0, X, h1, h2, h3⟩ := qreval_tot ha hx hd hr tau qtrans
  refine ⟨m', h0, h1.1, h1.2.2, ?_, fun i hi hid j hj => by rw [h1.2.1 i hid j hj, h2 i hi]⟩
  ext i j
  rw [toMat_mul_col, ← h3 j]
  exact h1.2.1 i (by have := i.2; omega) j j.2

/-- `qrexpand_amatrix` computes the first columns of `Q`. -/
theorem C56_expand {a q : Mat} {m : Mem 𝕜} (ha : a.Valid m) (hq : q.Valid m) (hd : Disj a.Cell q.Cell) (hr : a.rows ≤ q.rows) (hc : q.cols ≤ a.rows) (tau : Arr 𝕜) :
    ∃ m', qrexpand a tau q m = .ok m' ∧ q.Valid m' ∧ Frame q.Cell m m' ∧
      (∀ (i : Fin a.rows) (j : Fin q.cols), q.val m' i j = qprod a.rows (a.val m) tau.v (min (min a.rows a.cols) tau.n) i (Fin.castLE hc j)) ∧
      ∀ i, a.rows ≤ i → i < q.rows → ∀ j < q.cols, q.val m' i j = q.val m i j := by
  obtain ⟨m', h0, X, h1, h2, h3⟩ := qrexpand_tot ha hq hd hr hc tau
  refine ⟨m', h0, h1.1, h1.2.2, fun i j => ?_, fun i hi hid j hj => by rw [h1.2.1 i hid j hj, h2 i hi]⟩
  rw [h1.2.1 i (by have := i.2; omega) j j.2, h3 j j.2 i, dif_pos (show j.1 < a.rows by have := j.2; omega)]
  rfl

/-- `qrsolve_amatrix_avector` solves the linear system with the matrix `Q R`, if `Q` is unitary and `R` has no zero on its diagonal. -/
theorem C56_solve {a : Mat} {x : Vec} {m : Mem 𝕜} (ha : a.Valid m) (hx : x.Valid m) (hd : Disj a.Cell x.Cell) (hsq : a.cols = a.rows) (hr : a.rows ≤ x.dim)
    (tau : Arr 𝕜) (hQ : qprod a.rows (a.val m) tau.v (min a.rows tau.n) ∈ unitaryGroup (Fin a.rows) 𝕜) (hD : ∀ j < a.rows, a.val m j j ≠ 0) :
    ∃ m', qrsolveVec a tau x m = .ok m' ∧ x.Valid m' ∧ Frame x.Cell m m' ∧
      (qprod a.rows (a.val m) tau.v (min a.rows tau.n) * toMat a.rows a.rows (tri false false (a.val m))) *ᵥ (fun i => x.val m' i) = (fun i : Fin a.rows => x.val m i) ∧
      ∀ i, a.rows ≤ i → i < x.dim → x.val m' i = x.val m i := by
  obtain ⟨m', h0, X, Y, h1, h2, h3, h4, h5⟩ := qrsolveVec_tot ha hx hd hr (by omega) tau (fun j hj => hD j (by omega))
  have em : min a.rows a.cols = a.rows := by omega
  rw [em] at h2 h3 h5
  refine ⟨m', h0, h1.1, h1.2.2, ?_, fun i hi hid => by rw [h1.2.1 i hid, h5 i hi hid, h4 i hi]⟩
  have e1 : (fun i : Fin a.rows => x.val m' i) = fun i : Fin a.rows => X i := by
    funext i; exact h1.2.1 i (by have := i.2; omega)
  have e2 : toMat a.rows a.rows (tri false false (a.val m)) *ᵥ (fun i : Fin a.rows => X i) = fun i : Fin a.rows => Y i := by
    funext i
    rw [← h3 i i.2, ← Fin.sum_univ_eq_sum_range (fun l => tri false false (a.val m) i l * X l)]
    rfl
  rw [e1, ← mulVec_mulVec, e2, h2, mulVec_mulVec, ← star_eq_conjTranspose, mem_unitaryGroup_iff.mp hQ, one_mulVec]

/-- `qrinvert_amatrix` computes the inverse of a matrix with columns that differ from the original ones by at most `max tiny e` (in the squared norm),
if all these matrices are invertible; everything else is unchanged, the auxiliary storage has been released. -/
theorem C56_invert {sgn : 𝕜 → 𝕜} {e tiny : ℝ} (hs : SignFn e sgn) (htiny : 0 ≤ tiny) {a : Mat} (hsq : a.rows = a.cols) {m : Mem 𝕜} (ha : a.Valid m) 
    {p : Nat} (hf : Fresh m p (a.rows * a.rows)) (junk junkT : Nat → 𝕜)
    (hB : ∀ B : Matrix (Fin a.rows) (Fin a.rows) 𝕜, (∀ j, colErr (toMat a.rows a.rows (a.val m)) B j ≤ max tiny e) → B.det ≠ 0) :
    ∃ m', qrinvert sgn tiny p junk junkT a m = .ok m' ∧ a.Valid m' ∧ Frame a.Cell m m' ∧
      ∃ B : Matrix (Fin a.rows) (Fin a.rows) 𝕜, (∀ j, colErr (toMat a.rows a.rows (a.val m)) B j ≤ max tiny e) ∧ 
        B * toMat a.rows a.rows (a.val m') = 1 := by
  obtain ⟨m', h0, h⟩ := qrinvert_tot hs htiny rfl hsq ha hf junk junkT hB
  exact ⟨m', h0, h⟩

/-! ### The hypotheses can be met -/

/-- a `3 × 2` matrix in memory -/
example : ∃ tau' m', qrdecomp sgnReal 0 (fun _ => 0) ⟨5, 3, 3, 2⟩ ⟨1, fun _ => 7⟩ (fun c => some (c : ℝ)) = .ok (tau', m') ∧
    qprod 3 (Mat.val ⟨5, 3, 3, 2⟩ m') tau'.v 2 * toMat 3 2 (tri false false (Mat.val ⟨5, 3, 3, 2⟩ m')) = toMat 3 2 fun i j => ((5 + (i + j * 3) : ℕ) : ℝ) := by
  obtain ⟨t, m', h1, -, h2⟩ := C56_qr_exact C56_sign_real (fun _ => 0) (a := ⟨5, 3, 3, 2⟩) ⟨1, fun _ => 7⟩ (m := fun c => some (c : ℝ)) ⟨by decide, fun _ _ _ _ => rfl⟩
  exact ⟨t, m', h1, h2⟩

example : PivRoom 2 (some ⟨4, fun _ => 0⟩) ∧ PivRoom 2 none := ⟨show 2 ≤ 4 by decide, trivial⟩

/-- the identity is far away from singular matrices -/
example : ∀ B : Matrix (Fin 1) (Fin 1) ℝ, (∀ j, colErr (toMat 1 1 fun _ _ => 1) B j ≤ max (1 / 4) 0) → B.det ≠ 0 := by
  intro B h h0
  have h1 := h 0
  rw [det_fin_one] at h0
  simp [colErr, toMat, h0] at h1
  norm_num at h1

example : qprod 2 (fun _ _ => (0 : ℝ)) (fun _ => 0) 2 ∈ unitaryGroup (Fin 2) ℝ := qprod_mem fun l _ => by
  simp [reflector]

end H2.Props
