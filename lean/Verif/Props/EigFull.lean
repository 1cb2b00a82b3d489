import Verif.Proof.EigFull
import Verif.Props.Tridiag
import Verif.Props.Eigen

set_option linter.unusedSectionVars false

/-!
# C73 Eigenvalues and eigenvectors of dense self-adjoint matrices

`eig_amatrix` (version without BLAS): tridiagonalization followed by the QR iteration.
-/

namespace H2.Props
open H2 H2.Spec H2.Eig Matrix
open scoped Matrix.Norms.L2Operator
variable {𝕜 : Type} [RCLike 𝕜]

/-- C73: for a self-adjoint matrix, `eig_amatrix` either stops with a division by zero or returns a sorted vector of real numbers (enlarging the vector if
it is too short) and a unitary matrix.  If the result of the function is zero, the numbers are the eigenvalues of a matrix that differs from `A` by at most
`δ + ((1 + 4 eps)^(33 n) - 1) (‖A‖ + δ)` with `δ = 2 (n - 1) sqrt(tiny)`. -/
theorem C73_eigenvalues {sgn : 𝕜 → 𝕜} (hsgn : ∀ x, ‖sgn x‖ = 1 ∧ sgn x * (‖x‖ : 𝕜) = x) {n : Nat} {tiny eps : ℝ} (ht : 0 ≤ tiny) (he : 0 < eps)
    (junk : Nat → ℝ) (A Q : VMat 𝕜) (lambda : Arr ℝ) (hr : A.rows = n) (hc : A.cols = n) (hqr : Q.rows = n) (hqc : Q.cols = n)
    (hA : ∀ i j, i < n → j < n → A.e i j = star (A.e j i)) {δ : ℝ} (hδ : δ = (n - 1 : ℕ) * (2 * √tiny)) :
    eigMat sgn tiny eps junk A lambda (some Q) = .error .nan ∨
    ∃ A' lam Q' ret, eigMat sgn tiny eps junk A lambda (some Q) = .ok (A', lam, some Q', ret) ∧ ret ≤ 1 ∧ lam.n = max lambda.n n ∧
      (∀ i, n ≤ i → i < lambda.n → lam.v i = lambda.v i) ∧ (∀ i j, i < j → j < n → lam.v i ≤ lam.v j) ∧ Q'.rows = n ∧ Q'.cols = n ∧
      (vmat Q' : Matrix (Fin n) (Fin n) 𝕜) * (vmat Q')ᴴ = 1 ∧
      (ret = 0 → ∃ V : Matrix (Fin n) (Fin n) 𝕜, V * Vᴴ = 1 ∧
        ‖V * (Matrix.diagonal fun i : Fin n => (lam.v i : 𝕜)) * Vᴴ - vmat A‖ ≤ δ + ((1 + 4 * eps) ^ (33 * n) - 1) * (‖(vmat A : Matrix (Fin n) (Fin n) 𝕜)‖ + δ)) := by
  obtain ⟨A1, T1, Q1, w, e, h, h1 | ⟨lam, Q', ret, W, e1, h1, h2, h3, h4, h5, h6, h7, h8, h9⟩⟩ :=
    eigMat_out hsgn ht he junk (lambda := lambda) hr hc hqr hqc hA
  · exact .inl h1.1
  · refine .inr ⟨A1, lam, Q', ret, e1, h1, h2, h3, h4, h5, h6, ?_, fun hret => ?_⟩
    · have hW' : (cm W : Matrix _ _ 𝕜) * (cm W)ᴴ = 1 := by rw [← cm_adj, ← cm_mul, h7, cm_one]
      rw [h8, Matrix.conjTranspose_mul, Matrix.mul_assoc, ← Matrix.mul_assoc (cm W), hW', Matrix.one_mul, h.uni]
    · obtain ⟨E, hE, hE'⟩ := herTri_unimodular T1.d.v T1.l.v w h.w1
      have hV : (vmat Q1 * E) * (vmat Q1 * E)ᴴ = 1 := by
        rw [Matrix.conjTranspose_mul, Matrix.mul_assoc, ← Matrix.mul_assoc E, hE, Matrix.one_mul, h.uni]
      have herr : ‖(vmat Q1 * E) * cm (triMat n T1.d.v T1.l.v) * (vmat Q1 * E)ᴴ - vmat A‖ ≤ δ := by
        have := h.err
        rw [← hE', ← hδ] at this
        refine le_of_eq_of_le ?_ this
        rw [Matrix.conjTranspose_mul, cm_tri]
        congr 2
        noncomm_ring
      obtain ⟨p1, p2⟩ := eig_err hV h7 herr (bound_nonneg he _) (h9 hret)
      exact ⟨_, p1, p2⟩

/-- if no subdiagonal entry except the last vanishes, `Q` belongs to `T` -/
theorem unreduced73 {n : Nat} {tiny : ℝ} {A0 : Matrix (Fin n) (Fin n) 𝕜} {T T' : Tri} {Q' : VMat 𝕜} {w : Nat → 𝕜} (h : TdRes n tiny A0 T T' Q' w)
    (hne : ∀ i, i + 2 < n → T'.l.v i ≠ 0) :
    ‖(vmat Q' : Matrix (Fin n) (Fin n) 𝕜) * cm (triMat n T'.d.v T'.l.v) * (vmat Q')ᴴ - A0‖ ≤ (n - 1 : ℕ) * (2 * √tiny) := by
  have hw : ∀ m, m + 1 < n → w m = 1 := fun m hm => h.ww m (by omega) (by
    by_cases h0 : m = 0
    · exact .inl h0
    · exact .inr (hne (m - 1) (by omega)))
  refine le_of_eq_of_le ?_ h.err
  rw [cm_tri]
  congr 4
  ext i j
  have hi := i.2
  have hj := j.2
  unfold herTri
  beta_reduce
  split_ifs
  · rfl
  · rw [hw _ (by omega), one_mul]
  · rw [hw _ (by omega), one_mul]
  · rfl

/-- C73: if the subdiagonal entries of the tridiagonal matrix do not vanish, except perhaps the last one, and the result of the function is zero, then the
columns of `Q` are the eigenvectors, up to the same error. -/
theorem C73_eigenvectors {sgn : 𝕜 → 𝕜} (hsgn : ∀ x, ‖sgn x‖ = 1 ∧ sgn x * (‖x‖ : 𝕜) = x) {n : Nat} {tiny eps : ℝ} (ht : 0 ≤ tiny) (he : 0 < eps)
    (junk : Nat → ℝ) (A Q : VMat 𝕜) (lambda : Arr ℝ) (hr : A.rows = n) (hc : A.cols = n) (hqr : Q.rows = n) (hqc : Q.cols = n)
    (hA : ∀ i j, i < n → j < n → A.e i j = star (A.e j i)) {δ : ℝ} (hδ : δ = (n - 1 : ℕ) * (2 * √tiny))
    {A1 : VMat 𝕜} {T1 : Tri} {Q1 : Option (VMat 𝕜)} (htd : tridiagonalize sgn tiny A (initTri junk n) (some Q) = .ok (A1, T1, Q1))
    (hne : ∀ i, i + 2 < n → T1.l.v i ≠ 0) {A' Q' : VMat 𝕜} {lam : Arr ℝ} (hres : eigMat sgn tiny eps junk A lambda (some Q) = .ok (A', lam, some Q', 0)) :
    (vmat Q' : Matrix (Fin n) (Fin n) 𝕜) * (vmat Q')ᴴ = 1 ∧
    ‖(vmat Q' : Matrix (Fin n) (Fin n) 𝕜) * (Matrix.diagonal fun i : Fin n => (lam.v i : 𝕜)) * (vmat Q')ᴴ - vmat A‖
      ≤ δ + ((1 + 4 * eps) ^ (33 * n) - 1) * (‖(vmat A : Matrix (Fin n) (Fin n) 𝕜)‖ + δ) := by
  obtain ⟨A1', T1', Q1', w, e, h, h1 | ⟨lam', Q'', ret, W, e1, h1, h2, h3, h4, h5, h6, h7, h8, h9⟩⟩ :=
    eigMat_out hsgn ht he junk (lambda := lambda) hr hc hqr hqc hA
  · rw [h1.1] at hres
    cases hres
  · rw [e1] at hres
    cases hres
    rw [e] at htd
    cases htd
    rw [h8]
    have := unreduced73 h hne
    rw [← hδ] at this
    exact eig_err h.uni h7 this (bound_nonneg he _) (h9 rfl)

/-- C73: without a threshold for small columns, the columns of `Q` are the eigenvectors if the vectors `e, A e, ..., A^(n-2) e`, where `e` is the first unit
vector, are linearly independent. -/
theorem C73_cyclic {sgn : 𝕜 → 𝕜} (hsgn : ∀ x, ‖sgn x‖ = 1 ∧ sgn x * (‖x‖ : 𝕜) = x) {n : Nat} {eps : ℝ} (he : 0 < eps)
    (junk : Nat → ℝ) (A Q : VMat 𝕜) (lambda : Arr ℝ) (hr : A.rows = n) (hc : A.cols = n) (hqr : Q.rows = n) (hqc : Q.cols = n)
    (hA : ∀ i j, i < n → j < n → A.e i j = star (A.e j i))
    (hcyc : LinearIndependent 𝕜 fun i : Fin (n - 1) => ((vmat A : Matrix (Fin n) (Fin n) 𝕜) ^ i.1).mulVec fun j => if j.1 = 0 then 1 else 0)
    {A' Q' : VMat 𝕜} {lam : Arr ℝ} (hres : eigMat sgn 0 eps junk A lambda (some Q) = .ok (A', lam, some Q', 0)) :
    (vmat Q' : Matrix (Fin n) (Fin n) 𝕜) * (vmat Q')ᴴ = 1 ∧
    ‖(vmat Q' : Matrix (Fin n) (Fin n) 𝕜) * (Matrix.diagonal fun i : Fin n => (lam.v i : 𝕜)) * (vmat Q')ᴴ - vmat A‖
      ≤ ((1 + 4 * eps) ^ (33 * n) - 1) * ‖(vmat A : Matrix (Fin n) (Fin n) 𝕜)‖ := by
  obtain ⟨A1, T1, Q1, w, e, h⟩ := tridiagonalize_tot hsgn (le_refl (0 : ℝ)) hr hc (T := initTri junk n) rfl (le_refl _) (le_refl _) hqr hqc hA
  have herr := h.err
  rw [Real.sqrt_zero, mul_zero, mul_zero] at herr
  have hz := sub_eq_zero.mp (norm_le_zero_iff.mp herr)
  have hU0 : (vmat Q1 : Matrix (Fin n) (Fin n) 𝕜).mulVec e0 = e0 := by
    funext i
    have hi := i.2
    show ∑ j : Fin n, Q1.e i j * (if j.1 = 0 then 1 else 0) = _
    rw [Finset.sum_eq_single ⟨0, by omega⟩]
    · rw [if_pos rfl, mul_one]
      exact h.q0 i hi
    · intro j _ hj
      rw [if_neg (fun hx => hj (Fin.ext hx)), mul_zero]
    · intro hx
      exact absurd (Finset.mem_univ _) hx
  have hne : ∀ i, i + 2 < n → T1.l.v i ≠ 0 := by
    intro i hi hx
    refine cyclic_unreduced h.uni hU0 hz hcyc i hi ?_
    simp only [hx, RCLike.ofReal_zero, mul_zero]
  have := C73_eigenvectors hsgn (le_refl (0 : ℝ)) he junk A Q lambda hr hc hqr hqc hA rfl e hne hres
  simpa only [Real.sqrt_zero, mul_zero, add_zero, zero_add] using this

/-- C73: there is no division by zero if the matrix is definite and the errors are smaller than the smallest modulus of its eigenvalues. -/
theorem C73_definite {sgn : 𝕜 → 𝕜} (hsgn : ∀ x, ‖sgn x‖ = 1 ∧ sgn x * (‖x‖ : 𝕜) = x) {n : Nat} {tiny eps : ℝ} (ht : 0 ≤ tiny) (he : 0 < eps)
    (junk : Nat → ℝ) (A Q : VMat 𝕜) (lambda : Arr ℝ) (hr : A.rows = n) (hc : A.cols = n) (hqr : Q.rows = n) (hqc : Q.cols = n)
    (hA : ∀ i j, i < n → j < n → A.e i j = star (A.e j i)) {δ μ : ℝ} (hδ : δ = (n - 1 : ℕ) * (2 * √tiny))
    (hμ : ∀ x : Fin n → 𝕜, μ * ∑ i, ‖x i‖ ^ 2 ≤ ‖star x ⬝ᵥ (vmat A : Matrix (Fin n) (Fin n) 𝕜).mulVec x‖)
    (hs : δ + ((1 + 4 * eps) ^ (33 * n) - 1) * (‖(vmat A : Matrix (Fin n) (Fin n) 𝕜)‖ + δ) < μ) :
    ∃ A' lam Q' ret, eigMat sgn tiny eps junk A lambda (some Q) = .ok (A', lam, some Q', ret) := by
  obtain ⟨A1, T1, Q1, w, e, h, h1 | ⟨lam, Q', ret, W, e1, -⟩⟩ :=
    eigMat_out hsgn ht he junk (lambda := lambda) hr hc hqr hqc hA
  swap
  · exact ⟨_, _, _, _, e1⟩
  exfalso
  have hn : 0 < n := by
    by_contra hx
    obtain rfl : n = 0 := by omega
    have := h1.2
    unfold muleig at this
    simp only [h.dn] at this
    rw [if_pos (by omega)] at this
    cases this
  obtain ⟨E, hE, hE'⟩ := herTri_unimodular T1.d.v T1.l.v w h.w1
  have hV : (vmat Q1 * E) * (vmat Q1 * E)ᴴ = 1 := by
    rw [Matrix.conjTranspose_mul, Matrix.mul_assoc, ← Matrix.mul_assoc E, hE, Matrix.one_mul, h.uni]
  have herr : ‖(vmat Q1 * E) * cm (triMat n T1.d.v T1.l.v) * (vmat Q1 * E)ᴴ - vmat A‖ ≤ δ := by
    have := h.err
    rw [← hE', ← hδ] at this
    refine le_of_eq_of_le ?_ this
    rw [Matrix.conjTranspose_mul, cm_tri]
    congr 2
    noncomm_ring
  generalize hVd : vmat Q1 * E = V at *
  have hT : ‖triMat n T1.d.v T1.l.v‖ ≤ ‖(vmat A : Matrix (Fin n) (Fin n) 𝕜)‖ + δ := by
    rw [← norm_cm (𝕜 := 𝕜), ← norm_conjU hV]
    have : V * cm (triMat n T1.d.v T1.l.v) * Vᴴ = vmat A + (V * cm (triMat n T1.d.v T1.l.v) * Vᴴ - vmat A) := by abel
    rw [this]
    exact (norm_add_le _ _).trans (by linarith)
  have hVV : Vᴴ * V = 1 := mul_eq_one_comm.mp hV
  obtain ⟨T', Q', it, e2⟩ := C71_definite (μ := μ - δ) he T1 h.dn h.ln.ge (some Q1) (fun x hx => by
      have := Option.some.inj hx
      rw [← this, h.qc]) (32 * n) (by omega) (by
    intro x
    obtain ⟨z, hz⟩ : ∃ z : Fin n → 𝕜, z = fun i => (x i : 𝕜) := ⟨_, rfl⟩
    obtain ⟨y, hy⟩ : ∃ y, y = V.mulVec z := ⟨_, rfl⟩
    have hyy : ∑ i, ‖y i‖ ^ 2 = x ⬝ᵥ x := by
      have e1 : star y ⬝ᵥ y = star z ⬝ᵥ z := by
        rw [hy, Matrix.star_mulVec, ← Matrix.dotProduct_mulVec, Matrix.mulVec_mulVec, hVV, Matrix.one_mulVec]
      have e2 : ∀ u : Fin n → 𝕜, star u ⬝ᵥ u = ((∑ i, ‖u i‖ ^ 2 : ℝ) : 𝕜) := by
        intro u
        rw [RCLike.ofReal_sum]
        refine Finset.sum_congr rfl fun i _ => ?_
        rw [Pi.star_apply, RCLike.star_def, RCLike.conj_mul, RCLike.ofReal_pow]
      rw [e2, e2] at e1
      have := RCLike.ofReal_injective e1
      rw [this, hz]
      refine Finset.sum_congr rfl fun i _ => ?_
      rw [RCLike.norm_ofReal, sq_abs, pow_two]
    have hxT : star z ⬝ᵥ (cm (triMat n T1.d.v T1.l.v)).mulVec z = ((x ⬝ᵥ (triMat n T1.d.v T1.l.v).mulVec x : ℝ) : 𝕜) := by
      rw [hz]
      simp only [dotProduct, Matrix.mulVec, cm, Pi.star_apply, RCLike.star_def, RCLike.conj_ofReal, map_sum, RCLike.ofReal_mul]
    have hsplit : star y ⬝ᵥ (vmat A : Matrix (Fin n) (Fin n) 𝕜).mulVec y = star z ⬝ᵥ (cm (triMat n T1.d.v T1.l.v)).mulVec z
        - star y ⬝ᵥ (V * cm (triMat n T1.d.v T1.l.v) * Vᴴ - vmat A).mulVec y := by
      rw [Matrix.sub_mulVec, dotProduct_sub]
      have : star y ⬝ᵥ (V * cm (triMat n T1.d.v T1.l.v) * Vᴴ).mulVec y = star z ⬝ᵥ (cm (triMat n T1.d.v T1.l.v)).mulVec z := by
        rw [hy, Matrix.mulVec_mulVec, Matrix.mul_assoc, hVV, Matrix.mul_one, Matrix.star_mulVec, ← Matrix.dotProduct_mulVec, Matrix.mulVec_mulVec,
          ← Matrix.mul_assoc, hVV, Matrix.one_mul]
      rw [this]
      abel
    have hcs : ‖star y ⬝ᵥ (V * cm (triMat n T1.d.v T1.l.v) * Vᴴ - vmat A).mulVec y‖ ≤ δ * ∑ i, ‖y i‖ ^ 2 := by
      generalize V * cm (triMat n T1.d.v T1.l.v) * Vᴴ - vmat A = M at *
      have c1 := mulVec_sq M y
      have c2 : ‖star y ⬝ᵥ M.mulVec y‖ ≤ √(∑ i, ‖y i‖ ^ 2) * √(∑ i, ‖M.mulVec y i‖ ^ 2) := by
        refine (norm_sum_le _ _).trans ?_
        simp only [norm_mul, Pi.star_apply, norm_star]
        exact Real.sum_mul_le_sqrt_mul_sqrt _ _ _
      have c3 : √(∑ i, ‖M.mulVec y i‖ ^ 2) ≤ ‖M‖ * √(∑ i, ‖y i‖ ^ 2) := by
        rw [← Real.sqrt_sq (norm_nonneg M), ← Real.sqrt_mul (by positivity)]
        exact Real.sqrt_le_sqrt c1
      have c4 : 0 ≤ ∑ i, ‖y i‖ ^ 2 := Finset.sum_nonneg fun i _ => by positivity
      calc _ ≤ √(∑ i, ‖y i‖ ^ 2) * (‖M‖ * √(∑ i, ‖y i‖ ^ 2)) := c2.trans (mul_le_mul_of_nonneg_left c3 (Real.sqrt_nonneg _))
        _ = ‖M‖ * (√(∑ i, ‖y i‖ ^ 2) * √(∑ i, ‖y i‖ ^ 2)) := by ring
        _ = ‖M‖ * ∑ i, ‖y i‖ ^ 2 := by rw [Real.mul_self_sqrt c4]
        _ ≤ _ := mul_le_mul_of_nonneg_right herr c4
    have := hμ y
    rw [hsplit, hxT] at this
    have t := norm_sub_le ((x ⬝ᵥ (triMat n T1.d.v T1.l.v).mulVec x : ℝ) : 𝕜) (star y ⬝ᵥ (V * cm (triMat n T1.d.v T1.l.v) * Vᴴ - vmat A).mulVec y)
    rw [RCLike.norm_ofReal] at t
    rw [hyy] at this hcs
    rw [sub_mul]
    linarith) (by
    have hb := bound_nonneg he (33 * n)
    rw [show 32 * n + n = 33 * n by omega]
    have := mul_le_mul_of_nonneg_left hT hb
    linarith)
  rw [h1.2] at e2
  cases e2

/-- C73: without a matrix for the eigenvectors the call is undefined, although the documentation allows it. -/
theorem C73_null (sgn : 𝕜 → 𝕜) (tiny eps : ℝ) (junk : Nat → ℝ) (A : VMat 𝕜) (lambda : Arr ℝ) (h : A.cols = A.rows) :
    eigMat sgn tiny eps junk A lambda none = .error .ub := by
  unfold eigMat sbEig
  simp only
  rw [cassert_true (by simp [h]), ok_bind, cassert_true (by simp [h]), ok_bind, cassert_true (by simp), ok_bind, cassert_true (by simp), ok_bind, C72_null _ _ _ _ h]
  rfl

/-- the tridiagonalization of the zero matrix -/
theorem zero_tridiag73 {n : Nat} (hn : 2 ≤ n) (sgn : 𝕜 → 𝕜) {tiny : ℝ} (ht : 0 ≤ tiny) (A Q : VMat 𝕜) (T : Tri) (hr : A.rows = n) (hc : A.cols = n)
    (hqr : Q.rows = n) (hqc : Q.cols = n) (hd : T.d.n = n) (hl : T.l.n = n - 1) (hu : T.u.n = n - 1) (h0 : ∀ i j, i < n → j < n → A.e i j = 0) :
    ∃ T', tridiagonalize sgn tiny A T (some Q) = .ok (A, T', some (identityV Q)) ∧ T'.d.n = n ∧ T'.l.n = n - 1 ∧ (∀ i < n, T'.d.v i = 0) ∧ ∀ i < n - 1, T'.l.v i = 0 := by
  unfold tridiagonalize
  simp only [hr]
  rw [cassert_true (by simpa using hc), ok_bind, cassert_true (by simpa using hqr), ok_bind, cassert_true (by simpa using hqc), ok_bind,
    cassert_true (by simpa using hd), ok_bind, if_neg (by omega), if_neg (by omega)]
  obtain ⟨st, es, h1, h2, h3, h4, h5, h6, h7⟩ := forUp_tot (body := tdStep sgn tiny n) (s := ⟨A, T, identityV Q, 1⟩) (fun k (st : TdSt 𝕜) => st.A = A ∧ st.Q = identityV Q ∧ st.T.d.n = n ∧ st.T.l.n = n - 1 ∧
    st.T.u.n = n - 1 ∧ (∀ i < k, st.T.d.v i = 0) ∧ ∀ i < k, st.T.l.v i = 0) (Nat.zero_le (n - 1))
    ⟨rfl, rfl, hd, hl, hu, fun i hi => absurd hi (by omega), fun i hi => absurd hi (by omega)⟩ (by
      rintro k ⟨A', T', Q', p⟩ - hk ⟨h1, h2, h3, h4, h5, h6, h7⟩
      simp only at h1 h2 h3 h4 h5 h6 h7
      subst h1 h2
      unfold tdStep
      obtain ⟨N, e, hN⟩ := subNorm2_tot (A := A') hr hc (show k + 1 < n by omega)
      have : N = 0 := by
        rw [hN]
        refine Finset.sum_eq_zero fun i hi => ?_
        have := Finset.mem_Ico.mp hi
        rw [h0 i k this.2 (by omega), norm_zero]
        norm_num
      rw [e, ok_bind, if_pos (by rw [this]; exact ht)]
      simp only
      rw [vget_ok (by omega) (by omega), ok_bind, Arr.set_ok (by omega), ok_bind, Arr.set_ok (by omega), ok_bind, Arr.set_ok (by omega), ok_bind]
      refine Tot.pure ⟨rfl, rfl, h3, h4, h5, fun i hi => ?_, fun i hi => ?_⟩
      · show (if i = k then _ else _) = _
        split_ifs with e
        · rw [h0 k k (by omega) (by omega), map_zero]
        · exact h6 i (by omega)
      · show (if i = k then _ else _) = _
        split_ifs with e
        · rfl
        · exact h7 i (by omega))
  rw [es, ok_bind, h1, vget_ok (by omega) (by omega), ok_bind, Arr.set_ok (by omega), ok_bind, h2]
  refine ⟨_, rfl, h3, h4, fun i hi => ?_, h7⟩
  show (if i = n - 1 then _ else _) = _
  split_ifs with e
  · rw [h0 _ _ (by omega) (by omega), map_zero]
  · exact h6 i (by omega)

/-- C73: the eigenvalues of the zero matrix (of size at least two) cannot be computed: the program divides by zero. -/
theorem C73_zero {n : Nat} (hn : 2 ≤ n) (sgn : 𝕜 → 𝕜) {tiny : ℝ} (ht : 0 ≤ tiny) (eps : ℝ) (junk : Nat → ℝ) (A Q : VMat 𝕜) (lambda : Arr ℝ) (hr : A.rows = n)
    (hc : A.cols = n) (hqr : Q.rows = n) (hqc : Q.cols = n) (h0 : ∀ i j, i < n → j < n → A.e i j = 0) :
    eigMat sgn tiny eps junk A lambda (some Q) = .error .nan := by
  obtain ⟨T', e, h1, h2, h3, h4⟩ := zero_tridiag73 hn sgn ht A Q (initTri junk n) hr hc hqr hqc rfl rfl rfl h0
  unfold eigMat sbEig
  simp only
  rw [cassert_true (by rw [hr, hc]; exact decide_eq_true rfl), ok_bind, cassert_true (by rw [hr, hc]; exact decide_eq_true rfl), ok_bind,
    cassert_true (decide_eq_true (by rintro q hq; cases hq; rw [hr, hqr])), ok_bind,
    cassert_true (decide_eq_true (by rintro q hq; cases hq; rw [hr, hqc])), ok_bind, hr, e, ok_bind]
  simp only
  rw [C71_zero hn eps T' h1 h2.ge h3 h4 _ _ _ (by omega)]
  rfl

/-- C73: for a matrix without rows the function reports failure, although there is nothing to compute. -/
theorem C73_empty (sgn : 𝕜 → 𝕜) (tiny eps : ℝ) (junk : Nat → ℝ) (A Q : VMat 𝕜) (lambda : Arr ℝ) (hr : A.rows = 0)
    (hc : A.cols = 0) (hqr : Q.rows = 0) (hqc : Q.cols = 0) :
    eigMat sgn tiny eps junk A lambda (some Q) = .ok (A, lambda, some (identityV Q), 1) := by
  unfold eigMat sbEig tridiagonalize muleig
  simp only [hr, hc]
  rw [cassert_true (decide_eq_true trivial), ok_bind, ok_bind,
    cassert_true (decide_eq_true (by rintro q hq; cases hq; exact hqr)), ok_bind,
    cassert_true (decide_eq_true (by rintro q hq; cases hq; exact hqc)), ok_bind, ok_bind,
    cassert_true (by simpa using hqr), ok_bind, cassert_true (by simpa using hqc), ok_bind, cassert_true (by simp [initTri]), ok_bind]
  rfl

/-- C73: the eigenvectors need not belong to the eigenvalues: for the positive definite matrix `swap72` and small `eps`, the function returns normally, and
if it reports success, `Q diag(lambda) Q^T` differs from the matrix by at least one. -/
theorem C73_defect {tiny eps : ℝ} (ht : 0 ≤ tiny) (ht1 : 6 * √tiny < 1 / 4) (he : 0 < eps) (he1 : 5 * ((1 + 4 * eps) ^ 132 - 1) < 1) (junk : Nat → ℝ)
    (Q : VMat ℝ) (lambda : Arr ℝ) (hqr : Q.rows = 4) (hqc : Q.cols = 4) :
    ∃ A' lam Q' ret, eigMat Dense.sgnReal tiny eps junk swap72 lambda (some Q) = .ok (A', lam, some Q', ret) ∧
      (ret = 0 → 1 ≤ |((vmat Q' : Matrix (Fin 4) (Fin 4) ℝ) * (Matrix.diagonal fun i : Fin 4 => lam.v i) * (vmat Q' : Matrix (Fin 4) (Fin 4) ℝ)ᴴ) 3 2 - swap72.e 3 2|) := by
  have hA : ∀ i j, i < 4 → j < 4 → swap72.e i j = star (swap72.e j i) := by
    intro i j _ _
    simp only [swap72, star_trivial]
    split_ifs <;> first | rfl | omega
  have hlt1 : tiny < 1 := by
    have := Real.sqrt_nonneg tiny
    nlinarith [Real.sq_sqrt ht]
  have hnorm : ‖(vmat swap72 : Matrix (Fin 4) (Fin 4) ℝ)‖ ≤ 4 := by
    refine norm_of_mulVec _ (by norm_num) fun z => ?_
    simp only [Matrix.mulVec, dotProduct, Fin.sum_univ_four, vmat, swap72, Real.norm_eq_abs, sq_abs]
    simp
    nlinarith [sq_nonneg (z 0 - z 1), sq_nonneg (z 2 - z 3)]
  have hq : ∀ x : Fin 4 → ℝ, 2 * ∑ i, ‖x i‖ ^ 2 ≤ ‖star x ⬝ᵥ (vmat swap72 : Matrix (Fin 4) (Fin 4) ℝ).mulVec x‖ := by
    intro x
    refine le_trans ?_ (le_abs_self _)
    simp only [Matrix.mulVec, dotProduct, Fin.sum_univ_four, vmat, swap72, Real.norm_eq_abs, sq_abs]
    simp
    nlinarith [sq_nonneg (x 0 + x 1), sq_nonneg (x 2 + x 3)]
  have hd0 := C73_definite (sgn := Dense.sgnReal) sign_real72 (n := 4) ht he junk swap72 Q lambda rfl rfl hqr hqc hA rfl hq (by
    have := bound_nonneg he 132
    norm_num at this he1 ⊢
    nlinarith [Real.sqrt_nonneg tiny])
  obtain ⟨A', lam, Q', ret, e⟩ := hd0
  refine ⟨A', lam, Q', ret, e, fun hret => ?_⟩
  obtain ⟨A1, T1, Q1, w, e1, h, h1 | ⟨lam', Q'', ret', W, e2, h1, h2, h3, h4, h5, h6, h7, h8, h9⟩⟩ :=
    eigMat_out (sgn := Dense.sgnReal) sign_real72 (n := 4) ht he junk (lambda := lambda) rfl rfl hqr hqc hA
  · rw [h1.1] at e
    cases e
  rw [e2] at e
  cases e
  obtain ⟨A2, T2, Q2, e3, g1, g2⟩ := C72_defect ht hlt1 Q (initTri junk 4) rfl rfl rfl hqr hqc
  rw [e1] at e3
  cases e3
  have b := h9 hret
  obtain ⟨E, hE, hE'⟩ := herTri_unimodular T1.d.v T1.l.v w h.w1
  have hV : (vmat Q1 * E) * (vmat Q1 * E)ᴴ = 1 := by
    rw [Matrix.conjTranspose_mul, Matrix.mul_assoc, ← Matrix.mul_assoc E, hE, Matrix.one_mul, h.uni]
  have herr : ‖(vmat Q1 * E) * cm (triMat 4 T1.d.v T1.l.v) * (vmat Q1 * E)ᴴ - vmat swap72‖ ≤ (4 - 1 : ℕ) * (2 * √tiny) := by
    have := h.err
    rw [← hE'] at this
    refine le_of_eq_of_le ?_ this
    rw [Matrix.conjTranspose_mul, cm_tri]
    congr 2
    noncomm_ring
  have hT : ‖triMat 4 T1.d.v T1.l.v‖ ≤ 17 / 4 := by
    rw [← norm_cm (𝕜 := ℝ), ← norm_conjU hV]
    have : (vmat Q1 * E) * cm (triMat 4 T1.d.v T1.l.v) * (vmat Q1 * E)ᴴ = vmat swap72 + ((vmat Q1 * E) * cm (triMat 4 T1.d.v T1.l.v) * (vmat Q1 * E)ᴴ - vmat swap72) := by abel
    rw [this]
    refine (norm_add_le _ _).trans ?_
    have h6 : ((4 - 1 : ℕ) : ℝ) * (2 * √tiny) = 6 * √tiny := by push_cast; ring
    linarith
  have hb := bound_nonneg he 132
  rw [show 33 * 4 = 132 by norm_num] at b
  generalize (1 + 4 * eps) ^ 132 - 1 = c at b hb he1
  have b2 : ‖W * (Matrix.diagonal fun i : Fin 4 => lam.v i) * W.transpose - triMat 4 T1.d.v T1.l.v‖ < 1 := by
    refine lt_of_le_of_lt b ?_
    have := mul_le_mul_of_nonneg_left hT hb
    linarith
  have ed : (vmat Q' : Matrix (Fin 4) (Fin 4) ℝ) * (Matrix.diagonal fun i : Fin 4 => lam.v i) * (vmat Q')ᴴ -
      vmat Q1 * herTri 4 T1.d.v (fun i => T1.l.v i) * (vmat Q1)ᴴ =
      vmat Q1 * (W * (Matrix.diagonal fun i : Fin 4 => lam.v i) * W.transpose - triMat 4 T1.d.v T1.l.v) * (vmat Q1)ᴴ := by
    have c1 : (cm W : Matrix (Fin 4) (Fin 4) ℝ) = W := rfl
    have c2 : (herTri 4 T1.d.v (fun i => T1.l.v i) : Matrix (Fin 4) (Fin 4) ℝ) = triMat 4 T1.d.v T1.l.v := (cm_tri (𝕜 := ℝ) _ _).symm
    rw [h8, c1, c2, Matrix.conjTranspose_mul, Matrix.conjTranspose_eq_transpose_of_trivial W]
    noncomm_ring
  rw [← norm_conjU h.uni, ← ed] at b2
  have b3 := (entry_le _ 3 2).trans_lt b2
  rw [Matrix.sub_apply, g1] at b3
  have b4 : swap72.e 3 2 = 1 := g2
  rw [b4]
  obtain ⟨b5, b6⟩ := abs_lt.mp b3
  rw [le_abs]
  right
  linarith

/-- there are tolerances for which the hypotheses of `C73_defect` hold -/
example : ∃ eps : ℝ, 0 < eps ∧ 5 * ((1 + 4 * eps) ^ 132 - 1) < 1 := by
  have h : Continuous fun eps : ℝ => 5 * ((1 + 4 * eps) ^ 132 - 1) := by fun_prop
  have h2 := h.tendsto 0
  simp only [mul_zero, add_zero, one_pow, sub_self] at h2
  obtain ⟨eps, h3, h4⟩ := (((h2.mono_left nhdsWithin_le_nhds).eventually (gt_mem_nhds (show (0 : ℝ) < 1 by norm_num))).and
    (self_mem_nhdsWithin (s := Set.Ioi (0 : ℝ)))).exists
  exact ⟨eps, h4, h3⟩

/-- the path with three vertices meets the hypothesis of `C73_cyclic` -/
example : LinearIndependent ℝ fun i : Fin (3 - 1) => ((vmat path72 : Matrix (Fin 3) (Fin 3) ℝ) ^ i.1).mulVec fun j => if j.1 = 0 then 1 else 0 := by
  rw [Fintype.linearIndependent_iff]
  intro g hg
  have e : ∀ j : Fin 3, g 0 * (if j.1 = 0 then 1 else 0) + g 1 * (vmat path72 : Matrix (Fin 3) (Fin 3) ℝ) j 0 = 0 := by
    intro j
    have := congrFun hg j
    simp [Fin.sum_univ_two, Matrix.mulVec, dotProduct, Fin.sum_univ_three, Matrix.one_apply] at this
    fin_cases j <;> simpa using this
  intro i
  have e0 := e 0
  have e1 := e 1
  simp [vmat, path72] at e0 e1
  fin_cases i
  · exact e0
  · exact e1

end H2.Props
