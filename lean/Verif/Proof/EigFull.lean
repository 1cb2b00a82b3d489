import Verif.Proof.Tridiag5
import Verif.Proof.Eigen3
import Verif.Model.EigFull

set_option linter.unusedSectionVars false

/-! The eigenvalue solver for dense self-adjoint matrices (C73). -/

namespace H2.Eig
open Spec Krylov Matrix
open scoped Matrix.Norms.L2Operator
variable {𝕜 : Type} [RCLike 𝕜]

/-- a real matrix as a matrix over the field -/
def cm {n : Nat} (M : Matrix (Fin n) (Fin n) ℝ) : Matrix (Fin n) (Fin n) 𝕜 := fun i j => (M i j : 𝕜)

theorem cm_mul {n : Nat} (A B : Matrix (Fin n) (Fin n) ℝ) : (cm (A * B) : Matrix _ _ 𝕜) = cm A * cm B := by
  ext i j
  simp only [cm, Matrix.mul_apply, map_sum, RCLike.ofReal_mul]

theorem cm_one {n : Nat} : (cm (1 : Matrix (Fin n) (Fin n) ℝ) : Matrix _ _ 𝕜) = 1 := by
  ext i j
  unfold cm
  by_cases h : i = j
  · rw [h, Matrix.one_apply_eq, Matrix.one_apply_eq, RCLike.ofReal_one]
  · rw [Matrix.one_apply_ne h, Matrix.one_apply_ne h, RCLike.ofReal_zero]

theorem cm_sub {n : Nat} (A B : Matrix (Fin n) (Fin n) ℝ) : (cm (A - B) : Matrix _ _ 𝕜) = cm A - cm B := by
  ext i j
  simp only [cm, Matrix.sub_apply, RCLike.ofReal_sub]

theorem cm_adj {n : Nat} (A : Matrix (Fin n) (Fin n) ℝ) : (cm A.transpose : Matrix _ _ 𝕜) = (cm A)ᴴ := by
  ext i j
  simp only [cm, Matrix.transpose_apply, Matrix.conjTranspose_apply, RCLike.star_def, RCLike.conj_ofReal]

theorem cm_diag {n : Nat} (d : Nat → ℝ) : (cm (Matrix.diagonal fun i : Fin n => d i) : Matrix _ _ 𝕜) = Matrix.diagonal fun i : Fin n => (d i : 𝕜) := by
  ext i j
  unfold cm
  by_cases h : i = j
  · rw [h, Matrix.diagonal_apply_eq, Matrix.diagonal_apply_eq]
  · rw [Matrix.diagonal_apply_ne _ h, Matrix.diagonal_apply_ne _ h, RCLike.ofReal_zero]

theorem cm_tri {n : Nat} (d l : Nat → ℝ) : (cm (triMat n d l) : Matrix _ _ 𝕜) = herTri n d fun i => (l i : 𝕜) := by
  ext i j
  unfold cm triMat herTri
  split_ifs
  · rfl
  · rfl
  · simp only [RCLike.star_def, RCLike.conj_ofReal]
  · exact RCLike.ofReal_zero

theorem re_cm {n : Nat} (M : Matrix (Fin n) (Fin n) ℝ) (z : Fin n → 𝕜) (i : Fin n) : RCLike.re ((cm M).mulVec z i) = M.mulVec (fun j => RCLike.re (z j)) i := by
  simp only [Matrix.mulVec, dotProduct, cm, map_sum, RCLike.re_ofReal_mul]

theorem im_cm {n : Nat} (M : Matrix (Fin n) (Fin n) ℝ) (z : Fin n → 𝕜) (i : Fin n) : RCLike.im ((cm M).mulVec z i) = M.mulVec (fun j => RCLike.im (z j)) i := by
  simp only [Matrix.mulVec, dotProduct, cm, map_sum, RCLike.im_ofReal_mul]

theorem mulVec_sq {n : Nat} (M : Matrix (Fin n) (Fin n) 𝕜) (z : Fin n → 𝕜) : ∑ i, ‖M.mulVec z i‖ ^ 2 ≤ ‖M‖ ^ 2 * ∑ i, ‖z i‖ ^ 2 := by
  have h := Matrix.l2_opNorm_mulVec M (WithLp.toLp 2 z)
  have h2 := mul_self_le_mul_self (norm_nonneg _) h
  rw [← pow_two, ← pow_two, mul_pow, EuclideanSpace.norm_sq_eq, EuclideanSpace.norm_sq_eq] at h2
  exact h2

theorem norm_of_mulVec {n : Nat} (M : Matrix (Fin n) (Fin n) 𝕜) {c : ℝ} (hc : 0 ≤ c) (h : ∀ z : Fin n → 𝕜, ∑ i, ‖M.mulVec z i‖ ^ 2 ≤ c ^ 2 * ∑ i, ‖z i‖ ^ 2) : ‖M‖ ≤ c := by
  rw [Matrix.l2_opNorm_def]
  refine ContinuousLinearMap.opNorm_le_bound _ hc fun z => ?_
  refine le_of_sq_le_sq ?_ (mul_nonneg hc (norm_nonneg _))
  rw [mul_pow, EuclideanSpace.norm_sq_eq, EuclideanSpace.norm_sq_eq]
  exact h z.ofLp

theorem norm_cm {n : Nat} (M : Matrix (Fin n) (Fin n) ℝ) : ‖(cm M : Matrix _ _ 𝕜)‖ = ‖M‖ := by
  apply le_antisymm
  · refine norm_of_mulVec _ (norm_nonneg _) fun z => ?_
    have e : ∀ x : 𝕜, ‖x‖ ^ 2 = ‖RCLike.re x‖ ^ 2 + ‖RCLike.im x‖ ^ 2 := by
      intro x
      rw [RCLike.norm_sq_eq_def]
      simp only [Real.norm_eq_abs, sq_abs]
      ring
    simp only [e, Finset.sum_add_distrib, re_cm, im_cm, mul_add]
    exact add_le_add (mulVec_sq M _) (mulVec_sq M _)
  · refine norm_of_mulVec _ (norm_nonneg _) fun z => ?_
    have h := mulVec_sq (cm M : Matrix _ _ 𝕜) fun i => (z i : 𝕜)
    have e : ∀ i, (cm M : Matrix _ _ 𝕜).mulVec (fun i => (z i : 𝕜)) i = ((M.mulVec z i : ℝ) : 𝕜) := by
      intro i
      simp only [Matrix.mulVec, dotProduct, cm, map_sum, RCLike.ofReal_mul]
    simp only [e, RCLike.norm_ofReal] at h
    simpa only [Real.norm_eq_abs] using h

/-- the result of the copy loop -/
theorem copyEig_tot {n : Nat} {d lam : Arr ℝ} (hd : d.n = n) (hl : n ≤ lam.n) :
    Tot (forUp 0 n (fun i lambda => do
      let x ← d.get i
      Arr.set lambda i x) lam) fun lam' => lam'.n = lam.n ∧ (∀ i < n, lam'.v i = d.v i) ∧ ∀ i, n ≤ i → lam'.v i = lam.v i := by
  refine (forUp_tot (fun k (x : Arr ℝ) => x.n = lam.n ∧ (∀ i < k, x.v i = d.v i) ∧ ∀ i, k ≤ i → x.v i = lam.v i) (Nat.zero_le _)
    ⟨rfl, fun i hi => absurd hi (by omega), fun _ _ => rfl⟩ ?_).mono fun _ h => h
  rintro k x - hk ⟨h1, h2, h3⟩
  rw [Arr.get_ok (by omega), ok_bind, Arr.set_ok (by omega)]
  refine ⟨_, rfl, h1, fun i hi => ?_, fun i hi => ?_⟩
  · show (if i = k then _ else _) = _
    split_ifs with e
    · rw [e]
    · exact h2 i (by omega)
  · show (if i = k then _ else _) = _
    rw [if_neg (by omega), h3 i (by omega)]

/-- outcome of `eig_amatrix`, in terms of the tridiagonalization and the QR iteration -/
theorem eigMat_out {sgn : 𝕜 → 𝕜} (hsgn : IsSign sgn) {n : Nat} {tiny eps : ℝ} (ht : 0 ≤ tiny) (he : 0 < eps) (junk : Nat → ℝ) {A Q : VMat 𝕜} {lambda : Arr ℝ}
    (hr : A.rows = n) (hc : A.cols = n) (hqr : Q.rows = n) (hqc : Q.cols = n) (hA : ∀ i j, i < n → j < n → A.e i j = star (A.e j i)) :
    ∃ A1 T1 Q1 w, tridiagonalize sgn tiny A (initTri junk n) (some Q) = .ok (A1, T1, some Q1) ∧ TdRes n tiny (vmat A) (initTri junk n) T1 Q1 w ∧
      ((eigMat sgn tiny eps junk A lambda (some Q) = .error .nan ∧ muleig eps (32 * n) T1 (some Q1) (32 * n) = .error .nan) ∨
      ∃ lam Q' ret, ∃ W : Matrix (Fin n) (Fin n) ℝ, eigMat sgn tiny eps junk A lambda (some Q) = .ok (A1, lam, some Q', ret) ∧ ret ≤ 1 ∧ lam.n = max lambda.n n ∧
        (∀ i, n ≤ i → i < lambda.n → lam.v i = lambda.v i) ∧ (∀ i j, i < j → j < n → lam.v i ≤ lam.v j) ∧ Q'.rows = n ∧ Q'.cols = n ∧ W * W.transpose = 1 ∧ (vmat Q' : Matrix (Fin n) (Fin n) 𝕜) = vmat Q1 * cm W ∧
        (ret = 0 → ‖W * (Matrix.diagonal fun i : Fin n => lam.v i) * W.transpose - triMat n T1.d.v T1.l.v‖ ≤
          ((1 + 4 * eps) ^ (33 * n) - 1) * ‖triMat n T1.d.v T1.l.v‖)) := by
  obtain ⟨A1, T1, Q1, w, e, h⟩ := tridiagonalize_tot hsgn ht hr hc (T := initTri junk n) rfl (le_refl _) (le_refl _) hqr hqc hA
  refine ⟨A1, T1, Q1, w, e, h, ?_⟩
  have hQok : QOk n (some Q1) := fun x hx => by
    have := Option.some.inj hx
    rw [← this, h.qc]
  have hln : n - 1 ≤ T1.l.n := h.ln.ge
  unfold eigMat sbEig
  simp only
  rw [cassert_true (by rw [hr, hc]; exact decide_eq_true rfl), ok_bind, cassert_true (by rw [hr, hc]; exact decide_eq_true rfl), ok_bind,
    cassert_true (decide_eq_true (by rintro q hq; cases hq; rw [hr, hqr])), ok_bind,
    cassert_true (decide_eq_true (by rintro q hq; cases hq; rw [hr, hqc])), ok_bind, hr, e, ok_bind]
  simp only
  rcases muleig_out (𝕜 := 𝕜) he h.dn hln hQok (le_refl (32 * n)) with g | ⟨g, g'⟩ | ⟨⟨T', Q', it⟩, e1, h1, h2, h3, h4, h5, W, h6, h7, h8⟩
  · left
    rw [g.1]
    exact ⟨rfl, rfl⟩
  · exfalso
    obtain rfl : n = 0 := by omega
    unfold muleig at g'
    simp only [h.dn] at g'
    rw [if_pos (by omega)] at g'
    cases g'
  · right
    rw [e1, ok_bind]
    simp only at h1 h4 h5 h7 h8 ⊢
    cases Q' with
    | none => exact h7.elim
    | some q' =>
      obtain ⟨w1, w2, w3⟩ := h7
      obtain ⟨lam0, hlam0⟩ : ∃ l0, l0 = if lambda.n < n then resizeReal junk lambda n else lambda := ⟨_, rfl⟩
      rw [← hlam0]
      have hl0 : lam0.n = max lambda.n n ∧ ∀ i, n ≤ i → i < lambda.n → lam0.v i = lambda.v i := by
        rw [hlam0]
        split_ifs with hx
        · unfold resizeReal
          rw [if_pos (by omega)]
          exact ⟨by show n = _; omega, fun i _ _ => by omega⟩
        · exact ⟨by omega, fun _ _ _ => rfl⟩
      obtain ⟨lam, e2, l1, l2, l3⟩ := copyEig_tot (lam := lam0) (h1.trans h.dn) (by omega)
      rw [e2]
      refine ⟨lam, q', _, W, rfl, by split_ifs <;> omega, l1.trans hl0.1, fun i a b => (l3 i a).trans (hl0.2 i a b), ?_, w1.trans h.qr, w2.trans h.qc, h6, ?_, ?_⟩
      · intro i j hij hj
        rw [l2 i (by omega), l2 j hj]
        exact h4 i j hij hj
      · ext i j
        show q'.e i j = _
        rw [w3 i (by rw [h.qr]; exact i.2) j]
        rfl
      · intro hret
        have hit : it < 32 * n := by
          by_contra hx
          rw [if_neg hx] at hret
          omega
        have hdd : (Matrix.diagonal fun i : Fin n => lam.v i) = Matrix.diagonal fun i : Fin n => T'.d.v i := by
          congr 1
          funext i
          exact l2 i i.2
        rw [hdd]
        refine (h8 (.inr hit)).2.trans (mul_le_mul_of_nonneg_right ?_ (norm_nonneg _))
        have : (1 + 4 * eps) ^ (it + (n - 1)) ≤ (1 + 4 * eps) ^ (33 * n) := pow_le_pow_right₀ (by linarith) (by omega)
        linarith

/-- errors of both phases -/
theorem eig_err {n : Nat} {A V0 : Matrix (Fin n) (Fin n) 𝕜} {T W : Matrix (Fin n) (Fin n) ℝ} {lam : Nat → ℝ} {c δ : ℝ} (hV : V0 * V0ᴴ = 1)
    (hW : W * W.transpose = 1) (h1 : ‖V0 * cm T * V0ᴴ - A‖ ≤ δ) (hc : 0 ≤ c)
    (h2 : ‖W * (Matrix.diagonal fun i : Fin n => lam i) * W.transpose - T‖ ≤ c * ‖T‖) :
    (V0 * cm W) * (V0 * cm W)ᴴ = 1 ∧ ‖(V0 * cm W) * (Matrix.diagonal fun i : Fin n => (lam i : 𝕜)) * (V0 * cm W)ᴴ - A‖ ≤ δ + c * (‖A‖ + δ) := by
  have hW' : (cm W : Matrix _ _ 𝕜) * (cm W)ᴴ = 1 := by rw [← cm_adj, ← cm_mul, hW, cm_one]
  have hT : ‖T‖ ≤ ‖A‖ + δ := by
    rw [← norm_cm (𝕜 := 𝕜) T, ← norm_conjU hV]
    have : V0 * cm T * V0ᴴ = A + (V0 * cm T * V0ᴴ - A) := by abel
    rw [this]
    exact (norm_add_le _ _).trans (by linarith)
  constructor
  · rw [Matrix.conjTranspose_mul, Matrix.mul_assoc, ← Matrix.mul_assoc (cm W), hW', Matrix.one_mul, hV]
  · have e : (V0 * cm W) * (Matrix.diagonal fun i : Fin n => (lam i : 𝕜)) * (V0 * cm W)ᴴ - A =
        (V0 * cm T * V0ᴴ - A) + V0 * cm (W * (Matrix.diagonal fun i : Fin n => lam i) * W.transpose - T) * V0ᴴ := by
      rw [Matrix.conjTranspose_mul, cm_sub, cm_mul, cm_mul, cm_adj, cm_diag]
      noncomm_ring
    rw [e]
    refine (norm_add_le _ _).trans (add_le_add h1 ?_)
    rw [norm_conjU hV, norm_cm]
    exact h2.trans (mul_le_mul_of_nonneg_left hT hc)

theorem bound_nonneg {eps : ℝ} (he : 0 < eps) (m : Nat) : 0 ≤ (1 + 4 * eps) ^ m - 1 := by
  have : (1 : ℝ) ≤ (1 + 4 * eps) ^ m := one_le_pow₀ (by linarith)
  linarith

end H2.Eig

namespace H2.Eig
open Spec Krylov Matrix
open scoped Matrix.Norms.L2Operator
variable {𝕜 : Type} [RCLike 𝕜]

/-- the first unit vector -/
def e0 {n : Nat} : Fin n → 𝕜 := fun j => if j.1 = 0 then 1 else 0

/-- a vanishing subdiagonal entry makes the leading unit vectors an invariant subspace -/
theorem tri_pow_support {n k : Nat} {d : Nat → ℝ} {s : Nat → 𝕜} (hk : s k = 0) (m : Nat) (j : Fin n) (hj : k < j.1) :
    ((herTri n d s) ^ m).mulVec e0 j = 0 := by
  induction m generalizing j with
  | zero =>
    rw [pow_zero, Matrix.one_mulVec]
    exact if_neg (by omega)
  | succ m ih =>
    rw [pow_succ', ← Matrix.mulVec_mulVec]
    show ∑ i : Fin n, herTri n d s j i * ((herTri n d s) ^ m).mulVec e0 i = 0
    refine Finset.sum_eq_zero fun i _ => ?_
    by_cases hi : k < i.1
    · rw [ih i hi, mul_zero]
    · have : herTri n d s j i = 0 := by
        unfold herTri
        rw [if_neg (by omega)]
        split_ifs with c1 c2
        · obtain h : i.1 = k := by omega
          rw [h, hk]
        · omega
        · rfl
      rw [this, zero_mul]

/-- if the first unit vector generates a space of dimension at least `n - 1`, no subdiagonal entry but the last vanishes -/
theorem cyclic_unreduced {n : Nat} {A U : Matrix (Fin n) (Fin n) 𝕜} {d : Nat → ℝ} {s : Nat → 𝕜} (hU : U * Uᴴ = 1) (h0 : U.mulVec e0 = e0)
    (h : U * herTri n d s * Uᴴ = A) (hc : LinearIndependent 𝕜 fun i : Fin (n - 1) => (A ^ i.1).mulVec e0) (k : Nat) (hk : k + 2 < n) : s k ≠ 0 := by
  intro hs
  have hU' : Uᴴ * U = 1 := mul_eq_one_comm.mp hU
  have hp : ∀ m, (A ^ m).mulVec e0 = U.mulVec (((herTri n d s) ^ m).mulVec e0) := by
    intro m
    induction m with
    | zero => rw [pow_zero, pow_zero, Matrix.one_mulVec, h0]
    | succ m ih =>
      rw [pow_succ', ← Matrix.mulVec_mulVec, ih, pow_succ', ← Matrix.mulVec_mulVec, ← h]
      rw [Matrix.mulVec_mulVec, Matrix.mul_assoc, hU', Matrix.mul_one, ← Matrix.mulVec_mulVec]
  simp only [hp] at hc
  have hc2 : LinearIndependent 𝕜 fun i : Fin (n - 1) => ((herTri n d s) ^ i.1).mulVec e0 := by
    refine LinearIndependent.of_comp U.mulVecLin ?_
    exact hc
  obtain ⟨P, hP⟩ : ∃ P : (Fin n → 𝕜) →ₗ[𝕜] (Fin (k + 1) → 𝕜), P = LinearMap.funLeft 𝕜 𝕜 fun i : Fin (k + 1) => (⟨i.1, by have := i.2; omega⟩ : Fin n) := ⟨_, rfl⟩
  have hc3 : LinearIndependent 𝕜 (P ∘ fun i : Fin (n - 1) => ((herTri n d s) ^ i.1).mulVec e0) := by
    refine hc2.map ?_
    rw [Submodule.disjoint_def]
    intro x hx hx2
    have hsup : ∀ j : Fin n, k < j.1 → x j = 0 := by
      intro j hj
      refine Submodule.span_induction (p := fun x _ => x j = 0) ?_ rfl ?_ ?_ hx
      · rintro _ ⟨i, rfl⟩
        exact tri_pow_support hs _ j hj
      · intro x y _ _ a b
        rw [Pi.add_apply, a, b, add_zero]
      · intro a x _ b
        rw [Pi.smul_apply, b, smul_zero]
    funext j
    by_cases hj : k < j.1
    · exact hsup j hj
    · have := congrFun (LinearMap.mem_ker.mp hx2) ⟨j.1, by omega⟩
      rw [hP] at this
      exact this
  have := hc3.fintype_card_le_finrank
  simp only [Fintype.card_fin, Module.finrank_fin_fun] at this
  omega

end H2.Eig
