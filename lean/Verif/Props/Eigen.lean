import Verif.Proof.Eigen3

set_option linter.unusedSectionVars false

/-!
# C71 Eigenvalues of symmetric tridiagonal matrices

`qrstep_tridiag` performs an orthogonal similarity transformation, `sb_muleig_tridiag` and `eig_tridiag` compute the eigenvalues in ascending
order and an orthogonal matrix of eigenvectors up to an explicit backward error.  Norms are spectral norms.
-/

namespace H2.Props
open H2 H2.Spec H2.Eig
open scoped Matrix.Norms.L2Operator
variable {𝕜 : Type} [RCLike 𝕜]

/-- C71: one QR step with an arbitrary shift is an exact orthogonal similarity transformation, and the orthogonal matrix is applied to `Q` from
the right. -/
theorem C71_qrstep {n : Nat} (T : Tri) (hd : T.d.n = n) (hl : n - 1 ≤ T.l.n) (Q : Option (VMat 𝕜)) (hQ : ∀ q, Q = some q → q.cols = n) (shift : ℝ) :
    ∃ T' Q', qrstep T shift Q = .ok (T', Q') ∧ T'.d.n = n ∧ T'.l.n = T.l.n ∧ T'.u = T.u ∧ ∃ W : Matrix (Fin n) (Fin n) ℝ,
      W * W.transpose = 1 ∧ W.transpose * triMat n T.d.v T.l.v * W = triMat n T'.d.v T'.l.v ∧ QMul Q W Q' := by
  unfold qrstep
  obtain ⟨st, e, h1, h2, h3, W, h4, h5⟩ := qrSweep_tot (𝕜 := 𝕜) (N := n) (off := 0) (n := n) (shift := shift) (d := T.d) (l := T.l) (Q := Q) (by omega) hd hl
    (fun q hq => (hQ q hq).ge)
  have hm : ∀ d l : Nat → ℝ, triMat n d (msk 0 n l) = triMat n d l := by
    intro d l
    ext i j
    have hi := i.2
    have hj := j.2
    have hk : ∀ k, k + 1 < n → msk 0 n l k = l k := fun k hk => by unfold msk; rw [if_neg (by omega)]
    unfold triMat
    split_ifs
    · rfl
    · exact hk _ (by omega)
    · exact hk _ (by omega)
    · rfl
  rw [hm, hm] at h4
  rw [cassert_true, ok_bind, hd, e, ok_bind]
  · exact ⟨_, _, rfl, h1.trans hd, h2, rfl, W, h4.1, h4.2, h5⟩
  · cases hq : Q with
    | none => rfl
    | some q => simpa [hd] using hQ q hq

/-- C71: `sb_muleig_tridiag` either divides by zero, or (without a limit for the number of steps) does not terminate, or returns the eigenvalues in
ascending order after at most `maxiter` steps and multiplies `Q` by an orthogonal matrix `W`; if it needed less than `maxiter` steps, the columns of
`W` are eigenvectors: the eigenvalue decomposition is that of a matrix whose relative distance to the given one is at most
`(1 + 4 eps) ^ (iter + n - 1) - 1`. -/
theorem C71_muleig {n : Nat} {eps : ℝ} (he : 0 < eps) (T : Tri) (hd : T.d.n = n) (hl : n - 1 ≤ T.l.n) (Q : Option (VMat 𝕜))
    (hQ : ∀ q, Q = some q → n ≤ q.cols) (maxiter fuel : Nat) (hf : maxiter ≤ fuel) :
    muleig eps fuel T Q maxiter = .error .nan ∨
    (maxiter = 0 ∧ muleig eps fuel T Q maxiter = .error .fuel) ∨
    ∃ T' Q' iter, muleig eps fuel T Q maxiter = .ok (T', Q', iter) ∧ T'.d.n = n ∧ (∀ i j, i < j → j < n → T'.d.v i ≤ T'.d.v j) ∧
      (maxiter = 0 ∨ iter ≤ maxiter) ∧
      ∃ W : Matrix (Fin n) (Fin n) ℝ, W * W.transpose = 1 ∧ QMul Q W Q' ∧
        (maxiter = 0 ∨ iter < maxiter → (∀ j < n - 1, T'.l.v j = 0) ∧
          ‖W * (Matrix.diagonal fun i : Fin n => T'.d.v i) * W.transpose - triMat n T.d.v T.l.v‖
            ≤ ((1 + 4 * eps) ^ (iter + (n - 1)) - 1) * ‖triMat n T.d.v T.l.v‖) := by
  rcases muleig_out he hd hl hQ hf with h | h | ⟨⟨T', Q', it⟩, e, h1, h2, h3, h4, h5, h6⟩
  · exact .inl h.1
  · exact .inr (.inl h)
  · exact .inr (.inr ⟨T', Q', it, e, h1.trans hd, h4, h5, h6⟩)

/-- C71: for positive or negative definite matrices there is no division by zero, provided the backward error is smaller than the smallest modulus of
the eigenvalues. -/
theorem C71_definite {n : Nat} {eps : ℝ} (he : 0 < eps) (T : Tri) (hd : T.d.n = n) (hl : n - 1 ≤ T.l.n) (Q : Option (VMat 𝕜))
    (hQ : ∀ q, Q = some q → n ≤ q.cols) (maxiter : Nat) (hm : 0 < maxiter) {μ : ℝ}
    (hμ : ∀ x : Fin n → ℝ, μ * (x ⬝ᵥ x) ≤ |x ⬝ᵥ (triMat n T.d.v T.l.v).mulVec x|)
    (hs : ((1 + 4 * eps) ^ (maxiter + n) - 1) * ‖triMat n T.d.v T.l.v‖ < μ) :
    ∃ T' Q' iter, muleig eps maxiter T Q maxiter = .ok (T', Q', iter) := by
  rcases muleig_out he hd hl hQ (le_refl maxiter) with ⟨-, W, st, h1, h2, h3, p, h4, h5, h6, h7⟩ | ⟨h, -⟩ | ⟨⟨T', Q', it⟩, e, -⟩
  · exfalso
    have hoff := h2.off
    have hb := (h1.mono he.le (m := maxiter + n) (by omega)).2
    have hW : W.transpose * W = 1 := mul_eq_one_comm.mp h1.1
    generalize triMat n T.d.v T.l.v = T0 at *
    have hT : triMat n st.d.v st.l.v ⟨p, by omega⟩ ⟨p, by omega⟩ = 0 := by
      unfold triMat; rw [if_pos rfl]; exact h5
    generalize triMat n st.d.v st.l.v = A at *
    have e1 : W * (A - W.transpose * T0 * W) * W.transpose = W * A * W.transpose - T0 := by
      rw [Matrix.mul_sub, Matrix.sub_mul]
      congr 1
      calc W * (W.transpose * T0 * W) * W.transpose = (W * W.transpose) * T0 * (W * W.transpose) := by noncomm_ring
        _ = T0 := by rw [h1.1]; simp
    have e2 := entry_le (A - W.transpose * T0 * W) ⟨p, by omega⟩ ⟨p, by omega⟩
    rw [← norm_conj h1.1, e1, Matrix.sub_apply, hT, zero_sub, abs_neg] at e2
    have e3 : (W.transpose * T0 * W) ⟨p, by omega⟩ ⟨p, by omega⟩ = (fun i => W i ⟨p, by omega⟩) ⬝ᵥ T0.mulVec fun i => W i ⟨p, by omega⟩ := by
      rw [Matrix.mul_assoc]; rfl
    have e4 : (fun i => W i ⟨p, by omega⟩) ⬝ᵥ (fun i => W i ⟨p, by omega⟩) = 1 := by
      have := congrFun (congrFun hW ⟨p, by omega⟩) ⟨p, by omega⟩
      rw [Matrix.one_apply_eq] at this
      exact this
    have e5 := hμ fun i => W i ⟨p, by omega⟩
    rw [e4, mul_one, ← e3] at e5
    linarith
  · omega
  · exact ⟨_, _, _, e⟩

/-- C71: `eig_tridiag` overwrites `Q` by the matrix of eigenvectors and returns zero only if the eigenvalue decomposition is exact up to the backward
error; it returns one if more than `32 n - 1` steps were taken or the matrix has size zero. -/
theorem C71_eig_tridiag {n : Nat} {eps : ℝ} (he : 0 < eps) (T : Tri) (hd : T.d.n = n) (hl : n - 1 ≤ T.l.n) (q : VMat 𝕜)
    (hr : q.rows = n) (hc : q.cols = n) :
    eigTri eps T (some q) = .error .nan ∨
    ∃ T' q' ret, eigTri eps T (some q) = .ok (T', some q', ret) ∧ ret ≤ 1 ∧ T'.d.n = n ∧ q'.rows = n ∧ q'.cols = n ∧
      ∃ W : Matrix (Fin n) (Fin n) ℝ, W * W.transpose = 1 ∧ (∀ i j : Fin n, q'.e i j = (W i j : 𝕜)) ∧
        (∀ i j, i < j → j < n → T'.d.v i ≤ T'.d.v j) ∧
        (ret = 0 → ‖W * (Matrix.diagonal fun i : Fin n => T'.d.v i) * W.transpose - triMat n T.d.v T.l.v‖
          ≤ ((1 + 4 * eps) ^ (33 * n) - 1) * ‖triMat n T.d.v T.l.v‖) := by
  unfold eigTri
  simp only [Option.map_some, hd]
  rcases muleig_out (𝕜 := 𝕜) he hd hl (Q := some (identityV q)) (fun x hx => by
    have := Option.some.inj hx; rw [← this]; exact hc.ge) (le_refl (32 * n)) with h | ⟨h, h'⟩ | ⟨⟨T', Q', it⟩, e, h1, h2, h3, h4, h5, W, h6, h7, h8⟩
  · left; rw [h.1]; rfl
  · exfalso
    obtain rfl : n = 0 := by omega
    unfold muleig at h'
    simp only [hd] at h'
    rw [if_pos (by omega)] at h'
    cases h'
  · right
    rw [e, ok_bind]
    simp only at h1 h4 h5 h7 h8 ⊢
    cases Q' with
    | none => exact h7.elim
    | some q' =>
      obtain ⟨w1, w2, w3⟩ := h7
      refine ⟨T', q', _, rfl, by split_ifs <;> omega, h1.trans hd, w1.trans hr, w2.trans hc, W, h6, fun i j => ?_, h4, fun hret => ?_⟩
      · rw [w3 i (by show i.1 < q.rows; have := i.2; omega) j]
        rw [Finset.sum_eq_single i]
        · show (if i.1 = i.1 then (1 : 𝕜) else 0) * _ = _
          rw [if_pos rfl, one_mul]
        · intro k _ hk
          show (if i.1 = k.1 then (1 : 𝕜) else 0) * _ = _
          rw [if_neg (fun x => hk (Fin.ext x.symm)), zero_mul]
        · intro hx; exact absurd (Finset.mem_univ _) hx
      · have hit : it < 32 * n := by
          by_contra hx
          rw [if_neg hx] at hret
          omega
        refine (h8 (.inr hit)).2.trans (mul_le_mul_of_nonneg_right ?_ (norm_nonneg _))
        have : (1 + 4 * eps) ^ (it + (n - 1)) ≤ (1 + 4 * eps) ^ (33 * n) := pow_le_pow_right₀ (by linarith) (by omega)
        linarith

/-- C71: the iteration divides by zero for the zero matrix (of size at least two), since the test for deflation is strict and the Wilkinson shift of a
vanishing block is `0 / 0`. -/
theorem C71_zero {n : Nat} (hn : 2 ≤ n) (eps : ℝ) (T : Tri) (hd : T.d.n = n) (hl : n - 1 ≤ T.l.n) (h0 : ∀ i < n, T.d.v i = 0) (h0' : ∀ i < n - 1, T.l.v i = 0)
    (Q : Option (VMat 𝕜)) (maxiter fuel : Nat) (hf : 0 < fuel) : muleig eps fuel T Q maxiter = .error .nan := by
  obtain ⟨k, rfl⟩ : ∃ k, n = k + 2 := ⟨n - 2, by omega⟩
  obtain ⟨f, rfl⟩ : ∃ f, fuel = f + 1 := ⟨fuel - 1, by omega⟩
  have z0 := h0 0 (by omega)
  have z1 := h0 1 (by omega)
  have z2 := h0' 0 (by omega)
  unfold muleig
  simp only [hd]
  rw [if_neg (by omega), show k + 2 - 1 = k + 1 by omega]
  unfold deflate
  rw [Arr.get_ok (by omega), ok_bind, Arr.get_ok (by omega), ok_bind, Arr.get_ok (by omega), ok_bind]
  rw [if_neg (by simp [z0, z1, z2])]
  show (whileF _ _ _ _ >>= _) = _
  unfold whileF
  rw [if_pos (by
    rw [Bool.and_eq_true, Bool.or_eq_true]
    simp only [decide_eq_true_eq]
    omega)]
  have : qrRound eps (k + 2) (⟨T.d, T.l, Q, 0, 0⟩ : IterSt 𝕜) = .error .nan := by
    unfold qrRound
    obtain ⟨size, es, s1, s2, -, -⟩ := blockSize_tot (N := k + 2) (off := 0) (eps := eps) (d := T.d) (l := T.l) hd hl
      (k + 2 - 0 - 2) 2 (by omega) (le_refl _) (by simp [z0, z1, z2])
    simp only
    rw [es, ok_bind, Arr.get_ok (by omega), ok_bind, Arr.get_ok (by omega), ok_bind, Arr.get_ok (by omega), ok_bind]
    rw [h0 _ (by omega), h0 _ (by omega), h0' _ (by omega)]
    have : wilkinson 0 0 0 = .error .nan := by
      rcases wilkinson_out 0 0 0 with h | ⟨x, h, -⟩
      · exact h.1
      · exfalso
        unfold wilkinson Krylov.cdiv at h
        simp only [sub_zero, zero_mul, lt_irrefl, if_false, if_true, abs_zero, gt_iff_lt] at h
        cases h
    rw [this]
    rfl
  rw [this]
  rfl

/-! ## Non-vacuity -/

/-- the matrix `[[2, 1], [1, 2]]` -/
noncomputable def tri71 : Tri := ⟨⟨2, fun _ => 2⟩, ⟨1, fun _ => 1⟩, ⟨1, fun _ => 1⟩⟩

/-- The hypotheses of the theorems hold for this matrix. -/
example (eps : ℝ) (he : 0 < eps) := C71_muleig (𝕜 := ℂ) (n := 2) he tri71 rfl (le_refl _) none (fun _ h => by cases h) 64 64 (le_refl _)

example (eps : ℝ) (he : 0 < eps) := C71_eig_tridiag (𝕜 := ℂ) (n := 2) he tri71 rfl (le_refl _) ⟨2, 2, fun _ _ => 7⟩ rfl rfl

example (shift : ℝ) := C71_qrstep (𝕜 := ℂ) (n := 2) tri71 rfl (le_refl _) (some ⟨3, 2, fun _ _ => 7⟩) (fun q h => by cases h; rfl) shift

theorem tri71_definite (x : Fin 2 → ℝ) : 1 * (x ⬝ᵥ x) ≤ |x ⬝ᵥ (triMat 2 tri71.d.v tri71.l.v).mulVec x| := by
  refine le_trans ?_ (le_abs_self _)
  have e : (triMat 2 tri71.d.v tri71.l.v).mulVec x = ![2 * x 0 + x 1, x 0 + 2 * x 1] := by
    ext i
    fin_cases i <;> simp [Matrix.mulVec, dotProduct, triMat, tri71, Fin.sum_univ_two]
  rw [e]
  simp only [dotProduct, Fin.sum_univ_two, Matrix.cons_val_zero, Matrix.cons_val_one]
  nlinarith [sq_nonneg (x 0 + x 1)]

/-- For this matrix and small `eps` the iteration returns normally. -/
example : ∃ eps : ℝ, 0 < eps ∧ ∃ T' Q' iter, muleig eps 64 tri71 (none : Option (VMat ℝ)) 64 = .ok (T', Q', iter) := by
  have hc : Filter.Tendsto (fun eps : ℝ => ((1 + 4 * eps) ^ (64 + 2) - 1) * ‖triMat 2 tri71.d.v tri71.l.v‖) (nhdsWithin 0 (Set.Ioi 0)) (nhds 0) := by
    have h : Continuous fun eps : ℝ => ((1 + 4 * eps) ^ (64 + 2) - 1) * ‖triMat 2 tri71.d.v tri71.l.v‖ := by fun_prop
    have h2 := h.tendsto 0
    simp only [mul_zero, add_zero, one_pow, sub_self, zero_mul] at h2
    exact h2.mono_left nhdsWithin_le_nhds
  have h1 := hc.eventually (gt_mem_nhds (show (0 : ℝ) < 1 by norm_num))
  obtain ⟨eps, h2, h3⟩ := (h1.and self_mem_nhdsWithin).exists
  exact ⟨eps, h3, C71_definite (n := 2) h3 tri71 rfl (le_refl _) none (fun _ h => by cases h) 64 (by norm_num) tri71_definite h2⟩

end H2.Props
