import Verif.Proof.Eigen
import Verif.Props.Heapsort
import Mathlib.Analysis.CStarAlgebra.Matrix

set_option linter.unusedSectionVars false

/-! The QR iteration for tridiagonal matrices (C71). -/

namespace H2.Eig
open Spec Krylov
open scoped Matrix.Norms.L2Operator
variable {𝕜 : Type} [RCLike 𝕜]

theorem norm_conj {N : Nat} {W : Matrix (Fin N) (Fin N) ℝ} (h : W * W.transpose = 1) (A : Matrix (Fin N) (Fin N) ℝ) :
    ‖W * A * W.transpose‖ = ‖A‖ := by
  have h' : W.transpose * W = 1 := mul_eq_one_comm.mp h
  have hs : star W = W.transpose := by
    rw [Matrix.star_eq_conjTranspose, Matrix.conjTranspose_eq_transpose_of_trivial]
  have hW : W ∈ unitary (Matrix (Fin N) (Fin N) ℝ) := by
    rw [Unitary.mem_iff, hs]; exact ⟨h', h⟩
  have hW' : W.transpose ∈ unitary (Matrix (Fin N) (Fin N) ℝ) := by
    rw [← hs]; exact Unitary.star_mem hW
  rw [CStarRing.norm_mul_mem_unitary _ hW', CStarRing.norm_mem_unitary_mul _ hW]

theorem entry_le {N : Nat} (A : Matrix (Fin N) (Fin N) ℝ) (i j : Fin N) : |A i j| ≤ ‖A‖ := by
  have h := Matrix.l2_opNorm_mulVec A (EuclideanSpace.single j (1 : ℝ))
  rw [EuclideanSpace.norm_single, norm_one, mul_one] at h
  have h2 := PiLp.norm_apply_le ((EuclideanSpace.equiv (Fin N) ℝ).symm (A.mulVec (EuclideanSpace.single j (1 : ℝ)).ofLp)) i
  refine le_trans ?_ (le_trans h2 h)
  have : ((EuclideanSpace.equiv (Fin N) ℝ).symm (A.mulVec (EuclideanSpace.single j (1 : ℝ)).ofLp)).ofLp i = A i j := by
    show (A.mulVec (EuclideanSpace.single j (1 : ℝ)).ofLp) i = A i j
    simp
  rw [this, Real.norm_eq_abs]

/-- a matrix with the entry `b` in the positions `(p, p + 1)` and `(p + 1, p)` -/
def offM (n p : Nat) (b : ℝ) : Matrix (Fin n) (Fin n) ℝ := triMat n (fun _ => 0) fun j => if j = p then b else 0

theorem offM_norm {n p : Nat} (hp : p + 1 < n) (b : ℝ) : ‖offM n p b‖ ≤ |b| := by
  have hD : (offM n p b).conjTranspose * offM n p b = Matrix.diagonal fun i : Fin n => if i.1 = p ∨ i.1 = p + 1 then b * b else 0 := by
    have hrow : ∀ i k : Fin n, offM n p b i k = (if i.1 = p ∧ k.1 = p + 1 then b else 0) + (if i.1 = p + 1 ∧ k.1 = p then b else 0) := by
      intro i k
      unfold offM triMat
      by_cases h1 : i.1 = k.1
      · rw [if_pos h1, if_neg (by omega), if_neg (by omega)]; simp
      · rw [if_neg h1]
        by_cases h2 : i.1 = k.1 + 1
        · rw [if_pos h2, if_neg (by omega), zero_add]
          by_cases h3 : k.1 = p
          · rw [if_pos (by omega)]; exact if_pos h3
          · rw [if_neg (by omega)]; exact if_neg h3
        · rw [if_neg h2, if_neg (show ¬ (i.1 = p + 1 ∧ k.1 = p) by omega), add_zero]
          by_cases h3 : k.1 = i.1 + 1
          · rw [if_pos h3]
            by_cases h4 : i.1 = p
            · rw [if_pos (by omega)]; exact if_pos h4
            · rw [if_neg (by omega)]; exact if_neg h4
          · rw [if_neg h3, if_neg (by omega)]
    have hs : (offM n p b).conjTranspose = offM n p b := by
      ext i j
      rw [Matrix.conjTranspose_apply, star_trivial, hrow, hrow, add_comm]
      congr 1 <;> exact if_congr And.comm rfl rfl
    rw [hs]
    ext i j
    rw [Matrix.mul_apply, Matrix.diagonal_apply]
    rw [Finset.sum_congr rfl fun k _ => by rw [hrow i k, hrow k j]]
    by_cases h1 : i.1 = p
    · rw [Finset.sum_eq_single (⟨p + 1, hp⟩ : Fin n)]
      · simp only [h1]
        by_cases h2 : i = j
        · have : j.1 = p := by rw [← h2]; exact h1
          simp [h2, this]
        · have : j.1 ≠ p := fun h => h2 (Fin.ext (h1.trans h.symm))
          simp [h2, this]
      · intro k _ hk
        have : k.1 ≠ p + 1 := fun h => hk (Fin.ext h)
        rw [if_neg (by omega), if_neg (by omega)]; simp
      · intro h; exact absurd (Finset.mem_univ _) h
    · by_cases h1' : i.1 = p + 1
      · rw [Finset.sum_eq_single (⟨p, by omega⟩ : Fin n)]
        · simp only [h1']
          by_cases h2 : i = j
          · have : j.1 = p + 1 := by rw [← h2]; exact h1'
            simp [h2, this]
          · have : j.1 ≠ p + 1 := fun h => h2 (Fin.ext (h1'.trans h.symm))
            simp [h2, this]
        · intro k _ hk
          have : k.1 ≠ p := fun h => hk (Fin.ext h)
          rw [if_neg (by omega), if_neg (by omega)]; simp
        · intro h; exact absurd (Finset.mem_univ _) h
      · rw [Finset.sum_eq_zero]
        · rw [if_neg (show ¬ (i.1 = p ∨ i.1 = p + 1) by omega)]; simp
        · intro k _
          rw [if_neg (by omega), if_neg (by omega)]; simp
  have h := Matrix.l2_opNorm_conjTranspose_mul_self (offM n p b)
  rw [hD, Matrix.l2_opNorm_diagonal] at h
  have h2 : ‖fun i : Fin n => if i.1 = p ∨ i.1 = p + 1 then b * b else 0‖ ≤ b * b := by
    refine (pi_norm_le_iff_of_nonneg (mul_self_nonneg b)).mpr fun i => ?_
    split_ifs
    · rw [Real.norm_eq_abs, abs_mul_self]
    · rw [norm_zero]; exact mul_self_nonneg b
  rw [h] at h2
  exact abs_le_abs_of_sq_le_sq' h2
where
  abs_le_abs_of_sq_le_sq' {x b : ℝ} (h : x * x ≤ b * b) : x ≤ |b| := le_trans (le_abs_self x) (abs_le_abs_iff.mpr h)
  abs_le_abs_iff {x b : ℝ} : |x| ≤ |b| ↔ x * x ≤ b * b := by rw [← sq_le_sq, sq, sq]

/-- `W` reduces `T0` to `T` up to a relative error of `(1 + 4 eps) ^ k - 1`. -/
def Back {N : Nat} (eps : ℝ) (k : Nat) (T0 T W : Matrix (Fin N) (Fin N) ℝ) : Prop :=
  W * W.transpose = 1 ∧ ‖W * T * W.transpose - T0‖ ≤ ((1 + 4 * eps) ^ k - 1) * ‖T0‖

theorem Back.refl {N : Nat} (eps : ℝ) (T : Matrix (Fin N) (Fin N) ℝ) : Back eps 0 T T 1 := by
  constructor <;> simp

theorem Back.norm_le {N k : Nat} {eps : ℝ} {T0 T W : Matrix (Fin N) (Fin N) ℝ} (h : Back eps k T0 T W) : ‖T‖ ≤ (1 + 4 * eps) ^ k * ‖T0‖ := by
  have h1 : ‖W * T * W.transpose‖ ≤ ‖W * T * W.transpose - T0‖ + ‖T0‖ := by
    calc ‖W * T * W.transpose‖ = ‖(W * T * W.transpose - T0) + T0‖ := by rw [sub_add_cancel]
      _ ≤ _ := norm_add_le _ _
  rw [norm_conj h.1] at h1
  have := h.2
  nlinarith

theorem Back.step {N k : Nat} {eps : ℝ} {T0 T T' W V : Matrix (Fin N) (Fin N) ℝ} (h : Back eps k T0 T W) (he : 0 ≤ eps)
    (hV : V * V.transpose = 1) (hT : ‖V * T' * V.transpose - T‖ ≤ 4 * eps * ‖T‖) : Back eps (k + 1) T0 T' (W * V) := by
  constructor
  · rw [Matrix.transpose_mul, Matrix.mul_assoc, ← Matrix.mul_assoc V, hV, Matrix.one_mul, h.1]
  have e : W * V * T' * (W * V).transpose - T0 = W * (V * T' * V.transpose - T) * W.transpose + (W * T * W.transpose - T0) := by
    rw [Matrix.transpose_mul]
    noncomm_ring
  rw [e]
  have h1 := norm_add_le (W * (V * T' * V.transpose - T) * W.transpose) (W * T * W.transpose - T0)
  rw [norm_conj h.1] at h1
  have h2 := h.norm_le
  have h3 := h.2
  have h4 : 4 * eps * ‖T‖ ≤ 4 * eps * ((1 + 4 * eps) ^ k * ‖T0‖) := mul_le_mul_of_nonneg_left h2 (by linarith)
  rw [pow_succ]
  nlinarith

theorem Back.mono {N k m : Nat} {eps : ℝ} {T0 T W : Matrix (Fin N) (Fin N) ℝ} (h : Back eps k T0 T W) (he : 0 ≤ eps) (hk : k ≤ m) :
    Back eps m T0 T W := by
  refine ⟨h.1, h.2.trans (mul_le_mul_of_nonneg_right ?_ (norm_nonneg _))⟩
  have : (1 + 4 * eps) ^ k ≤ (1 + 4 * eps) ^ m := pow_le_pow_right₀ (by linarith) hk
  linarith

/-- the difference of two tridiagonal matrices that differ in one off-diagonal pair only -/
theorem triMat_off {n p : Nat} {d l l' : Nat → ℝ} (h : ∀ j, j + 1 < n → l' j = l j + if j = p then -l p else 0) :
    triMat n d l' - triMat n d l = offM n p (-l p) := by
  ext i j
  rw [Matrix.sub_apply]
  unfold offM triMat
  have hi := i.2
  have hj := j.2
  have h' : ∀ j, j + 1 < n → l' j - l j = (fun j => if j = p then -l p else 0) j := fun j hj => by rw [h j hj]; ring
  split_ifs with h1 h2 h3
  · ring
  · exact h' j (by omega)
  · exact h' i (by omega)
  · ring

theorem diag_le {n : Nat} (d l : Nat → ℝ) {p : Nat} (hp : p < n) : |d p| ≤ ‖triMat n d l‖ := by
  have := entry_le (triMat n d l) ⟨p, hp⟩ ⟨p, hp⟩
  have e : triMat n d l ⟨p, hp⟩ ⟨p, hp⟩ = d p := by unfold triMat; rw [if_pos rfl]
  rwa [e] at this

theorem deflate_tot {N : Nat} {eps : ℝ} (he : 0 ≤ eps) {T0 W : Matrix (Fin N) (Fin N) ℝ} {d : Arr ℝ} (hd : d.n = N) :
    ∀ (k off : Nat) (l : Arr ℝ) (m : Nat), off + k = N - 1 → N - 1 ≤ l.n → (∀ j < off, l.v j = 0) → Back eps m T0 (triMat N d.v l.v) W →
    Tot (deflate eps d k off l) fun r => off ≤ r.1 ∧ r.1 ≤ N - 1 ∧ r.2.n = l.n ∧ (∀ j < r.1, r.2.v j = 0) ∧
      Back eps (m + (r.1 - off)) T0 (triMat N d.v r.2.v) W ∧
      (r.1 < N - 1 → eps * (|d.v r.1| + |d.v (r.1 + 1)|) ≤ |r.2.v r.1|) := by
  intro k
  induction k with
  | zero =>
    intro off l m h1 h2 h3 h4
    exact Tot.pure ⟨le_refl _, by omega, rfl, h3, by simpa using h4, fun h => absurd h (by simp only; omega)⟩
  | succ k ih =>
    intro off l m h1 h2 h3 h4
    unfold deflate
    rw [Arr.get_ok (by omega), ok_bind, Arr.get_ok (by omega), ok_bind, Arr.get_ok (by omega), ok_bind]
    split_ifs with hb
    · rw [Arr.set_ok (by omega), ok_bind]
      refine (ih (off + 1) _ (m + 1) (by omega) (by simpa using h2) ?_ ?_).mono ?_
      · intro j hj
        show (if j = off then 0 else l.v j) = 0
        split_ifs with h
        · rfl
        · exact h3 j (by omega)
      · have := h4.step (V := 1) (T' := triMat N d.v fun j => if j = off then 0 else l.v j) he (by simp) (by
          rw [Matrix.transpose_one, Matrix.one_mul, Matrix.mul_one, triMat_off (p := off)]
          · refine (offM_norm (by omega) _).trans ?_
            rw [abs_neg]
            have g1 := diag_le d.v l.v (show off < N by omega)
            have g2 := diag_le d.v l.v (show off + 1 < N by omega)
            have g3 := mul_le_mul_of_nonneg_left g1 he
            have g4 := mul_le_mul_of_nonneg_left g2 he
            have g5 := mul_nonneg he (norm_nonneg (triMat N d.v l.v))
            linarith
          · intro j _
            split_ifs with h
            · rw [h]; ring
            · ring)
        rwa [Matrix.mul_one] at this
      · rintro ⟨o, l'⟩ ⟨g1, g2, g3, g4, g5, g6⟩
        simp only at g1 g2 g3 g4 g5 g6 ⊢
        refine ⟨by omega, g2, g3, g4, ?_, g6⟩
        rwa [show m + 1 + (o - (off + 1)) = m + (o - off) by omega] at g5
    · exact Tot.pure ⟨le_refl _, by simp only; omega, rfl, h3, by simpa using h4, fun _ => not_lt.mp hb⟩

theorem blockSize_tot {N off : Nat} {eps : ℝ} {d l : Arr ℝ} (hd : d.n = N) (hl : N - 1 ≤ l.n) :
    ∀ (k size : Nat), off + size + k = N → 2 ≤ size → eps * (|d.v (off + size - 2)| + |d.v (off + size - 1)|) ≤ |l.v (off + size - 2)| →
    Tot (blockSize eps d l off k size) fun s => 2 ≤ s ∧ off + s ≤ N ∧
      (off + s < N → |l.v (off + s - 1)| < eps * (|d.v (off + s - 1)| + |d.v (off + s)|)) ∧
      eps * (|d.v (off + s - 2)| + |d.v (off + s - 1)|) ≤ |l.v (off + s - 2)| := by
  intro k
  induction k with
  | zero =>
    intro size h1 h2 h3
    exact Tot.pure ⟨h2, by omega, fun h => by omega, h3⟩
  | succ k ih =>
    intro size h1 h2 h3
    unfold blockSize
    rw [Arr.get_ok (by omega), ok_bind, Arr.get_ok (by omega), ok_bind, Arr.get_ok (by omega), ok_bind]
    split_ifs with hb
    · refine ih (size + 1) (by omega) (by omega) ?_
      rw [show off + (size + 1) - 2 = off + size - 1 by omega, show off + (size + 1) - 1 = off + size by omega]
      exact hb
    · exact Tot.pure ⟨h2, by omega, fun _ => not_le.mp hb, h3⟩

/-- the call ends with a division by zero and `c` holds, or returns normally with a result satisfying `P` -/
def NanOr {α : Type _} (x : R α) (c : Prop) (P : α → Prop) : Prop := (x = .error .nan ∧ c) ∨ Tot x P

theorem wilkinson_out (a0 a1 b0 : ℝ) : NanOr (wilkinson a0 a1 b0) (a0 = a1 ∧ b0 = 0) fun _ => True := by
  unfold wilkinson
  have key : ∀ db : ℝ, 0 < db → Tot (if (a0 + a1) * 0.5 * ((a0 - a1) * 0.5) < 0 then (pure (if (a0 + a1) * 0.5 > 0 then (a0 + a1) * 0.5 + db
      else (a0 + a1) * 0.5 - db) : R ℝ) else cdiv (a0 * a1 - |b0| ^ 2) (if (a0 + a1) * 0.5 > 0 then (a0 + a1) * 0.5 + db
      else (a0 + a1) * 0.5 - db)) fun _ => True := by
    intro db hdb
    split_ifs with h1 h2 h2
    · exact Tot.pure trivial
    · exact Tot.pure trivial
    · unfold cdiv
      rw [if_neg (by linarith)]
      exact ⟨_, rfl, trivial⟩
    · unfold cdiv
      rw [if_neg (by linarith)]
      exact ⟨_, rfl, trivial⟩
  have hs : ∀ t : ℝ, 0 < √(1 + t ^ 2) := fun t => Real.sqrt_pos.mpr (by nlinarith [sq_nonneg t])
  by_cases h1 : |(a0 - a1) * 0.5| > |b0|
  · have hd : 0 < |(a0 - a1) * 0.5| := lt_of_le_of_lt (abs_nonneg _) h1
    simp only [if_pos h1, cdiv, if_neg (abs_pos.mp hd), ok_bind]
    exact .inr (key _ (mul_pos hd (hs _)))
  · by_cases h2 : b0 = 0
    · left
      have hd : (a0 - a1) * 0.5 = 0 := by
        rw [h2, abs_zero] at h1
        exact abs_nonpos_iff.mp (not_lt.mp h1)
      refine ⟨?_, by linarith, h2⟩
      simp only [if_neg h1, cdiv, if_pos h2]
      rfl
    · simp only [if_neg h1, cdiv, if_neg h2, ok_bind]
      exact .inr (key _ (mul_pos (abs_pos.mpr h2) (hs _)))

/-- invariant of the QR iteration -/
structure Inv {N : Nat} (eps : ℝ) (T0 : Matrix (Fin N) (Fin N) ℝ) (Q0 : Option (VMat 𝕜)) (ln : Nat) (st : IterSt 𝕜) : Prop where
  dn : st.d.n = N
  lnn : st.l.n = ln
  off : st.off ≤ N - 1
  zero : ∀ j < st.off, st.l.v j = 0
  next : st.off < N - 1 → eps * (|st.d.v st.off| + |st.d.v (st.off + 1)|) ≤ |st.l.v st.off|
  back : ∃ W, Back eps (st.iter + st.off) T0 (triMat N st.d.v st.l.v) W ∧ QMul Q0 W st.Q

theorem qrRound_out {N ln : Nat} {eps : ℝ} (he : 0 < eps) {T0 : Matrix (Fin N) (Fin N) ℝ} {Q0 : Option (VMat 𝕜)} (hQ0 : QOk N Q0)
    (hln : N - 1 ≤ ln) {st : IterSt 𝕜} (h : Inv eps T0 Q0 ln st) (ho : st.off < N - 1) :
    NanOr (qrRound eps N st) (∃ p, p + 1 < N ∧ st.d.v p = 0 ∧ st.d.v (p + 1) = 0 ∧ st.l.v p = 0)
      fun st' => Inv eps T0 Q0 ln st' ∧ st'.iter = st.iter + 1 := by
  obtain ⟨h1, h2, h3, h4, h5, W, h6, h7⟩ := h
  unfold qrRound
  obtain ⟨size, es, s1, s2, s3, s4⟩ := blockSize_tot (N := N) (off := st.off) (eps := eps) (d := st.d) (l := st.l) h1 (by omega)
    (N - st.off - 2) 2 (by omega) (le_refl _) (by simpa using h5 ho)
  rw [es, ok_bind, Arr.get_ok (by omega), ok_bind, Arr.get_ok (by omega), ok_bind, Arr.get_ok (by omega), ok_bind]
  rcases wilkinson_out (st.d.v (st.off + size - 2)) (st.d.v (st.off + size - 1)) (st.l.v (st.off + size - 2)) with ⟨e, w1, w2⟩ | ⟨lam, e, -⟩
  · left
    refine ⟨by rw [e]; rfl, st.off + size - 2, by omega, ?_⟩
    rw [w2, abs_zero] at s4
    rw [show st.off + size - 2 + 1 = st.off + size - 1 by omega]
    have a1 := abs_nonneg (st.d.v (st.off + size - 2))
    have a2 := abs_nonneg (st.d.v (st.off + size - 1))
    have : |st.d.v (st.off + size - 2)| + |st.d.v (st.off + size - 1)| ≤ 0 := by
      by_contra hc
      have := mul_pos he (not_le.mp hc)
      linarith
    exact ⟨abs_eq_zero.mp (by linarith), abs_eq_zero.mp (by linarith), w2⟩
  · right
    rw [e, ok_bind]
    refine Tot.cassert (by simpa using s2) (Tot.cassert ?_ ?_)
    · cases hq : st.Q with
      | none => rfl
      | some q =>
        have := qmul_ok h7 hQ0 q hq
        simp only [decide_eq_true_eq]; omega
    refine Tot.bind (qrSweep_tot (N := N) s2 h1 (by omega) (qmul_ok h7 hQ0)) ?_
    rintro ⟨d1, l1, c1, s1', Q1⟩ - ⟨g1, g2, g3, V, g4, g5⟩
    simp only at g1 g2 g3 g4 g5 ⊢
    have hb : Back eps (st.iter + st.off + 1) T0 (triMat N d1.v l1.v) (W * V) := by
      refine h6.step he.le g4.1 ?_
      have hVT : V.transpose * V = 1 := mul_eq_one_comm.mp g4.1
      -- the entry at the end of the block
      have hm : ∀ l' : Nat → ℝ, (∀ j < st.off, l' j = 0) → ∀ j, j + 1 < N → msk st.off size l' j = l' j + if j = st.off + size - 1 then -l' (st.off + size - 1) else 0 := by
        intro l' hl' j hj
        unfold msk
        by_cases q1 : j + 1 = st.off + size
        · rw [if_pos (.inr q1), if_pos (by omega), show st.off + size - 1 = j by omega]; ring
        · rw [if_neg (show j ≠ st.off + size - 1 by omega)]
          by_cases q2 : j + 1 = st.off
          · rw [if_pos (.inl q2), hl' j (by omega)]; ring
          · rw [if_neg (by omega)]; ring
      have q0 := triMat_off (d := st.d.v) (hm st.l.v h4)
      have q1 := triMat_off (d := d1.v) (hm l1.v fun j hj => by rw [g3 j (.inl hj)]; exact h4 j hj)
      have hsim : V * triMat N d1.v (msk st.off size l1.v) * V.transpose = triMat N st.d.v (msk st.off size st.l.v) := by
        rw [← g4.2]
        calc V * (V.transpose * triMat N st.d.v (msk st.off size st.l.v) * V) * V.transpose
            = (V * V.transpose) * triMat N st.d.v (msk st.off size st.l.v) * (V * V.transpose) := by noncomm_ring
          _ = _ := by rw [g4.1]; simp
      have hbeta : l1.v (st.off + size - 1) = st.l.v (st.off + size - 1) := g3 _ (.inr (by omega))
      rw [hbeta] at q1
      have e1 : V * triMat N d1.v l1.v * V.transpose - triMat N st.d.v st.l.v
          = offM N (st.off + size - 1) (-st.l.v (st.off + size - 1))
            - V * offM N (st.off + size - 1) (-st.l.v (st.off + size - 1)) * V.transpose := by
        have z1 : triMat N d1.v l1.v = triMat N d1.v (msk st.off size l1.v) - offM N (st.off + size - 1) (-st.l.v (st.off + size - 1)) := by
          rw [← q1]; abel
        have z2 : triMat N st.d.v st.l.v = triMat N st.d.v (msk st.off size st.l.v) - offM N (st.off + size - 1) (-st.l.v (st.off + size - 1)) := by
          rw [← q0]; abel
        rw [z1, z2, ← hsim]
        noncomm_ring
      rw [e1]
      by_cases hlast : st.off + size < N
      · have b1 := offM_norm (n := N) (p := st.off + size - 1) (by omega) (-st.l.v (st.off + size - 1))
        rw [abs_neg] at b1
        have b2 := norm_sub_le (offM N (st.off + size - 1) (-st.l.v (st.off + size - 1)))
          (V * offM N (st.off + size - 1) (-st.l.v (st.off + size - 1)) * V.transpose)
        rw [norm_conj g4.1] at b2
        have b3 := s3 hlast
        have b4 := diag_le st.d.v st.l.v (show st.off + size - 1 < N by omega)
        have b5 := diag_le st.d.v st.l.v hlast
        have b6 := mul_le_mul_of_nonneg_left b4 he.le
        have b7 := mul_le_mul_of_nonneg_left b5 he.le
        linarith
      · have : offM N (st.off + size - 1) (-st.l.v (st.off + size - 1)) = 0 := by
          ext i j
          unfold offM triMat
          have := i.2
          have := j.2
          rw [Matrix.zero_apply]
          beta_reduce
          split_ifs <;> first | rfl | omega
        rw [this]
        simp only [Matrix.mul_zero, Matrix.zero_mul, sub_zero, norm_zero]
        exact mul_nonneg (by linarith) (norm_nonneg _)
    refine Tot.bind (deflate_tot (N := N) (eps := eps) he.le (T0 := T0) (W := W * V) (d := d1) (by omega) (N - 1 - st.off) st.off l1 (st.iter + st.off + 1)
      (by omega) (by omega) (fun j hj => by rw [g3 j (.inl hj)]; exact h4 j hj) hb) ?_
    rintro ⟨o, l2⟩ - ⟨t1, t2, t3, t4, t5, t6⟩
    simp only at t1 t2 t3 t4 t5 t6 ⊢
    refine Tot.pure ⟨⟨by simp only; omega, by simp only; omega, t2, t4, t6, W * V, ?_, qmul_trans h7 g5⟩, rfl⟩
    rw [show st.iter + 1 + o = st.iter + st.off + 1 + (o - st.off) by omega]
    exact t5

end H2.Eig
