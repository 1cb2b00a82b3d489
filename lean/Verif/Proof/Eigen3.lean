import Verif.Proof.Eigen2

set_option linter.unusedSectionVars false

/-! The QR iteration as a whole (C71). -/

namespace H2.Eig
open Spec Krylov
open scoped Matrix.Norms.L2Operator
variable {𝕜 : Type} [RCLike 𝕜]

/-- outcome of the iteration -/
def LoopOut {N : Nat} (eps : ℝ) (T0 : Matrix (Fin N) (Fin N) ℝ) (Q0 : Option (VMat 𝕜)) (ln maxiter : Nat) (x : R (IterSt 𝕜)) : Prop :=
  (x = .error .nan ∧ ∃ st, Inv eps T0 Q0 ln st ∧ (maxiter = 0 ∨ st.iter < maxiter) ∧
    ∃ p, p + 1 < N ∧ st.d.v p = 0 ∧ st.d.v (p + 1) = 0 ∧ st.l.v p = 0) ∨
  (x = .error .fuel ∧ maxiter = 0) ∨
  Tot x fun st => Inv eps T0 Q0 ln st ∧ (maxiter = 0 ∨ st.iter ≤ maxiter) ∧ (maxiter = 0 ∨ st.iter < maxiter → st.off = N - 1)

theorem loop_out {N ln : Nat} {eps : ℝ} (he : 0 < eps) {T0 : Matrix (Fin N) (Fin N) ℝ} {Q0 : Option (VMat 𝕜)} (hQ0 : QOk N Q0)
    (hln : N - 1 ≤ ln) (maxiter : Nat) : ∀ (fuel : Nat) (st : IterSt 𝕜), Inv eps T0 Q0 ln st → (maxiter = 0 ∨ maxiter ≤ fuel + st.iter) →
    (maxiter = 0 ∨ st.iter ≤ maxiter) →
    LoopOut eps T0 Q0 ln maxiter (whileF (fun st : IterSt 𝕜 => decide (st.off < N - 1) && (decide (maxiter = 0) || decide (st.iter < maxiter)))
      (qrRound eps N) fuel st) := by
  intro fuel
  have stop : ∀ st : IterSt 𝕜, Inv eps T0 Q0 ln st → (maxiter = 0 ∨ st.iter ≤ maxiter) →
      ¬ ((decide (st.off < N - 1) && (decide (maxiter = 0) || decide (st.iter < maxiter))) = true) → LoopOut eps T0 Q0 ln maxiter (.ok st) := by
    intro st h1 h3 hc
    right; right
    refine ⟨st, rfl, h1, h3, fun hm => ?_⟩
    have := h1.off
    by_contra hne
    refine hc ?_
    rw [Bool.and_eq_true, Bool.or_eq_true]
    simp only [decide_eq_true_eq]
    exact ⟨by omega, hm⟩
  induction fuel with
  | zero =>
    intro st h1 h2 h3
    unfold whileF
    split_ifs with hc
    · right; left
      refine ⟨rfl, ?_⟩
      rw [Bool.and_eq_true, Bool.or_eq_true] at hc
      simp only [decide_eq_true_eq] at hc
      omega
    · exact stop st h1 h3 hc
  | succ fuel ih =>
    intro st h1 h2 h3
    unfold whileF
    split_ifs with hc
    · rw [Bool.and_eq_true, Bool.or_eq_true] at hc
      simp only [decide_eq_true_eq] at hc
      rcases qrRound_out he hQ0 hln h1 hc.1 with ⟨e, p, hp⟩ | ⟨st', e, g1, g2⟩
      · left
        rw [e]
        exact ⟨rfl, st, h1, hc.2, p, hp⟩
      · rw [e, ok_bind]
        exact ih st' g1 (by omega) (by omega)
    · exact stop st h1 h3 hc

/-- the matrix of a permutation of the columns -/
def permM (n : Nat) (σ : Equiv.Perm Nat) : Matrix (Fin n) (Fin n) ℝ := fun k j => if k.1 = σ j.1 then 1 else 0

theorem perm_lt {n : Nat} {σ : Equiv.Perm Nat} (h : ∀ i, n ≤ i → σ i = i) {i : Nat} (hi : i < n) : σ i < n := by
  by_contra hc
  have h1 := h (σ i) (by omega)
  have := σ.injective h1
  omega

theorem sum_permM {K : Type} [CommRing K] {n : Nat} {σ : Equiv.Perm Nat} (h : ∀ i, n ≤ i → σ i = i) (f : ℝ →+* K) (a : Nat → K) (j : Fin n) :
    ∑ k : Fin n, a k * f (permM n σ k j) = a (σ j) := by
  rw [Finset.sum_eq_single (⟨σ j, perm_lt h j.2⟩ : Fin n)]
  · unfold permM
    rw [if_pos rfl, map_one, mul_one]
  · intro k _ hk
    unfold permM
    rw [if_neg (fun e => hk (Fin.ext e)), map_zero, mul_zero]
  · intro hx; exact absurd (Finset.mem_univ _) hx

theorem permM_orth {n : Nat} {σ : Equiv.Perm Nat} (h : ∀ i, n ≤ i → σ i = i) : permM n σ * (permM n σ).transpose = 1 := by
  refine mul_eq_one_comm.mp ?_
  ext i j
  rw [Matrix.mul_apply, Matrix.one_apply]
  have := sum_permM h (RingHom.id ℝ) (fun k => if k = σ i then 1 else 0) j
  simp only [RingHom.id_apply] at this
  refine Eq.trans this ?_
  by_cases e : i = j
  · rw [if_pos e, e, if_pos rfl]
  · rw [if_neg e, if_neg]
    intro h'
    exact e (Fin.ext (σ.injective h').symm)

theorem triMat_diag {n : Nat} {d l : Nat → ℝ} (h : ∀ j, j + 1 < n → l j = 0) : triMat n d l = Matrix.diagonal fun i : Fin n => d i := by
  ext i j
  rw [Matrix.diagonal_apply]
  unfold triMat
  have hi := i.2
  have hj := j.2
  by_cases h1 : i.1 = j.1
  · rw [if_pos h1, if_pos (Fin.ext h1)]
  · rw [if_neg h1, if_neg (fun e => h1 (congrArg Fin.val e))]
    split_ifs
    · exact h _ (by omega)
    · exact h _ (by omega)
    · rfl

theorem permM_diag {n : Nat} {σ : Equiv.Perm Nat} (h : ∀ i, n ≤ i → σ i = i) (d : Nat → ℝ) :
    permM n σ * (Matrix.diagonal fun i : Fin n => d (σ i)) * (permM n σ).transpose = Matrix.diagonal fun i : Fin n => d i := by
  have e : permM n σ * (Matrix.diagonal fun i : Fin n => d (σ i)) = (Matrix.diagonal fun i : Fin n => d i) * permM n σ := by
    ext i j
    rw [Matrix.mul_diagonal, Matrix.diagonal_mul]
    unfold permM
    split_ifs with hx
    · rw [hx]; ring
    · ring
  rw [e, Matrix.mul_assoc, permM_orth h, Matrix.mul_one]

theorem sortEig_spec (n : Nat) (d : Arr ℝ) (Q : Option (VMat 𝕜)) : (sortEig n d Q).1.n = d.n ∧
    (∀ i j, i < j → j < n → (sortEig n d Q).1.v i ≤ (sortEig n d Q).1.v j) ∧
    ∃ σ : Equiv.Perm Nat, (∀ i, n ≤ i → σ i = i) ∧ (∀ i, (sortEig n d Q).1.v i = d.v (σ i)) ∧ QMul Q (permM n σ) (sortEig n d Q).2 := by
  cases Q with
  | none =>
    have hle : TotalPreorder (fun x y : ℝ => decide (x ≤ y)) :=
      ⟨fun x y => by simpa using le_total x y, fun x y z => by simpa using le_trans⟩
    have h := Props.C01_heapsort_sorted_permutation hle n d.v
    obtain ⟨h1, σ, h2, h3⟩ := h
    refine ⟨rfl, fun i j hi hj => of_decide_eq_true (h1 i j hi hj), σ, h2, h3, trivial⟩
  | some Q =>
    have hle : TotalPreorder (fun x y : ℝ × (Nat → 𝕜) => decide (x.1 ≤ y.1)) :=
      ⟨fun x y => by simpa using le_total x.1 y.1, fun x y z => by simpa using le_trans⟩
    obtain ⟨h1, σ, h2, h3⟩ := Props.C01_heapsort_sorted_permutation hle n fun i => (d.v i, fun k => Q.e k i)
    refine ⟨rfl, fun i j hi hj => of_decide_eq_true (h1 i j hi hj), σ, h2, fun i => congrArg Prod.fst (h3 i), rfl, rfl, fun r _ j => ?_⟩
    refine Eq.trans ?_ (sum_permM h2 (algebraMap ℝ 𝕜) (fun k => Q.e r k) j).symm
    exact congrFun (congrArg Prod.snd (h3 j)) r

/-- what the QR iteration achieves -/
def EigOut {n : Nat} (eps : ℝ) (T : Tri) (Q : Option (VMat 𝕜)) (maxiter : Nat) (T0 : Matrix (Fin n) (Fin n) ℝ) (r : Tri × Option (VMat 𝕜) × Nat) : Prop :=
  r.1.d.n = T.d.n ∧ r.1.l.n = T.l.n ∧ r.1.u = T.u ∧ (∀ i j, i < j → j < n → r.1.d.v i ≤ r.1.d.v j) ∧ (maxiter = 0 ∨ r.2.2 ≤ maxiter) ∧
  ∃ W : Matrix (Fin n) (Fin n) ℝ, W * W.transpose = 1 ∧ QMul Q W r.2.1 ∧
    (maxiter = 0 ∨ r.2.2 < maxiter → (∀ j < n - 1, r.1.l.v j = 0) ∧
      ‖W * (Matrix.diagonal fun i : Fin n => r.1.d.v i) * W.transpose - T0‖ ≤ ((1 + 4 * eps) ^ (r.2.2 + (n - 1)) - 1) * ‖T0‖)

theorem muleig_out {n : Nat} {eps : ℝ} (he : 0 < eps) {T : Tri} (hd : T.d.n = n) (hl : n - 1 ≤ T.l.n) {Q : Option (VMat 𝕜)} (hQ : QOk n Q)
    {maxiter fuel : Nat} (hf : maxiter ≤ fuel) : (muleig eps fuel T Q maxiter = .error .nan ∧
      ∃ W st, Back eps (st.iter + st.off) (triMat n T.d.v T.l.v) (triMat n st.d.v st.l.v) W ∧ Inv eps (triMat n T.d.v T.l.v) Q T.l.n st ∧
        (maxiter = 0 ∨ st.iter < maxiter) ∧ ∃ p, p + 1 < n ∧ st.d.v p = 0 ∧ st.d.v (p + 1) = 0 ∧ st.l.v p = 0) ∨
    (maxiter = 0 ∧ muleig eps fuel T Q maxiter = .error .fuel) ∨
    Tot (muleig eps fuel T Q maxiter) (EigOut eps T Q maxiter (triMat n T.d.v T.l.v)) := by
  unfold muleig
  simp only [hd]
  by_cases hn : n < 1
  · rw [if_pos hn]
    right; right
    obtain rfl : n = 0 := by omega
    refine ⟨_, rfl, rfl, rfl, rfl, fun i j _ hj => absurd hj (by omega), .inr (Nat.zero_le _), 1, by simp, qmul_refl _, fun _ => ⟨fun j hj => absurd hj (by omega), ?_⟩⟩
    have : ∀ A : Matrix (Fin 0) (Fin 0) ℝ, A = 0 := fun A => by ext i; exact i.elim0
    rw [this (_ - _), this (triMat _ _ _)]; simp
  · rw [if_neg hn]
    obtain ⟨⟨off, l⟩, e, g1, g2, g3, g4, g5, g6⟩ := deflate_tot (N := n) (eps := eps) he.le (T0 := triMat n T.d.v T.l.v) (W := 1) (d := T.d) hd (n - 1) 0 T.l 0
      (by omega) hl (fun j hj => by omega) (Back.refl _ _)
    simp only at g1 g2 g3 g4 g5 g6
    rw [e, ok_bind]
    simp only
    have hinv : Inv eps (triMat n T.d.v T.l.v) Q T.l.n ⟨T.d, l, Q, off, 0⟩ :=
      ⟨hd, g3, g2, g4, g6, 1, by simpa using g5, qmul_refl _⟩
    rcases loop_out he hQ hl maxiter fuel _ hinv (by simp only; omega) (.inr (Nat.zero_le _)) with ⟨e1, st, s1, s2, s3⟩ | ⟨e1, s1⟩ | ⟨st, e1, s1, s2, s3⟩
    · left
      rw [e1]
      obtain ⟨W, w1, w2⟩ := s1.back
      exact ⟨rfl, W, st, w1, s1, s2, s3⟩
    · right; left
      rw [e1]
      exact ⟨s1, rfl⟩
    · right; right
      rw [e1, ok_bind]
      obtain ⟨t1, t2, σ, t3, t4, t5⟩ := sortEig_spec n st.d st.Q
      obtain ⟨W, w1, w2⟩ := s1.back
      refine Tot.pure ⟨by simp only; rw [t1, s1.dn, hd], s1.lnn, rfl, t2, s2, W * permM n σ, ?_, qmul_trans w2 t5, fun hm => ?_⟩
      · rw [Matrix.transpose_mul, Matrix.mul_assoc, ← Matrix.mul_assoc (permM n σ), permM_orth t3, Matrix.one_mul, w1.1]
      · simp only at hm ⊢
        have ho := s3 hm
        refine ⟨fun j hj => s1.zero j (by omega), ?_⟩
        have z : triMat n st.d.v st.l.v = Matrix.diagonal fun i : Fin n => st.d.v i := triMat_diag fun j hj => s1.zero j (by omega)
        have e2 : W * permM n σ * (Matrix.diagonal fun i : Fin n => (sortEig n st.d st.Q).1.v i) * (W * permM n σ).transpose
            = W * triMat n st.d.v st.l.v * W.transpose := by
          rw [z, ← permM_diag t3 st.d.v, Matrix.transpose_mul]
          simp only [t4]
          noncomm_ring
        rw [e2]
        have := w1.2
        rwa [ho] at this

end H2.Eig
