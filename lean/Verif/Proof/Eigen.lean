import Verif.Model.Eigen
import Verif.Spec.Eigen
import Mathlib.Tactic.LinearCombination

set_option linter.unusedSectionVars false

/-! Rotations of tridiagonal matrices with a bulge (C71). -/

namespace H2.Eig
open Spec Krylov

/-- rotation of the entries `p` and `p + 1` -/
def rotv {K : Type} [Ring K] (c s : K) (p : Nat) (f : Nat → K) (j : Nat) : K :=
  if j = p then c * f p + s * f (p + 1) else if j = p + 1 then -s * f p + c * f (p + 1) else f j

theorem dot_rot {K : Type} [CommRing K] {c s : K} {p n : Nat} (hp : p + 1 < n) (h : c * c + s * s = 1) (f g : Nat → K) :
    ∑ k ∈ Finset.range n, rotv c s p f k * rotv c s p g k = ∑ k ∈ Finset.range n, f k * g k := by
  rw [← sub_eq_zero, ← Finset.sum_sub_distrib]
  have hsub : ({p, p + 1} : Finset Nat) ⊆ Finset.range n := by
    intro x hx
    simp only [Finset.mem_insert, Finset.mem_singleton] at hx
    rw [Finset.mem_range]; omega
  rw [← Finset.sum_subset hsub, Finset.sum_pair (by omega)]
  · unfold rotv
    simp only [if_true, if_neg (show p + 1 ≠ p by omega)]
    linear_combination (f p * g p + f (p + 1) * g (p + 1)) * h
  · intro x _ hx
    simp only [Finset.mem_insert, Finset.mem_singleton, not_or] at hx
    unfold rotv
    rw [if_neg hx.1, if_neg hx.2, if_neg hx.1, if_neg hx.2, sub_self]

theorem rotv_lin {K ι : Type} [CommRing K] (S : Finset ι) (c s : K) (p : Nat) (a : ι → K) (w : ι → Nat → K) (j : Nat) :
    ∑ k ∈ S, a k * rotv c s p (w k) j = rotv c s p (fun j => ∑ k ∈ S, a k * w k j) j := by
  unfold rotv
  split_ifs
  · rw [Finset.mul_sum, Finset.mul_sum, ← Finset.sum_add_distrib]
    exact Finset.sum_congr rfl fun k _ => by ring
  · rw [Finset.mul_sum, Finset.mul_sum, ← Finset.sum_add_distrib]
    exact Finset.sum_congr rfl fun k _ => by ring
  · rfl

theorem rotv_congr {K : Type} [Ring K] {c s : K} {p n : Nat} (hp : p + 1 < n) {f g : Nat → K} (h : ∀ k < n, f k = g k) {j : Nat} (hj : j < n) :
    rotv c s p f j = rotv c s p g j := by
  unfold rotv
  rw [h p (by omega), h (p + 1) hp, h j hj]

/-- the matrix of a rotation -/
def rotG (n : Nat) (c s : ℝ) (p : Nat) : Matrix (Fin n) (Fin n) ℝ := fun i j => rotv c s p (fun k => if i.1 = k then 1 else 0) j

theorem rotG_orth {n : Nat} {c s : ℝ} {p : Nat} (hp : p + 1 < n) (h : c * c + s * s = 1) : rotG n c s p * (rotG n c s p).transpose = 1 := by
  ext i j
  rw [Matrix.mul_apply]
  simp only [Matrix.transpose_apply]
  unfold rotG
  rw [Fin.sum_univ_eq_sum_range (fun k => rotv c s p (fun k => if i.1 = k then 1 else 0) k * rotv c s p (fun k => if j.1 = k then 1 else 0) k) n,
    dot_rot hp h]
  simp only [ite_mul, one_mul, zero_mul]
  rw [Finset.sum_ite_eq, if_pos (Finset.mem_range.mpr i.2), Matrix.one_apply]
  simp only [Fin.ext_iff, eq_comm]

/-- columns of a product with a rotation -/
theorem mul_rotG {K : Type} [CommRing K] (f : ℝ →+* K) {n : Nat} {c s : ℝ} {p : Nat} (hp : p + 1 < n) (a : Nat → K) (j : Fin n) :
    ∑ k : Fin n, a k * f (rotG n c s p k j) = rotv (f c) (f s) p a j := by
  have e : ∀ k : Fin n, f (rotG n c s p k j) = rotv (f c) (f s) p (fun l => if k.1 = l then 1 else 0) j := by
    intro k
    unfold rotG rotv
    split_ifs <;> simp [apply_ite f]
  simp only [e]
  rw [rotv_lin]
  refine rotv_congr hp (fun l hl => ?_) j.2
  rw [Fin.sum_univ_eq_sum_range (fun k => a k * if k = l then 1 else 0) n]
  simp only [mul_ite, mul_one, mul_zero]
  rw [Finset.sum_ite_eq', if_pos (Finset.mem_range.mpr hl)]

/-- the matrix of a function -/
def toM (n : Nat) (M : Nat → Nat → ℝ) : Matrix (Fin n) (Fin n) ℝ := fun i j => M i j

theorem sim_rotG {n : Nat} {c s : ℝ} {p : Nat} (hp : p + 1 < n) (M : Nat → Nat → ℝ) :
    (rotG n c s p).transpose * toM n M * rotG n c s p = toM n (fun r q => rotv c s p (fun r => rotv c s p (M r) q) r) := by
  have e1 : toM n M * rotG n c s p = toM n (fun r q => rotv c s p (M r) q) := by
    ext i j
    rw [Matrix.mul_apply]
    exact mul_rotG (RingHom.id ℝ) hp (M i) j
  rw [Matrix.mul_assoc, e1]
  ext i j
  rw [Matrix.mul_apply]
  have := mul_rotG (RingHom.id ℝ) (c := c) (s := s) hp (fun k => rotv c s p (M k) j) i
  simp only [RingHom.id_apply] at this
  refine Eq.trans ?_ this
  exact Finset.sum_congr rfl fun k _ => by rw [Matrix.transpose_apply, mul_comm]; rfl

/-- a symmetric tridiagonal matrix with an additional entry `g` in row `p + 1` and column `p - 1` -/
def bul (d l : Nat → ℝ) (p : Nat) (g : ℝ) (r q : Nat) : ℝ :=
  if r = q then d r else if r = q + 1 then l q else if q = r + 1 then l r
  else if (r = q + 2 ∧ q + 1 = p) ∨ (q = r + 2 ∧ r + 1 = p) then g else 0

/-- the diagonal after a rotation -/
def rotD (c s : ℝ) (p : Nat) (d l : Nat → ℝ) (k : Nat) : ℝ :=
  if k = p then c * (c * d p + s * l p) + s * (c * l p + s * d (p + 1))
  else if k = p + 1 then -s * (-s * d p + c * l p) + c * (-s * l p + c * d (p + 1)) else d k

/-- the subdiagonal after a rotation -/
def rotL (c s : ℝ) (p : Nat) (d l : Nat → ℝ) (g : ℝ) (k : Nat) : ℝ :=
  if k + 1 = p then c * l k + s * g else if k = p then c * (-s * d p + c * l p) + s * (-s * l p + c * d (p + 1))
  else if k = p + 1 then c * l k else l k

theorem bul_symm (d l : Nat → ℝ) (p : Nat) (g : ℝ) (r q : Nat) : bul d l p g r q = bul d l p g q r := by
  unfold bul
  by_cases h : r = q
  · subst h; rfl
  · rw [if_neg h, if_neg (Ne.symm h)]
    by_cases h1 : r = q + 1
    · rw [if_pos h1, if_neg (by omega), if_pos h1]
    · rw [if_neg h1]
      by_cases h2 : q = r + 1
      · rw [if_pos h2, if_pos h2]
      · rw [if_neg h2, if_neg h2, if_neg h1]
        simp only [or_comm]

theorem bul_rot (c s : ℝ) (p : Nat) (d l : Nat → ℝ) (g : ℝ) (hz : ∀ j, j + 1 = p → -s * l j + c * g = 0) (r q : Nat) :
    rotv c s p (fun r => rotv c s p (bul d l p g r) q) r = bul (rotD c s p d l) (rotL c s p d l g) (p + 1) (s * l (p + 1)) r q := by
  -- the entries that do not vanish
  have h00 : bul d l p g p p = d p := by simp [bul]
  have h11 : bul d l p g (p + 1) (p + 1) = d (p + 1) := by simp [bul]
  have h10 : bul d l p g (p + 1) p = l p := by simp [bul]
  have h01 : bul d l p g p (p + 1) = l p := by
    unfold bul
    rw [if_neg (by omega), if_neg (by omega), if_pos rfl]
  have key : ∀ r, r ≠ p → r ≠ p + 1 → rotv c s p (bul d l p g r) p = bul (rotD c s p d l) (rotL c s p d l g) (p + 1) (s * l (p + 1)) r p ∧
      rotv c s p (bul d l p g r) (p + 1) = bul (rotD c s p d l) (rotL c s p d l g) (p + 1) (s * l (p + 1)) r (p + 1) := by
    intro r h1 h2
    unfold rotv
    rw [if_pos rfl, if_neg (show p + 1 ≠ p by omega), if_pos rfl]
    by_cases h3 : r = p + 2
    · subst h3
      have e1 : bul d l p g (p + 2) p = 0 := by
        unfold bul
        rw [if_neg (by omega), if_neg (by omega), if_neg (by omega), if_neg (by omega)]
      have e2 : bul d l p g (p + 2) (p + 1) = l (p + 1) := by
        unfold bul
        rw [if_neg (by omega), if_pos (by omega)]
      rw [e1, e2]
      unfold bul
      rw [if_neg (by omega), if_neg (by omega), if_neg (by omega), if_pos (by omega), if_neg (by omega), if_pos (by omega)]
      unfold rotL
      rw [if_neg (by omega), if_neg (by omega), if_pos (by omega)]
      constructor <;> ring
    · by_cases h4 : r + 1 = p
      · have e1 : bul d l p g r p = l r := by
          unfold bul
          rw [if_neg (by omega), if_neg (by omega), if_pos (by omega)]
        have e2 : bul d l p g r (p + 1) = g := by
          unfold bul
          rw [if_neg (by omega), if_neg (by omega), if_neg (by omega), if_pos (by omega)]
        rw [e1, e2, hz r h4]
        unfold bul
        rw [if_neg (by omega), if_neg (by omega), if_pos (by omega), if_neg (by omega), if_neg (by omega), if_neg (by omega), if_neg (by omega)]
        unfold rotL
        rw [if_pos h4]
        exact ⟨rfl, rfl⟩
      · have e1 : bul d l p g r p = 0 := by
          unfold bul
          rw [if_neg (by omega), if_neg (by omega), if_neg (by omega), if_neg (by omega)]
        have e2 : bul d l p g r (p + 1) = 0 := by
          unfold bul
          rw [if_neg (by omega), if_neg (by omega), if_neg (by omega), if_neg (by omega)]
        rw [e1, e2]
        unfold bul
        rw [if_neg (by omega), if_neg (by omega), if_neg (by omega), if_neg (by omega), if_neg (by omega), if_neg (by omega), if_neg (by omega),
          if_neg (by omega)]
        constructor <;> ring
  by_cases hr : r = p
  · subst hr
    by_cases hq : q = r
    · subst hq
      simp only [rotv, if_true, h00, h01, h10, h11]
      unfold bul rotD
      rw [if_pos rfl, if_pos rfl]
    · by_cases hq1 : q = r + 1
      · subst hq1
        simp only [rotv, if_true, h00, h01, h10, h11, if_neg hq]
        unfold bul rotL
        rw [if_neg (by omega), if_neg (by omega), if_pos rfl, if_neg (by omega), if_pos rfl]
      · rw [bul_symm, ← (key q hq hq1).1]
        unfold rotv
        simp only [if_true, if_neg hq, if_neg hq1]
        rw [bul_symm d l r g r q, bul_symm d l r g (r + 1) q]
  · by_cases hr1 : r = p + 1
    · subst hr1
      by_cases hq : q = p
      · subst hq
        simp only [rotv, if_true, h00, h01, h10, h11, if_neg hr]
        unfold bul rotL
        rw [if_neg (by omega), if_pos rfl, if_neg (by omega), if_pos rfl]
        ring
      · by_cases hq1 : q = p + 1
        · subst hq1
          simp only [rotv, if_true, h00, h01, h10, h11, if_neg hr]
          unfold bul rotD
          rw [if_pos rfl, if_neg (by omega), if_pos rfl]
        · rw [bul_symm, ← (key q hq hq1).2]
          unfold rotv
          simp only [if_true, if_neg hq, if_neg hq1, if_neg hr]
          rw [bul_symm d l p g p q, bul_symm d l p g (p + 1) q]
    · have : rotv c s p (fun r => rotv c s p (bul d l p g r) q) r = rotv c s p (bul d l p g r) q := by
        conv_lhs => rw [rotv, if_neg hr, if_neg hr1]
      rw [this]
      by_cases hq : q = p
      · subst hq; exact (key r hr hr1).1
      · by_cases hq1 : q = p + 1
        · subst hq1; exact (key r hr hr1).2
        · unfold rotv
          rw [if_neg hq, if_neg hq1]
          unfold bul rotD rotL
          split_ifs <;> first | omega | rfl

/-! ### the program -/

variable {𝕜 : Type} [RCLike 𝕜]

theorem rsq_pos (t : ℝ) : (1 / √(1 + t ^ 2)) * (1 / √(1 + t ^ 2)) * (1 + t ^ 2) = 1 := by
  have h : (0 : ℝ) < 1 + t ^ 2 := by positivity
  have h2 := Real.mul_self_sqrt h.le
  have h3 : √(1 + t ^ 2) ≠ 0 := (Real.sqrt_pos.mpr h).ne'
  field_simp
  nlinarith [h2]

theorem givens_tot (a b : ℝ) : Tot (givens a b) fun r => r.1 * r.1 + r.2 * r.2 = 1 ∧ -r.2 * a + r.1 * b = 0 := by
  unfold givens
  split_ifs with h0 h1
  · exact Tot.pure ⟨by simp, by simp [h0.1, h0.2]⟩
  · have ha : a ≠ 0 := fun e => absurd h1 (by rw [e, abs_zero]; exact not_lt.mpr (abs_nonneg b))
    rw [show cdiv b a = .ok (b / a) by unfold cdiv; rw [if_neg ha], ok_bind]
    refine Tot.pure ⟨?_, ?_⟩
    · have := rsq_pos (b / a)
      generalize 1 / √(1 + (b / a) ^ 2) = c at this ⊢
      dsimp only
      linear_combination this
    · dsimp only
      field_simp
      ring
  · have hb : b ≠ 0 := by
      intro e
      rw [e, abs_zero, gt_iff_lt, abs_pos, not_not] at h1
      exact h0 ⟨h1, e⟩
    rw [show cdiv a b = .ok (a / b) by unfold cdiv; rw [if_neg hb], ok_bind]
    refine Tot.pure ⟨?_, ?_⟩
    · have := rsq_pos (a / b)
      generalize 1 / √(1 + (a / b) ^ 2) = c at this ⊢
      dsimp only
      linear_combination this
    · dsimp only
      field_simp
      ring

theorem rotCols_tot {p : Nat} {c s : ℝ} {Q : VMat 𝕜} (hp : p + 1 < Q.cols) : Tot (rotCols p c s Q) fun Q' =>
    Q'.rows = Q.rows ∧ Q'.cols = Q.cols ∧ ∀ r j, Q'.e r j = if r < Q.rows then rotv (c : 𝕜) (s : 𝕜) p (Q.e r) j else Q.e r j := by
  unfold rotCols
  refine forUp_tot (fun k (Q' : VMat 𝕜) => Q'.rows = Q.rows ∧ Q'.cols = Q.cols ∧
    ∀ r j, Q'.e r j = if r < k then rotv (c : 𝕜) (s : 𝕜) p (Q.e r) j else Q.e r j) (Nat.zero_le _) ⟨rfl, rfl, fun r j => by simp⟩ ?_
  rintro k ⟨rows, cols, e⟩ - hk ⟨h1, h2, h3⟩
  simp only at h1 h2 h3
  subst h1 h2
  simp only [VMat.get, VMat.set]
  rw [if_pos ⟨hk, by omega⟩, ok_bind, if_pos ⟨hk, hp⟩, ok_bind, if_pos ⟨hk, by omega⟩, ok_bind]
  simp only
  rw [if_pos ⟨hk, hp⟩]
  refine ⟨_, rfl, rfl, rfl, fun r j => ?_⟩
  simp only
  have e1 : ∀ j, e k j = Q.e k j := fun j => by rw [h3, if_neg (by omega)]
  by_cases hr : r = k
  · subst hr
    rw [if_pos (show r < r + 1 by omega)]
    unfold rotv
    by_cases hj : j = p
    · subst hj
      rw [if_neg (by omega), if_pos ⟨rfl, rfl⟩, if_pos rfl, e1, e1]
    · rw [if_neg hj]
      by_cases hj1 : j = p + 1
      · subst hj1
        rw [if_pos ⟨rfl, rfl⟩, if_pos rfl, e1, e1]
      · rw [if_neg (fun h => hj1 h.2), if_neg (fun h => hj h.2), if_neg hj1, e1]
  · rw [if_neg (fun h => hr h.1), if_neg (fun h => hr h.1), h3]
    by_cases h : r < k
    · rw [if_pos h, if_pos (by omega)]
    · rw [if_neg h, if_neg (by omega)]

theorem rotDiag_tot {p : Nat} {c s : ℝ} {d l : Arr ℝ} (hd : p + 1 < d.n) (hl : p < l.n) : Tot (rotDiag p c s d l) fun r =>
    r.1.n = d.n ∧ r.2.n = l.n ∧ r.1.v = rotD c s p d.v l.v ∧
    ∀ k, r.2.v k = if k = p then c * (-s * d.v p + c * l.v p) + s * (-s * l.v p + c * d.v (p + 1)) else l.v k := by
  unfold rotDiag
  rw [Arr.get_ok (by omega), ok_bind, Arr.get_ok hl, ok_bind, Arr.get_ok hd, ok_bind]
  simp only
  rw [Arr.set_ok (by omega), ok_bind, Arr.set_ok hl, ok_bind, Arr.set_ok (by exact hd), ok_bind]
  refine Tot.pure ⟨rfl, rfl, ?_, fun k => rfl⟩
  funext k
  simp only [rotD]
  by_cases hk : k = p + 1
  · rw [if_pos hk, if_neg (by omega), if_pos hk]
  · rw [if_neg hk]
    by_cases h : k = p
    · rw [if_pos h, if_pos h]
    · rw [if_neg h, if_neg h, if_neg hk]

/-- `Q` has at least `n` columns. -/
def QOk (n : Nat) (Q : Option (VMat 𝕜)) : Prop := ∀ q, Q = some q → n ≤ q.cols

theorem qmul_refl {n : Nat} (Q : Option (VMat 𝕜)) : QMul Q (1 : Matrix (Fin n) (Fin n) ℝ) Q := by
  cases Q with
  | none => exact trivial
  | some Q =>
    refine ⟨rfl, rfl, fun r _ j => ?_⟩
    rw [Finset.sum_eq_single j]
    · rw [Matrix.one_apply, if_pos rfl]; simp
    · intro k _ hk
      rw [Matrix.one_apply, if_neg hk]; simp
    · intro h; exact absurd (Finset.mem_univ j) h

theorem qmul_trans {n : Nat} {Q Q' Q'' : Option (VMat 𝕜)} {V W : Matrix (Fin n) (Fin n) ℝ} (h1 : QMul Q V Q') (h2 : QMul Q' W Q'') :
    QMul Q (V * W) Q'' := by
  cases Q <;> cases Q' <;> cases Q'' <;> first | exact h1.elim | exact h2.elim | skip
  · trivial
  · obtain ⟨a1, a2, a3⟩ := h1
    obtain ⟨b1, b2, b3⟩ := h2
    refine ⟨b1.trans a1, b2.trans a2, fun r hr j => ?_⟩
    rw [b3 r (by rw [a1]; exact hr) j]
    simp only [a3 r hr, Matrix.mul_apply, RCLike.ofReal_sum, RCLike.ofReal_mul, Finset.sum_mul, Finset.mul_sum]
    rw [Finset.sum_comm]
    exact Finset.sum_congr rfl fun k _ => Finset.sum_congr rfl fun l _ => by ring

theorem qmul_ok {n m : Nat} {Q Q' : Option (VMat 𝕜)} {W : Matrix (Fin n) (Fin n) ℝ} (h : QMul Q W Q') (hq : QOk m Q) : QOk m Q' := by
  intro q e
  subst e
  cases Q with
  | none => exact h.elim
  | some Q => rw [h.2.1]; exact hq Q rfl

theorem optQ_rot {n p : Nat} {c s : ℝ} {Q : Option (VMat 𝕜)} (hp : p + 1 < n) (hQ : QOk n Q) :
    Tot (optQ (rotCols p c s) Q) fun Q' => QMul Q (rotG n c s p) Q' := by
  cases Q with
  | none => exact Tot.pure trivial
  | some Q =>
    refine Tot.bind (rotCols_tot (c := c) (s := s) (lt_of_lt_of_le hp (hQ Q rfl))) ?_
    rintro Q' - ⟨h1, h2, h3⟩
    refine Tot.pure ⟨h1, h2, fun r hr j => ?_⟩
    rw [h3, if_pos hr]
    exact (mul_rotG (algebraMap ℝ 𝕜) (c := c) (s := s) hp (Q.e r) j).symm

/-- the subdiagonal without the coefficients that connect the block `off, …, off + n - 1` to the remainder -/
def msk (off n : Nat) (l : Nat → ℝ) (j : Nat) : ℝ := if j + 1 = off ∨ j + 1 = off + n then 0 else l j

/-- orthogonal similarity -/
def OSim {N : Nat} (W A B : Matrix (Fin N) (Fin N) ℝ) : Prop := W * W.transpose = 1 ∧ W.transpose * A * W = B

theorem OSim.trans {N : Nat} {V W A B C : Matrix (Fin N) (Fin N) ℝ} (h1 : OSim V A B) (h2 : OSim W B C) : OSim (V * W) A C := by
  refine ⟨?_, ?_⟩
  · rw [Matrix.transpose_mul, Matrix.mul_assoc, ← Matrix.mul_assoc W, h2.1, Matrix.one_mul, h1.1]
  · rw [← h2.2, ← h1.2, Matrix.transpose_mul]
    simp only [Matrix.mul_assoc]

theorem OSim.refl {N : Nat} (A : Matrix (Fin N) (Fin N) ℝ) : OSim 1 A A := by
  refine ⟨by simp, by simp⟩

theorem osim_rotG {n : Nat} {c s : ℝ} {p : Nat} (hp : p + 1 < n) (h : c * c + s * s = 1) (M : Nat → Nat → ℝ) :
    OSim (rotG n c s p) (toM n M) (toM n (fun r q => rotv c s p (fun r => rotv c s p (M r) q) r)) :=
  ⟨rotG_orth hp h, sim_rotG hp M⟩

theorem triMat_bul {n : Nat} (d l : Nat → ℝ) (p : Nat) : triMat n d l = toM n (bul d l p 0) := by
  ext i j
  simp only [triMat, toM, bul, ite_self]

/-- one step: `bl` are the subdiagonal coefficients the rotation acts upon -/
theorem step_osim {N p : Nat} {c s : ℝ} (hp : p + 1 < N) (h : c * c + s * s = 1) {d l d' l' : Nat → ℝ} {g : ℝ}
    (hz : ∀ j, j + 1 = p → -s * l j + c * g = 0) (hd : d' = rotD c s p d l)
    (hl : ∀ k, rotL c s p d l g k = if k = p + 1 then c * l' k else l' k) (hg : l' (p + 1) = l (p + 1)) :
    OSim (rotG N c s p) (toM N (bul d l p g)) (toM N (bul d' (fun k => if k = p + 1 then c * l' k else l' k) (p + 1) (s * l' (p + 1)))) := by
  have := osim_rotG hp h (bul d l p g)
  have e : (fun r q => rotv c s p (fun r => rotv c s p (bul d l p g r) q) r) =
      bul d' (fun k => if k = p + 1 then c * l' k else l' k) (p + 1) (s * l' (p + 1)) := by
    funext r q
    rw [bul_rot c s p d l g hz, hd, hg]
    have : rotL c s p d l g = fun k => if k = p + 1 then c * l' k else l' k := funext hl
    rw [this]
  rw [e] at this
  exact this

theorem qrSweep_tot {N off n : Nat} {shift : ℝ} {d l : Arr ℝ} {Q : Option (VMat 𝕜)} (hN : off + n ≤ N) (hd : d.n = N) (hl : N - 1 ≤ l.n)
    (hQ : QOk N Q) : Tot (qrSweep off n shift d l Q) fun st => st.d.n = d.n ∧ st.l.n = l.n ∧
      (∀ j, (j < off ∨ off + n ≤ j + 1) → st.l.v j = l.v j) ∧
      ∃ W, OSim W (triMat N d.v (msk off n l.v)) (triMat N st.d.v (msk off n st.l.v)) ∧ QMul Q W st.Q := by
  unfold qrSweep
  split_ifs with hn
  · exact Tot.pure ⟨rfl, rfl, fun _ _ => rfl, 1, .refl _, qmul_refl _⟩
  rw [Arr.get_ok (by omega), ok_bind, Arr.get_ok (by omega), ok_bind]
  refine Tot.bind (givens_tot _ _) ?_
  rintro ⟨c, s⟩ - ⟨hcs, -⟩
  simp only at hcs ⊢
  refine Tot.bind (rotDiag_tot (by omega) (by omega)) ?_
  rintro ⟨d1, l1⟩ - ⟨e1, e2, e3, e4⟩
  simp only at e1 e2 e3 e4 ⊢
  refine Tot.bind (optQ_rot (n := N) (p := off) (c := c) (s := s) (by omega) hQ) ?_
  rintro Q1 - hQ1
  refine (forUp_tot (fun i (st : StepSt 𝕜) => st.d.n = d.n ∧ st.l.n = l.n ∧ (∀ j, (j < off ∨ off + i ≤ j) → st.l.v j = l.v j) ∧
    st.c * st.c + st.s * st.s = 1 ∧ ∃ W, OSim W (triMat N d.v (msk off n l.v))
      (toM N (bul st.d.v (fun k => if k = off + i then st.c * msk off n st.l.v k else msk off n st.l.v k) (off + i)
        (st.s * msk off n st.l.v (off + i)))) ∧ QMul Q W st.Q) (by omega) ?_ ?_).mono ?_
  · refine ⟨e1, e2, fun j hj => ?_, hcs, rotG N c s off, ?_, hQ1⟩
    · show l1.v j = _
      rw [e4, if_neg (by omega)]
    · rw [triMat_bul _ _ off]
      refine step_osim (by omega) hcs ?_ ?_ ?_ ?_
      · intro j hj
        unfold msk
        rw [if_pos (.inl hj)]; ring
      · show d1.v = _
        rw [e3]
        unfold rotD
        have : msk off n l.v off = l.v off := by unfold msk; rw [if_neg (by omega)]
        rw [this]
      · intro k
        show _ = if k = off + 1 then c * msk off n l1.v k else msk off n l1.v k
        have h0 : msk off n l.v off = l.v off := by unfold msk; rw [if_neg (by omega)]
        unfold rotL
        rw [h0]
        by_cases k1 : k + 1 = off
        · rw [if_pos k1, if_neg (by omega)]
          unfold msk
          rw [if_pos (.inl k1), if_pos (.inl k1)]; ring
        · rw [if_neg k1]
          by_cases k2 : k = off
          · rw [if_pos k2, if_neg (by omega)]
            unfold msk
            rw [if_neg (by omega), e4, if_pos k2]
          · rw [if_neg k2]
            unfold msk
            rw [e4, if_neg k2]
      · show msk off n l1.v (off + 1) = _
        unfold msk
        rw [e4, if_neg (show off + 1 ≠ off by omega)]
  · rintro i ⟨d2, l2, c2, s2, Q2⟩ hi1 hi2 ⟨f1, f2, f3, f4, W, f5, f6⟩
    simp only at f1 f2 f3 f4 f5 f6 ⊢
    rw [Arr.get_ok (by omega), ok_bind, Arr.set_ok (by omega), ok_bind]
    rw [Arr.get_ok (by show off + i - 1 < l2.n; omega), ok_bind]
    simp only [if_neg (show off + i - 1 ≠ off + i by omega)]
    refine Tot.bind (givens_tot _ _) ?_
    rintro ⟨c3, s3⟩ - ⟨hcs3, hz3⟩
    simp only at hcs3 hz3 ⊢
    rw [Arr.set_ok (by show off + i - 1 < l2.n; omega), ok_bind]
    refine Tot.bind (rotDiag_tot (by omega) (by show off + i < l2.n; omega)) ?_
    rintro ⟨d3, l3⟩ - ⟨g1, g2, g3, g4⟩
    simp only at g1 g2 g3 g4 ⊢
    refine Tot.bind (optQ_rot (n := N) (p := off + i) (c := c3) (s := s3) (by omega) (qmul_ok f6 hQ)) ?_
    rintro Q3 - hQ3
    have mi : msk off n l2.v (off + i) = l2.v (off + i) := by unfold msk; rw [if_neg (by omega)]
    have mj : ∀ j, j + 1 = off + i → msk off n l2.v j = l2.v (off + i - 1) := by
      intro j hj
      unfold msk
      rw [if_neg (by omega), show j = off + i - 1 by omega]
    refine Tot.pure ⟨g1.trans f1, g2.trans f2, fun j hj => ?_, hcs3, W * rotG N c3 s3 (off + i), f5.trans ?_, qmul_trans f6 hQ3⟩
    · show l3.v j = _
      rw [g4, if_neg (by omega)]
      rw [if_neg (by omega), if_neg (by omega)]
      exact f3 j (by omega)
    · show OSim _ _ (toM N (bul d3.v (fun k => if k = off + i + 1 then c3 * msk off n l3.v k else msk off n l3.v k) (off + i + 1)
        (s3 * msk off n l3.v (off + i + 1))))
      refine step_osim (by omega) hcs3 ?_ ?_ ?_ ?_
      · intro j hj
        rw [if_neg (by omega), mj j hj, mi]
        exact hz3
      · rw [g3]
        funext k
        unfold rotD
        simp only [if_true, if_neg (show off + i ≠ off + i - 1 by omega), mi]
      · intro k
        unfold rotL
        simp only [if_true, mi]
        by_cases k1 : k + 1 = off + i
        · rw [if_pos k1, if_neg (by omega), if_neg (by omega), mj k k1]
          unfold msk
          rw [if_neg (by omega), g4, if_neg (by omega)]
          rw [if_pos (by omega)]
        · rw [if_neg k1]
          by_cases k2 : k = off + i
          · rw [if_pos k2, if_neg (by omega)]
            unfold msk
            rw [if_neg (by omega), g4, if_pos k2]
            rw [if_neg (show off + i ≠ off + i - 1 by omega), if_pos trivial]
          · rw [if_neg k2, if_neg k2]
            have : msk off n l3.v k = msk off n l2.v k := by
              unfold msk
              rw [g4, if_neg k2]
              rw [if_neg (show k ≠ off + i - 1 by omega), if_neg k2]
            rw [this]
      · rw [if_neg (show off + i + 1 ≠ off + i by omega)]
        unfold msk
        rw [g4, if_neg (show off + i + 1 ≠ off + i by omega), if_neg (show off + i + 1 ≠ off + i - 1 by omega),
          if_neg (show off + i + 1 ≠ off + i by omega)]
  · rintro ⟨d2, l2, c2, s2, Q2⟩ ⟨f1, f2, f3, f4, W, f5, f6⟩
    simp only at f1 f2 f3 f4 f5 f6 ⊢
    refine ⟨f1, f2, fun j hj => f3 j (by omega), W, ?_, f6⟩
    have m0 : msk off n l2.v (off + (n - 1)) = 0 := by unfold msk; rw [if_pos (by omega)]
    rw [m0, mul_zero] at f5
    have e : (fun k => if k = off + (n - 1) then c2 * msk off n l2.v k else msk off n l2.v k) = msk off n l2.v := by
      funext k
      by_cases hk : k = off + (n - 1)
      · rw [if_pos hk, hk, m0, mul_zero]
      · rw [if_neg hk]
    rw [e, ← triMat_bul] at f5
    exact f5

end H2.Eig
