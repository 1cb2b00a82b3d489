import Verif.Spec.QR
import Verif.Proof.Factor
import Mathlib.Tactic

/-! # Elementary reflections -/

set_option linter.unusedSectionVars false

namespace H2.QR
open Spec Dense Matrix
variable {𝕜 : Type} [RCLike 𝕜] {n : Nat}

theorem refl_mulVec (v x : Fin n → 𝕜) (t : 𝕜) (i : Fin n) :
    (reflector v t *ᵥ x) i = x i - t * (∑ l, star (v l) * x l) * v i := by
  unfold reflector
  rw [Matrix.sub_mulVec, Matrix.one_mulVec, Matrix.smul_mulVec, Pi.sub_apply, Pi.smul_apply, Matrix.vecMulVec_mulVec, smul_eq_mul]
  simp [dotProduct]
  ring

theorem refl_adj (v : Fin n → 𝕜) (t : 𝕜) : (reflector v t)ᴴ = reflector v (star t) := by
  unfold reflector
  rw [conjTranspose_sub, conjTranspose_one, conjTranspose_smul, conjTranspose_vecMulVec, star_star]

/-- sum of squared moduli -/
noncomputable def nrm2 (x : Fin n → 𝕜) : ℝ := ∑ i, ‖x i‖ ^ 2

theorem nrm2_eq (x : Fin n → 𝕜) : ((nrm2 x : ℝ) : 𝕜) = star x ⬝ᵥ x := by
  unfold nrm2 dotProduct
  push_cast
  refine Finset.sum_congr rfl fun i _ => ?_
  rw [Pi.star_apply, RCLike.star_def, RCLike.conj_mul]

theorem refl_unitary {v : Fin n → 𝕜} {t : 𝕜} (ht : star t = t) (h : t = 0 ∨ t * (nrm2 v : 𝕜) = 2) : reflector v t * reflector v t = 1 := by
  have e : vecMulVec v (star v) * vecMulVec v (star v) = (nrm2 v : 𝕜) • vecMulVec v (star v) := by
    rw [vecMulVec_mul_vecMulVec, nrm2_eq]
    ext i j
    simp [vecMulVec_apply]
    ring
  unfold reflector
  rw [Matrix.sub_mul, Matrix.one_mul, Matrix.smul_mul, Matrix.mul_sub, Matrix.mul_one, Matrix.mul_smul, e]
  rcases h with h | h
  · simp [h]
  · rw [smul_smul, h]
    rw [smul_sub, smul_smul, mul_comm t 2]
    rw [two_mul, add_smul]
    abel

theorem refl_mem {v : Fin n → 𝕜} {t : 𝕜} (ht : star t = t) (h : t = 0 ∨ t * (nrm2 v : 𝕜) = 2) : reflector v t ∈ unitaryGroup (Fin n) 𝕜 := by
  rw [mem_unitaryGroup_iff, star_eq_conjTranspose, refl_adj, ht]
  exact refl_unitary ht h

theorem nrm2_mulVec {Q : Matrix (Fin n) (Fin n) 𝕜} (hQ : Q ∈ unitaryGroup (Fin n) 𝕜) (x : Fin n → 𝕜) : nrm2 (Q *ᵥ x) = nrm2 x := by
  have h : ((nrm2 (Q *ᵥ x) : ℝ) : 𝕜) = ((nrm2 x : ℝ) : 𝕜) := by
    rw [nrm2_eq, nrm2_eq, star_mulVec, ← dotProduct_mulVec, mulVec_mulVec, ← star_eq_conjTranspose, mem_unitaryGroup_iff'.mp hQ, one_mulVec]
  exact_mod_cast h

theorem nrm2_smul (c : 𝕜) (x : Fin n → 𝕜) : nrm2 (c • x) = ‖c‖ ^ 2 * nrm2 x := by
  unfold nrm2
  rw [Finset.mul_sum]
  refine Finset.sum_congr rfl fun i _ => ?_
  rw [Pi.smul_apply, smul_eq_mul, norm_mul, mul_pow]

theorem hvec_congr {V V' : Nat → Nat → 𝕜} {k : Nat} (h : ∀ i < n, k < i → V i k = V' i k) : hvec n V k = hvec n V' k := by
  funext i
  unfold hvec
  split_ifs with h1 h2
  · rfl
  · rfl
  · exact h i i.2 (by omega)

theorem qprod_congr {V V' : Nat → Nat → 𝕜} {t t' : Nat → 𝕜} {k : Nat} (h : ∀ l < k, ∀ i < n, l < i → V i l = V' i l) (ht : ∀ l < k, t l = t' l) :
    qprod n V t k = qprod n V' t' k := by
  induction k with
  | zero => rfl
  | succ k ih =>
    rw [qprod, qprod, ih (fun l hl => h l (by omega)) (fun l hl => ht l (by omega)), hvec_congr (h k (by omega)), ht k (by omega)]

/-- a reflection does not change vectors that vanish from position `k` on -/
theorem refl_fix {V : Nat → Nat → 𝕜} {k : Nat} {t : 𝕜} {x : Fin n → 𝕜} (hx : ∀ i : Fin n, k ≤ i.1 → x i = 0) : reflector (hvec n V k) t *ᵥ x = x := by
  funext i
  rw [refl_mulVec, Finset.sum_eq_zero, mul_zero, zero_mul, sub_zero]
  intro l _
  by_cases hl : l.1 < k
  · simp [hvec, hl]
  · rw [hx l (by omega), mul_zero]

/-- the part of column `j` of `W` on and above the diagonal -/
def upcol (n : Nat) (W : Nat → Nat → 𝕜) (j : Nat) : Fin n → 𝕜 := fun i => tri false false W i j
/-- column `j` of `W` -/
def col (n : Nat) (W : Nat → Nat → 𝕜) (j : Nat) : Fin n → 𝕜 := fun i => W i j

theorem upcol_eq (W : Nat → Nat → 𝕜) (j : Nat) (i : Fin n) : upcol n W j i = if i.1 ≤ j then W i j else 0 := by
  unfold upcol tri
  by_cases h : i.1 = j
  · simp [h]
  · rw [if_neg h]
    by_cases h' : i.1 < j
    · rw [if_pos (by omega : i.1 ≤ j), if_pos (by simpa using h')]
    · rw [if_neg (by omega : ¬ i.1 ≤ j), if_neg (by simpa using h')]

/-- squared norm of the entries from `k` on -/
noncomputable def tail2 (n : Nat) (W : Nat → Nat → 𝕜) (k j : Nat) : ℝ := ∑ i ∈ Finset.Ico k n, ‖W i j‖ ^ 2

theorem tail2_nonneg (W : Nat → Nat → 𝕜) (k j : Nat) : 0 ≤ tail2 n W k j := Finset.sum_nonneg fun _ _ => sq_nonneg _

theorem tail2_fin (W : Nat → Nat → 𝕜) (k j : Nat) : tail2 n W k j = ∑ i : Fin n, if k ≤ i.1 then ‖W i j‖ ^ 2 else 0 := by
  unfold tail2
  rw [Fin.sum_univ_eq_sum_range (fun i => if k ≤ i then ‖W i j‖ ^ 2 else 0), ← Finset.sum_filter]
  refine Finset.sum_congr ?_ fun _ _ => rfl
  ext i; simp; omega

theorem tail2_split {W : Nat → Nat → 𝕜} {k j : Nat} (hk : k < n) : tail2 n W k j = ‖W k j‖ ^ 2 + tail2 n W (k + 1) j := by
  unfold tail2
  rw [Finset.sum_eq_sum_Ico_succ_bot hk]

/-- The matrices after `k` steps: `W` holds the reflections and the triangular factor, `t` the scaling factors. -/
structure QInv (n c : Nat) (A : Nat → Nat → 𝕜) (err : ℝ) (k : Nat) (W : Nat → Nat → 𝕜) (t : Nat → 𝕜) : Prop where
  unit : ∀ l < k, reflector (hvec n W l) (t l) ∈ unitaryGroup (Fin n) 𝕜
  done : ∀ j < k, j < c → nrm2 (col n A j - qprod n W t k *ᵥ upcol n W j) ≤ err
  todo : ∀ j, k ≤ j → j < c → col n A j = qprod n W t k *ᵥ col n W j

theorem qprod_mem {V : Nat → Nat → 𝕜} {t : Nat → 𝕜} {k : Nat} (h : ∀ l < k, reflector (hvec n V l) (t l) ∈ unitaryGroup (Fin n) 𝕜) :
    qprod n V t k ∈ unitaryGroup (Fin n) 𝕜 := by
  induction k with
  | zero => exact one_mem _
  | succ k ih => exact mul_mem (ih fun l hl => h l (by omega)) (h k (by omega))

theorem QInv.init (n c : Nat) (A : Nat → Nat → 𝕜) (err : ℝ) (t : Nat → 𝕜) : QInv n c A err 0 A t :=
  ⟨fun l hl => by omega, fun j hj => by omega, fun j _ _ => by rw [qprod, one_mulVec]⟩

/-- The general step: columns before `k` keep their reflections and upper triangle, columns behind `k` are multiplied by the new reflection,
column `k` is approximated by its new upper triangle. -/
theorem QInv.step {c : Nat} {A : Nat → Nat → 𝕜} {err : ℝ} {k : Nat} {W W' : Nat → Nat → 𝕜} {t t' : Nat → 𝕜} (h : QInv n c A err k W t)
    (hc : k < c) (hW : ∀ j < k, ∀ i < n, W' i j = W i j) (ht : ∀ l < k, t' l = t l)
    (hu : reflector (hvec n W' k) (t' k) * reflector (hvec n W' k) (t' k) = 1)
    (hm : reflector (hvec n W' k) (t' k) ∈ unitaryGroup (Fin n) 𝕜)
    (hk : nrm2 (reflector (hvec n W' k) (t' k) *ᵥ col n W k - upcol n W' k) ≤ err)
    (hj : ∀ j, k < j → j < c → col n W' j = reflector (hvec n W' k) (t' k) *ᵥ col n W j) : QInv n c A err (k + 1) W' t' := by
  have e0 : qprod n W' t' k = qprod n W t k := qprod_congr (fun l hl i hi _ => hW l hl i hi) ht
  have e1 : qprod n W' t' (k + 1) = qprod n W t k * reflector (hvec n W' k) (t' k) := by rw [qprod, e0]
  have hun : ∀ l < k + 1, reflector (hvec n W' l) (t' l) ∈ unitaryGroup (Fin n) 𝕜 := fun l hl => by
    by_cases e : l = k
    · rw [e]; exact hm
    · rw [hvec_congr (fun i hi _ => hW l (by omega) i hi), ht l (by omega)]
      exact h.unit l (by omega)
  have hq := qprod_mem h.unit
  refine ⟨hun, fun j hj1 hj2 => ?_, fun j hj1 hj2 => ?_⟩
  · by_cases e : j = k
    · subst e
      have : col n A j - qprod n W' t' (j + 1) *ᵥ upcol n W' j =
          qprod n W' t' (j + 1) *ᵥ (reflector (hvec n W' j) (t' j) *ᵥ col n W j - upcol n W' j) := by
        rw [mulVec_sub, e1]
        congr 1
        rw [mulVec_mulVec, Matrix.mul_assoc, hu, Matrix.mul_one]
        exact h.todo j le_rfl hj2
      rw [this, nrm2_mulVec (qprod_mem hun)]
      exact hk
    · have : upcol n W' j = upcol n W j := by
        funext i
        rw [upcol_eq, upcol_eq, hW j (by omega) i i.2]
      rw [this, e1, ← mulVec_mulVec, refl_fix (fun i hi => by rw [upcol_eq, if_neg (by omega)])]
      exact h.done j (by omega) hj2
  · rw [hj j (by omega) hj2, e1, ← mulVec_mulVec, mulVec_mulVec (col n W j), hu, one_mulVec]
    exact h.todo j (by omega) hj2

/-- a skipped step -/
theorem QInv.skip {c : Nat} {A : Nat → Nat → 𝕜} {err : ℝ} {k : Nat} {W : Nat → Nat → 𝕜} {t t' : Nat → 𝕜} (h : QInv n c A err k W t)
    (hc : k < c) (hn : k < n) (ht : ∀ l < k, t' l = t l) (h0 : t' k = 0) (hs : tail2 n W k k ≤ err) : QInv n c A err (k + 1) W t' := by
  have e : reflector (hvec n W k) (t' k) = 1 := by rw [h0]; simp [reflector]
  refine h.step hc (fun _ _ _ _ => rfl) ht (by rw [e, Matrix.one_mul]) (by rw [e]; exact one_mem _) ?_ (fun j _ _ => by rw [e, one_mulVec])
  rw [e, one_mulVec]
  refine le_trans ?_ hs
  rw [tail2_fin]
  unfold nrm2
  refine Finset.sum_le_sum fun i _ => ?_
  rw [Pi.sub_apply, upcol_eq]
  by_cases hi : i.1 ≤ k
  · rw [if_pos hi]
    simp only [col, sub_self, norm_zero]
    split_ifs
    · simp
    · simp
  · rw [if_neg hi, if_pos (by omega)]
    simp [col]

/-- the numbers computed for a reflection -/
theorem house_numbers {V W : Nat → Nat → 𝕜} {k : Nat} (hn : k < n) {s : 𝕜} (hs : ‖s‖ = 1) {norm2 : ℝ} (hnorm : norm2 = tail2 n W k k) (hpos : 0 < norm2)
    {beta : ℝ} (hbeta : beta = 1 / (norm2 + ‖W k k‖ * √norm2) * ((‖W k k‖ + √norm2) * (‖W k k‖ + √norm2)))
    (hV : ∀ i < n, k < i → V i k = W i k * (star s / ((‖W k k‖ + √norm2 : ℝ) : 𝕜))) :
    (beta : 𝕜) * (nrm2 (hvec n V k) : 𝕜) = 2 ∧
    reflector (hvec n V k) (beta : 𝕜) *ᵥ col n (fun i j => if i = k then s * (‖W k k‖ : 𝕜) else W i j) k =
      fun i : Fin n => if i.1 < k then W i k else if i.1 = k then -s * (√norm2 : 𝕜) else 0 := by
  obtain ⟨N, hN⟩ : ∃ N, N = √norm2 := ⟨_, rfl⟩
  have hNpos : 0 < N := hN ▸ Real.sqrt_pos.mpr hpos
  have hNN : N * N = norm2 := hN ▸ Real.mul_self_sqrt hpos.le
  obtain ⟨d, hd⟩ : ∃ d, d = ‖W k k‖ := ⟨_, rfl⟩
  have hd0 : 0 ≤ d := hd ▸ norm_nonneg _
  rw [← hd, ← hN] at hbeta ⊢
  simp only [← hd, ← hN] at hV
  have hb : beta = (d + N) / N := by
    rw [hbeta, ← hNN]
    have : d + N ≠ 0 := by positivity
    field_simp
    ring
  have hT : tail2 n W (k + 1) k = norm2 - d ^ 2 := by
    rw [hnorm, tail2_split hn, ← hd]; ring
  have hdN : d + N ≠ 0 := by positivity
  have hdN' : ((d + N : ℝ) : 𝕜) ≠ 0 := by exact_mod_cast hdN
  have hss : s * star s = 1 := by
    rw [RCLike.star_def, RCLike.mul_conj, hs]; simp
  have hnv : nrm2 (hvec n V k) = 1 + (norm2 - d ^ 2) / (d + N) ^ 2 := by
    rw [← hT, tail2_fin]
    unfold nrm2
    have : ∀ i : Fin n, ‖hvec n V k i‖ ^ 2 = (if i.1 = k then 1 else 0) + (if k + 1 ≤ i.1 then ‖W i k‖ ^ 2 else 0) / (d + N) ^ 2 := by
      intro i
      unfold hvec
      by_cases h1 : i.1 < k
      · rw [if_pos h1, if_neg (by omega), if_neg (by omega)]; simp
      · rw [if_neg h1]
        by_cases h2 : i.1 = k
        · rw [if_pos h2, if_pos h2, if_neg (by omega)]; simp
        · rw [if_neg h2, if_neg h2, if_pos (by omega), hV i i.2 (by omega), norm_mul, norm_div, norm_star, hs, RCLike.norm_ofReal, mul_pow, div_pow, sq_abs]
          ring
    rw [Finset.sum_congr rfl fun i _ => this i, Finset.sum_add_distrib, ← Finset.sum_div]
    congr 1
    rw [Finset.sum_eq_single (⟨k, hn⟩ : Fin n)]
    · simp
    · intro b _ hb; rw [if_neg (fun e => hb (Fin.ext e))]
    · simp
  have hbn : beta * nrm2 (hvec n V k) = 2 := by
    rw [hnv, hb, ← hNN]
    field_simp
    ring
  refine ⟨by exact_mod_cast hbn, ?_⟩
  have hsum : ∑ l : Fin n, star (hvec n V k l) * col n (fun i j => if i = k then s * (d : 𝕜) else W i j) k l = s * (N : 𝕜) := by
    have h1 : ∀ l : Fin n, star (hvec n V k l) * col n (fun i j => if i = k then s * (d : 𝕜) else W i j) k l =
        (if l.1 = k then s * (d : 𝕜) else 0) + s / ((d + N : ℝ) : 𝕜) * ((if k + 1 ≤ l.1 then ‖W l k‖ ^ 2 else 0 : ℝ) : 𝕜) := by
      intro l
      unfold hvec col
      simp only
      by_cases h1 : l.1 < k
      · rw [if_pos h1, if_neg (show ¬ l.1 = k by omega), if_neg (show ¬ l.1 = k by omega), if_neg (by omega)]; simp
      · rw [if_neg h1]
        by_cases h2 : l.1 = k
        · rw [if_pos h2, if_pos h2, if_pos h2, if_neg (by omega)]; simp
        · rw [if_neg h2, if_neg h2, if_neg h2, if_pos (by omega), hV l l.2 (by omega), star_mul', star_div₀, star_star]
          have : star ((d + N : ℝ) : 𝕜) = ((d + N : ℝ) : 𝕜) := by rw [RCLike.star_def, RCLike.conj_ofReal]
          rw [this, zero_add]
          have h3 : star (W l k) * W l k = ((‖W l k‖ ^ 2 : ℝ) : 𝕜) := by rw [RCLike.star_def, RCLike.conj_mul]; push_cast; rfl
          rw [← h3]; ring
    rw [Finset.sum_congr rfl fun l _ => h1 l, Finset.sum_add_distrib, ← Finset.mul_sum]
    rw [Finset.sum_eq_single (⟨k, hn⟩ : Fin n), if_pos rfl]
    · have : ∑ i : Fin n, ((if k + 1 ≤ i.1 then ‖W i k‖ ^ 2 else 0 : ℝ) : 𝕜) = ((N * N - d ^ 2 : ℝ) : 𝕜) := by
        rw [hNN, ← hT, tail2_fin]; push_cast; rfl
      rw [this]
      have hx : ((d + N : ℝ) : 𝕜) = (d : 𝕜) + (N : 𝕜) := by push_cast; rfl
      rw [hx] at hdN' ⊢
      field_simp
      push_cast
      ring
    · intro b _ hb; rw [if_neg (fun e => hb (Fin.ext e))]
    · simp
  funext i
  rw [refl_mulVec, hsum, hb]
  have hN' : (N : 𝕜) ≠ 0 := by exact_mod_cast hNpos.ne'
  unfold hvec col
  simp only
  by_cases h1 : i.1 < k
  · rw [if_pos h1, if_pos h1, if_neg (by omega)]; simp
  · rw [if_neg h1, if_neg h1]
    by_cases h2 : i.1 = k
    · rw [if_pos h2, if_pos h2, if_pos h2]
      push_cast
      field_simp
      ring
    · rw [if_neg h2, if_neg h2, if_neg h2, hV i i.2 (by omega)]
      push_cast
      have hx : ((d + N : ℝ) : 𝕜) = (d : 𝕜) + (N : 𝕜) := by push_cast; rfl
      rw [hx] at hdN'
      field_simp
      rw [hss]; ring

/-- a step with a reflection -/
theorem QInv.house {c : Nat} {A : Nat → Nat → 𝕜} {err e : ℝ} {k : Nat} {W W' : Nat → Nat → 𝕜} {t t' : Nat → 𝕜} (h : QInv n c A err k W t)
    (hc : k < c) (hn : k < n) {sgn : 𝕜 → 𝕜} (hs : SignFn e sgn) (he : e ≤ err) {norm2 : ℝ} (hnorm : norm2 = tail2 n W k k) (hpos : 0 < norm2)
    (ht : ∀ l < k, t' l = t l)
    (htk : t' k = ((1 / (norm2 + ‖W k k‖ * √norm2) * ((‖W k k‖ + √norm2) * (‖W k k‖ + √norm2)) : ℝ) : 𝕜))
    (hW : ∀ j < k, ∀ i < n, W' i j = W i j) (hW1 : ∀ i < k, W' i k = W i k) (hW2 : W' k k = -sgn (W k k) * (√norm2 : 𝕜))
    (hV : ∀ i < n, k < i → W' i k = W i k * (star (sgn (W k k)) / ((‖W k k‖ + √norm2 : ℝ) : 𝕜)))
    (hj : ∀ j, k < j → j < c → col n W' j = reflector (hvec n W' k) (t' k) *ᵥ col n W j) : QInv n c A err (k + 1) W' t' := by
  obtain ⟨b1, b2⟩ := house_numbers (V := W') hn (hs.unit (W k k)) hnorm hpos rfl hV
  rw [← htk] at b1 b2
  have hst : star (t' k) = t' k := by rw [htk, RCLike.star_def, RCLike.conj_ofReal]
  have hu := refl_unitary hst (.inr b1)
  have hm := refl_mem hst (.inr b1)
  refine h.step hc hW ht hu hm ?_ hj
  have e1 : col n W k = col n (fun i j => if i = k then sgn (W k k) * (‖W k k‖ : 𝕜) else W i j) k + (W k k - sgn (W k k) * (‖W k k‖ : 𝕜)) • Pi.single ⟨k, hn⟩ 1 := by
    funext i
    rw [Pi.add_apply, Pi.smul_apply]
    unfold col
    simp only
    by_cases hi : i.1 = k
    · have : i = ⟨k, hn⟩ := Fin.ext hi
      subst this
      simp
    · rw [if_neg hi, Pi.single_eq_of_ne (fun e => hi (congrArg Fin.val e))]
      simp
  have e2 : (fun i : Fin n => if i.1 < k then W i k else if i.1 = k then -sgn (W k k) * (√norm2 : 𝕜) else 0) = upcol n W' k := by
    funext i
    rw [upcol_eq]
    by_cases h1 : i.1 < k
    · rw [if_pos h1, if_pos (by omega), hW1 i h1]
    · rw [if_neg h1]
      by_cases h2 : i.1 = k
      · rw [if_pos h2, if_pos (by omega), h2, hW2]
      · rw [if_neg h2, if_neg (by omega)]
  rw [e1, mulVec_add, b2, e2, add_sub_cancel_left, mulVec_smul, nrm2_smul, nrm2_mulVec hm]
  have e3 : nrm2 (Pi.single (⟨k, hn⟩ : Fin n) (1 : 𝕜)) = 1 := by
    unfold nrm2
    rw [Finset.sum_eq_single (⟨k, hn⟩ : Fin n)]
    · simp
    · intro b _ hb; rw [Pi.single_eq_of_ne hb]; simp
    · simp
  rw [e3, mul_one]
  exact (hs.near _).trans he

end H2.QR
