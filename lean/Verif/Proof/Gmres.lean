import Verif.Spec.Gmres
import Verif.Proof.QR6
import Mathlib.LinearAlgebra.Span.Basic

/-! # GMRES: rotations and the minimal residual -/

set_option linter.unusedSectionVars false

namespace H2.Gm
open Spec Dense Matrix QR Krylov
variable {n : Nat}

/-- rotation of the entries `i` and `i + 1` -/
def rot (i : Nat) (c s : ℝ) : (Nat → ℝ) →ₗ[ℝ] (Nat → ℝ) where
  toFun y := fun l => if l = i then c * y i + s * y (i + 1) else if l = i + 1 then c * y (i + 1) - s * y i else y l
  map_add' u v := by funext l; simp only [Pi.add_apply]; split_ifs <;> ring
  map_smul' a u := by funext l; simp only [Pi.smul_apply, smul_eq_mul, RingHom.id_apply]; split_ifs <;> ring

theorem rot_apply (i : Nat) (c s : ℝ) (y : Nat → ℝ) (l : Nat) :
    rot i c s y l = if l = i then c * y i + s * y (i + 1) else if l = i + 1 then c * y (i + 1) - s * y i else y l := rfl

/-- the first `k` rotations given by the numbers `ρ` -/
noncomputable def rots (ρ : Nat → ℝ) : Nat → (Nat → ℝ) →ₗ[ℝ] (Nat → ℝ)
  | 0 => LinearMap.id
  | k + 1 => (rot k (givensCS (ρ k)).1 (givensCS (ρ k)).2).comp (rots ρ k)

theorem rots_succ (ρ : Nat → ℝ) (k : Nat) (y : Nat → ℝ) : rots ρ (k + 1) y = rot k (givensCS (ρ k)).1 (givensCS (ρ k)).2 (rots ρ k y) := rfl

theorem givens_unit (rho : ℝ) : (givensCS rho).1 ^ 2 + (givensCS rho).2 ^ 2 = 1 := by
  unfold givensCS
  split_ifs with h1 h2
  · simp only [RCLike.ofReal_real_eq_id, id]
    rw [Real.sq_sqrt (by linarith), Real.norm_eq_abs, sq_abs]; ring
  · simp only [RCLike.ofReal_real_eq_id, id]
    have : ‖1 / rho‖ ^ 2 ≤ 1 := by
      rw [norm_div, norm_one, div_pow, one_pow, div_le_one (by linarith)]; exact h2.le
    rw [Real.sq_sqrt (by linarith), Real.norm_eq_abs, sq_abs]; ring
  · norm_num

theorem rot_sum {i : Nat} (hi : i + 1 < n) {c s : ℝ} (h : c ^ 2 + s ^ 2 = 1) (y : Nat → ℝ) :
    ∑ l ∈ Finset.range n, rot i c s y l ^ 2 = ∑ l ∈ Finset.range n, y l ^ 2 := by
  have key : ∀ f : Nat → ℝ, ∑ l ∈ Finset.range n, f l = f i + (f (i + 1) + ∑ l ∈ ((Finset.range n).erase i).erase (i + 1), f l) := fun f => by
    rw [Finset.add_sum_erase _ _ (by simp; omega), Finset.add_sum_erase _ _ (by simp; omega)]
  rw [key, key (fun l => y l ^ 2)]
  have e : ∑ l ∈ ((Finset.range n).erase i).erase (i + 1), rot i c s y l ^ 2 = ∑ l ∈ ((Finset.range n).erase i).erase (i + 1), y l ^ 2 := by
    refine Finset.sum_congr rfl fun l hl => ?_
    simp only [Finset.mem_erase] at hl
    rw [rot_apply, if_neg hl.2.1, if_neg hl.1]
  rw [e, rot_apply, rot_apply, if_pos rfl, if_neg (by omega), if_pos rfl]
  linear_combination (y i ^ 2 + y (i + 1) ^ 2) * h

theorem rots_sum (ρ : Nat → ℝ) {k : Nat} (hk : k < n) (y : Nat → ℝ) :
    ∑ l ∈ Finset.range n, rots ρ k y l ^ 2 = ∑ l ∈ Finset.range n, y l ^ 2 := by
  induction k with
  | zero => rfl
  | succ k ih => rw [rots_succ, rot_sum hk (givens_unit _), ih (by omega)]

theorem rots_out (ρ : Nat → ℝ) {k : Nat} (y : Nat → ℝ) {l : Nat} (hl : k < l) : rots ρ k y l = y l := by
  induction k with
  | zero => rfl
  | succ k ih => rw [rots_succ, rot_apply, if_neg (by omega), if_neg (by omega), ih (by omega)]

theorem rots_ρ {ρ ρ' : Nat → ℝ} {k : Nat} (h : ∀ i < k, ρ i = ρ' i) : rots ρ k = rots ρ' k := by
  induction k with
  | zero => rfl
  | succ k ih => rw [rots, rots, ih fun i hi => h i (by omega), h k (by omega)]

theorem rots_congr (ρ : Nat → ℝ) {k p : Nat} (hk : k ≤ p) {y y' : Nat → ℝ} (h : ∀ l ≤ p, y l = y' l) : ∀ l ≤ p, rots ρ k y l = rots ρ k y' l := by
  induction k with
  | zero => exact h
  | succ k ih =>
    intro l hl
    have ih := ih (by omega)
    rw [rots_succ, rots_succ, rot_apply, rot_apply, ih k (by omega), ih (k + 1) (by omega), ih l hl]

/-- the rotation for `(a, b)` -/
theorem findGivens_ok {a b : ℝ} (ha : a ≠ 0) (hab : a ^ 2 ≠ b ^ 2) :
    ∃ rho, findGivens a b = .ok ((givensCS rho).1, (givensCS rho).2, rho) ∧ (givensCS rho).1 * b - (givensCS rho).2 * a = 0 := by
  have e : ∀ x : ℝ, ‖x‖ ^ 2 = x ^ 2 := fun x => by rw [Real.norm_eq_abs, sq_abs]
  unfold findGivens
  simp only [e, RCLike.ofReal_real_eq_id, id]
  by_cases h1 : b ^ 2 < a ^ 2
  · rw [if_pos h1, cdiv_ok' ha]
    obtain ⟨t, ht⟩ : ∃ t, t = b / a := ⟨_, rfl⟩
    have htb : b = t * a := by rw [ht]; field_simp
    rw [← ht]
    have hp : 0 < t ^ 2 + 1 := by positivity
    have h0 : (1 / √(t ^ 2 + 1)) ^ 2 = 1 / (t ^ 2 + 1) := by rw [div_pow, one_pow, Real.sq_sqrt hp.le]
    have ht1 : (t * (1 / √(t ^ 2 + 1))) ^ 2 = t ^ 2 / (t ^ 2 + 1) := by rw [mul_pow, h0]; ring
    have hs : (t * (1 / √(t ^ 2 + 1))) ^ 2 < 1 := by rw [ht1, div_lt_one hp]; linarith
    have hc : √(1 - (t * (1 / √(t ^ 2 + 1))) ^ 2) = 1 / √(t ^ 2 + 1) := by
      rw [ht1, show 1 - t ^ 2 / (t ^ 2 + 1) = (1 / √(t ^ 2 + 1)) ^ 2 by rw [h0]; field_simp; ring]
      exact Real.sqrt_sq (by positivity)
    have hg : givensCS (t * (1 / √(t ^ 2 + 1))) = (1 / √(t ^ 2 + 1), t * (1 / √(t ^ 2 + 1))) := by
      unfold givensCS
      simp only [e, RCLike.ofReal_real_eq_id, id]
      rw [if_pos hs, hc]
    refine ⟨t * (1 / √(t ^ 2 + 1)), by rw [hg]; rfl, ?_⟩
    rw [hg, htb]; ring
  · rw [if_neg h1]
    have h2 : a ^ 2 < b ^ 2 := lt_of_le_of_ne (not_lt.mp h1) hab
    have hb : b ≠ 0 := by rintro rfl; nlinarith [sq_nonneg a]
    rw [if_pos h2, cdiv_ok' hb]
    obtain ⟨t, ht⟩ : ∃ t, t = a / b := ⟨_, rfl⟩
    have hta : a = t * b := by rw [ht]; field_simp
    have ht0 : t ≠ 0 := by rw [ht]; exact div_ne_zero ha hb
    rw [← ht]
    have hp : 0 < t ^ 2 + 1 := by positivity
    have hsp : 0 < 1 / √(t ^ 2 + 1) := by positivity
    have h0 : (1 / √(t ^ 2 + 1)) ^ 2 = 1 / (t ^ 2 + 1) := by rw [div_pow, one_pow, Real.sq_sqrt hp.le]
    have ht1 : (t * (1 / √(t ^ 2 + 1))) ^ 2 = t ^ 2 / (t ^ 2 + 1) := by rw [mul_pow, h0]; ring
    have hc0 : t * (1 / √(t ^ 2 + 1)) ≠ 0 := mul_ne_zero ht0 hsp.ne'
    obtain ⟨c, hc⟩ : ∃ c, c = t * (1 / √(t ^ 2 + 1)) := ⟨_, rfl⟩
    obtain ⟨s, hs⟩ : ∃ s, s = 1 / √(t ^ 2 + 1) := ⟨_, rfl⟩
    have hc1 : c ^ 2 < 1 := by rw [hc, ht1, div_lt_one hp]; linarith
    have hss : √(1 - c ^ 2) = s := by
      rw [hc, ht1, show 1 - t ^ 2 / (t ^ 2 + 1) = s ^ 2 by rw [hs, h0]; field_simp; ring]
      exact Real.sqrt_sq (hs ▸ hsp.le)
    have hcn : c ≠ 0 := hc ▸ hc0
    have hr : 1 < (1 / c) ^ 2 := by
      rw [div_pow, one_pow, lt_div_iff₀ (by positivity)]; linarith
    have hg : givensCS (1 / c) = (c, s) := by
      unfold givensCS
      simp only [e, RCLike.ofReal_real_eq_id, id]
      rw [if_neg (by linarith), if_pos hr, one_div_one_div, hss]
    refine ⟨1 / c, ?_, ?_⟩
    · rw [hg]
      show (cdiv 1 (t * (1 / √(t ^ 2 + 1))) >>= fun rho => pure (t * (1 / √(t ^ 2 + 1)), 1 / √(t ^ 2 + 1), rho)) = _
      rw [← hc, cdiv_ok' hcn, ← hs]; rfl
    · rw [hg, hc, hs, hta]; ring
where
  cdiv_ok' {x y : ℝ} (h : y ≠ 0) : cdiv x y = .ok (x / y) := by unfold cdiv; rw [if_neg h]

/-- equal moduli: no rotation -/
theorem findGivens_tie {a b : ℝ} (hab : a ^ 2 = b ^ 2) : findGivens a b = .ok (1, 0, 1) ∧ givensCS (1 : ℝ) = (1, 0) := by
  have e : ∀ x : ℝ, ‖x‖ ^ 2 = x ^ 2 := fun x => by rw [Real.norm_eq_abs, sq_abs]
  constructor
  · unfold findGivens
    simp only [e]
    rw [if_neg (by linarith), if_neg (by linarith)]; rfl
  · unfold givensCS
    simp

/-- triangular systems can be solved -/
theorem tri_exists (R : Nat → Nat → ℝ) (k : Nat) (h : ∀ j < k, R j j ≠ 0) : ∀ d : Nat → ℝ, ∃ c : Nat → ℝ, ∀ i < k, ∑ j ∈ Finset.range k, c j * (if i ≤ j then R i j else 0) = d i := by
  induction k with
  | zero => exact fun d => ⟨0, fun i hi => by omega⟩
  | succ k ih =>
    intro d
    obtain ⟨c, hc⟩ := ih (fun j hj => h j (by omega)) fun i => d i - d k / R k k * R i k
    refine ⟨fun j => if j = k then d k / R k k else c j, fun i hi => ?_⟩
    rw [Finset.sum_range_succ]
    beta_reduce
    rw [if_pos rfl, if_pos (by omega)]
    by_cases e : i = k
    · subst e
      rw [Finset.sum_eq_zero fun j hj => ?_, zero_add]
      · have := h i (by omega); field_simp
      · have := Finset.mem_range.mp hj
        rw [if_neg (by omega : ¬ i ≤ j), mul_zero]
    · rw [Finset.sum_congr rfl fun j hj => by rw [if_neg (show j ≠ k by have := Finset.mem_range.mp hj; omega)], hc i (by omega)]
      ring

/-- the first `n` entries -/
def fv (n : Nat) (y : Nat → ℝ) : Fin n → ℝ := fun i => y i

theorem nrm2_fv (y : Nat → ℝ) : nrm2 (fv n y) = ∑ i ∈ Finset.range n, y i ^ 2 := by
  unfold nrm2 fv
  rw [← Fin.sum_univ_eq_sum_range (fun i => y i ^ 2)]
  exact Finset.sum_congr rfl fun i _ => by rw [Real.norm_eq_abs, sq_abs]

/-- the residual in terms of the coefficients -/
theorem res_formula {M Q : Matrix (Fin n) (Fin n) ℝ} (hQ : Q ∈ unitaryGroup (Fin n) ℝ) (ρ : Nat → ℝ) {k : Nat} (hk : k < n) {p : Nat} {r : Fin n → ℝ}
    {qc : Nat → Fin n → ℝ} {H : Nat → Nat → ℝ} {z : Nat → ℝ} (hM : ∀ j < p, M *ᵥ qc j = Q *ᵥ fv n (H j)) (hr : r = Q *ᵥ fv n z) (c : Nat → ℝ) :
    nrm2 (r - M *ᵥ ∑ j ∈ Finset.range p, c j • qc j) = ∑ i ∈ Finset.range n, (rots ρ k z i - ∑ j ∈ Finset.range p, c j * rots ρ k (H j) i) ^ 2 := by
  have e : r - M *ᵥ ∑ j ∈ Finset.range p, c j • qc j = Q *ᵥ fv n (z - ∑ j ∈ Finset.range p, c j • H j) := by
    have e1 : fv n (z - ∑ j ∈ Finset.range p, c j • H j) = fv n z - ∑ j ∈ Finset.range p, c j • fv n (H j) := by
      funext i; simp [fv, Finset.sum_apply]
    rw [e1, hr, mulVec_sub, mulVec_sum, mulVec_sum]
    congr 1
    refine Finset.sum_congr rfl fun j hj => ?_
    rw [mulVec_smul, mulVec_smul, hM j (Finset.mem_range.mp hj)]
  rw [e, nrm2_mulVec hQ, nrm2_fv, ← rots_sum ρ hk]
  refine Finset.sum_congr rfl fun i _ => ?_
  rw [map_sub, map_sum, Pi.sub_apply, Finset.sum_apply]
  congr 2
  refine Finset.sum_congr rfl fun j _ => ?_
  rw [map_smul]; rfl

end H2.Gm
