import Verif.Proof.Gmres
import Verif.Proof.QR5

/-! # GMRES: the invariant -/

set_option linter.unusedSectionVars false

namespace H2.Gm
open Spec Dense Matrix QR Krylov
variable {n : Nat}

/-- unit vector -/
def eu (j : Nat) : Nat → ℝ := fun i => if i = j then 1 else 0

/-- the product of the first `k + 1` reflections -/
noncomputable abbrev QQ (n : Nat) (W : Nat → Nat → ℝ) (t : Nat → ℝ) (k : Nat) : Matrix (Fin n) (Fin n) ℝ := qprod n W t (k + 1)

/-- the directions -/
noncomputable def qc (n : Nat) (W : Nat → Nat → ℝ) (t : Nat → ℝ) (j : Nat) : Fin n → ℝ := qprod n W t (j + 1) *ᵥ fv n (eu j)

/-- the numbers describing the rotations -/
def rhos (W : Nat → Nat → ℝ) : Nat → ℝ := fun i => W (i + 1) (i + 1)

/-- span of the first `k` vectors -/
def spn (w : Nat → Fin n → ℝ) (k : Nat) : Submodule ℝ (Fin n → ℝ) := Submodule.span ℝ (w '' {i | i < k})

/-- Krylov vectors -/
noncomputable def kv (M : Matrix (Fin n) (Fin n) ℝ) (r : Fin n → ℝ) : Nat → Fin n → ℝ
  | 0 => r
  | l + 1 => M *ᵥ kv M r l

/-- The data after `k` steps: `W` holds the reflections, the rotations and the triangular factor, `t` the scaling factors, `rh` the transformed residual;
`H` is the Hessenberg matrix (columns first), `β` the first entry of the transformed initial residual. -/
structure GInv (n : Nat) (M : Matrix (Fin n) (Fin n) ℝ) (r : Fin n → ℝ) (k : Nat) (W : Nat → Nat → ℝ) (t rh : Nat → ℝ) (H : Nat → Nat → ℝ) (β : ℝ) : Prop where
  lt : k < n
  unit : ∀ l ≤ k, reflector (hvec n W l) (t l) ∈ unitaryGroup (Fin n) ℝ
  hess : ∀ j < k, M *ᵥ qc n W t j = QQ n W t k *ᵥ fv n (H j)
  hsup : ∀ j < k, ∀ i, j + 1 < i → H j i = 0
  res : r = QQ n W t k *ᵥ fv n (β • eu 0)
  tri : ∀ j < k, ∀ i < n, rots (rhos W) k (H j) i = if i ≤ j then W i (j + 1) else 0
  rhat : ∀ i < n, rh i = rots (rhos W) k (β • eu 0) i
  diag : ∀ j < k, W j (j + 1) ≠ 0
  sub : ∀ j, j + 1 = k → rh k ≠ 0 → H j k ≠ 0
  span : spn (qc n W t) k = spn (kv M r) k

variable {M : Matrix (Fin n) (Fin n) ℝ} {r : Fin n → ℝ} {k : Nat} {W : Nat → Nat → ℝ} {t rh : Nat → ℝ} {H : Nat → Nat → ℝ} {β : ℝ}

theorem eu_single {j : Nat} (hj : j < n) : fv n (eu j) = Pi.single ⟨j, hj⟩ 1 := by
  funext i
  simp only [fv, eu, Pi.single_apply, Fin.ext_iff]

theorem qc_eq {j : Nat} (hj : j ≤ k) (hk : k < n) : qc n W t j = QQ n W t k *ᵥ fv n (eu j) := by
  unfold qc QQ
  rw [eu_single (show j < n by omega)]
  exact (qprod_unit (by omega) (by omega) (by omega)).symm

theorem GInv.unitary (h : GInv n M r k W t rh H β) : QQ n W t k ∈ unitaryGroup (Fin n) ℝ := qprod_mem fun l hl => h.unit l (by omega)

theorem GInv.rh_out (h : GInv n M r k W t rh H β) {i : Nat} (hi : i < n) (hk : k < i) : rh i = 0 := by
  rw [h.rhat i hi, rots_out _ _ hk]
  simp [eu, show i ≠ 0 by omega]

/-- a vector given by its coefficients -/
theorem mulVec_fv (W : Nat → Nat → ℝ) (t : Nat → ℝ) (hk : k < n) {p : Nat} (hp : p ≤ k + 1) {y : Nat → ℝ} (hy : ∀ i, p ≤ i → y i = 0) :
    QQ n W t k *ᵥ fv n y = ∑ i ∈ Finset.range p, y i • qc n W t i := by
  have e : fv n y = ∑ i ∈ Finset.range p, y i • fv n (eu i) := by
    funext l
    simp only [fv, eu, Finset.sum_apply, Pi.smul_apply, smul_eq_mul, mul_ite, mul_one, mul_zero]
    rw [Finset.sum_ite_eq]
    split_ifs with h
    · rfl
    · exact hy _ (by simpa using h)
  rw [e, mulVec_sum]
  refine Finset.sum_congr rfl fun i hi => ?_
  rw [mulVec_smul, qc_eq (by have := Finset.mem_range.mp hi; omega) hk]

theorem spn_mem {w : Nat → Fin n → ℝ} {k i : Nat} (hi : i < k) : w i ∈ spn w k := Submodule.subset_span ⟨i, hi, rfl⟩

theorem spn_le {w : Nat → Fin n → ℝ} {k : Nat} {S : Submodule ℝ (Fin n → ℝ)} (h : ∀ i < k, w i ∈ S) : spn w k ≤ S :=
  Submodule.span_le.mpr fun _ ⟨i, hi, e⟩ => e ▸ h i hi

theorem spn_mono {w : Nat → Fin n → ℝ} {k k' : Nat} (h : k ≤ k') : spn w k ≤ spn w k' := spn_le fun _ hi => spn_mem (by omega)

theorem spn_iff {w : Nat → Fin n → ℝ} {k : Nat} {v : Fin n → ℝ} : v ∈ spn w k ↔ ∃ c : Nat → ℝ, v = ∑ i ∈ Finset.range k, c i • w i := by
  constructor
  · intro h
    have : spn w k ≤ { carrier := {v | ∃ c : Nat → ℝ, v = ∑ i ∈ Finset.range k, c i • w i}
                       add_mem' := by
                         rintro _ _ ⟨c, rfl⟩ ⟨d, rfl⟩
                         exact ⟨fun i => c i + d i, by simp only [add_smul, Finset.sum_add_distrib]⟩
                       zero_mem' := ⟨0, by simp⟩
                       smul_mem' := by
                         rintro a _ ⟨c, rfl⟩
                         exact ⟨fun i => a * c i, by simp only [Finset.smul_sum, smul_smul]⟩ } := by
      refine spn_le fun i hi => ⟨fun j => if j = i then 1 else 0, ?_⟩
      simp [ite_smul, Finset.sum_ite_eq, hi]
    exact this h
  · rintro ⟨c, rfl⟩
    exact Submodule.sum_mem _ fun i hi => Submodule.smul_mem _ _ (spn_mem (Finset.mem_range.mp hi))

theorem mulVec_spn {w : Nat → Fin n → ℝ} {k : Nat} {S : Submodule ℝ (Fin n → ℝ)} (h : ∀ i < k, M *ᵥ w i ∈ S) {v : Fin n → ℝ} (hv : v ∈ spn w k) : M *ᵥ v ∈ S := by
  obtain ⟨c, rfl⟩ := spn_iff.mp hv
  rw [mulVec_sum]
  refine Submodule.sum_mem _ fun i hi => ?_
  rw [mulVec_smul]
  exact Submodule.smul_mem _ _ (h i (Finset.mem_range.mp hi))

theorem GInv.hess_sum (h : GInv n M r k W t rh H β) {j : Nat} (hj : j < k) : M *ᵥ qc n W t j = ∑ i ∈ Finset.range (j + 2), H j i • qc n W t i := by
  rw [h.hess j hj, mulVec_fv W t h.lt (p := j + 2) (by omega) (fun i hi => h.hsup j hj i (by omega))]

theorem GInv.res_sum (h : GInv n M r k W t rh H β) : r = β • qc n W t 0 := by
  have := mulVec_fv (k := k) W t h.lt (p := 1) (by omega) (y := β • eu 0) (fun i hi => by simp [eu, show i ≠ 0 by omega])
  rw [← h.res] at this
  rw [this]; simp [eu]

theorem GInv.beta (h : GInv n M r k W t rh H β) (h0 : rh k ≠ 0) : β ≠ 0 := by
  rintro rfl
  apply h0
  rw [h.rhat k h.lt, zero_smul, map_zero]; rfl

/-- one more direction -/
theorem GInv.span_succ (h : GInv n M r k W t rh H β) (h0 : rh k ≠ 0) : spn (qc n W t) (k + 1) = spn (kv M r) (k + 1) := by
  apply le_antisymm
  · refine spn_le fun i hi => ?_
    by_cases e : i < k
    · exact spn_mono (by omega) (h.span ▸ spn_mem e)
    obtain rfl : i = k := by omega
    cases i with
    | zero =>
      have hb := h.beta h0
      have e : qc n W t 0 = β⁻¹ • kv M r 0 := by
        show _ = β⁻¹ • r
        rw [h.res_sum, smul_smul, inv_mul_cancel₀ hb, one_smul]
      rw [e]
      exact Submodule.smul_mem _ _ (spn_mem (by omega))
    | succ j =>
      have hs := h.sub j rfl h0
      have e := h.hess_sum (show j < j + 1 by omega)
      rw [Finset.sum_range_succ] at e
      have e' : qc n W t (j + 1) = (H j (j + 1))⁻¹ • (M *ᵥ qc n W t j - ∑ i ∈ Finset.range (j + 1), H j i • qc n W t i) := by
        rw [e, add_sub_cancel_left, smul_smul, inv_mul_cancel₀ hs, one_smul]
      rw [e']
      refine Submodule.smul_mem _ _ (Submodule.sub_mem _ ?_ ?_)
      · refine mulVec_spn (w := kv M r) (k := j + 1) (fun i hi => ?_) (h.span ▸ spn_mem (by omega))
        exact spn_mem (w := kv M r) (i := i + 1) (by omega)
      · refine spn_mono (k := j + 1) (by omega) ?_
        rw [← h.span]
        exact Submodule.sum_mem _ fun i hi => Submodule.smul_mem _ _ (spn_mem (Finset.mem_range.mp hi))
  · refine spn_le fun i hi => ?_
    by_cases e : i < k
    · exact spn_mono (show k ≤ k + 1 by omega) (h.span ▸ spn_mem e)
    obtain rfl : i = k := by omega
    cases i with
    | zero => show r ∈ _; rw [h.res_sum]; exact Submodule.smul_mem _ _ (spn_mem (by omega))
    | succ j =>
      show M *ᵥ kv M r j ∈ _
      refine mulVec_spn (w := qc n W t) (k := j + 1) (fun i hi => ?_) (by rw [h.span]; exact spn_mem (by omega))
      rw [h.hess_sum hi]
      exact Submodule.sum_mem _ fun l hl => Submodule.smul_mem _ _ (spn_mem (by have := Finset.mem_range.mp hl; omega))

/-- squared residuals in the space spanned by the first `k` vectors -/
def resSet (M : Matrix (Fin n) (Fin n) ℝ) (r : Fin n → ℝ) (w : Nat → Fin n → ℝ) (k : Nat) : Set ℝ := {s | ∃ v ∈ spn w k, nrm2 (r - M *ᵥ v) = s}

/-- the residual of a vector given by its coefficients -/
theorem GInv.formula (h : GInv n M r k W t rh H β) (c : Nat → ℝ) :
    nrm2 (r - M *ᵥ ∑ j ∈ Finset.range k, c j • qc n W t j) = ∑ i ∈ Finset.range n, (rh i - ∑ j ∈ Finset.range k, c j * if i ≤ j then W i (j + 1) else 0) ^ 2 := by
  rw [res_formula h.unitary (rhos W) h.lt h.hess h.res c]
  refine Finset.sum_congr rfl fun i hi => ?_
  have hi := Finset.mem_range.mp hi
  rw [← h.rhat i hi]
  congr 2
  exact Finset.sum_congr rfl fun j hj => by rw [h.tri j (Finset.mem_range.mp hj) i hi]

/-- the solution of the triangular system yields the residual `rh k` -/
theorem GInv.solved (h : GInv n M r k W t rh H β) {c : Nat → ℝ} (hc : ∀ i < k, ∑ j ∈ Finset.range k, c j * (if i ≤ j then W i (j + 1) else 0) = rh i) :
    nrm2 (r - M *ᵥ ∑ j ∈ Finset.range k, c j • qc n W t j) = rh k ^ 2 := by
  rw [h.formula, Finset.sum_eq_single k]
  · rw [Finset.sum_eq_zero fun j hj => by rw [if_neg (by have := Finset.mem_range.mp hj; omega), mul_zero], sub_zero]
  · intro i hi hik
    have hi := Finset.mem_range.mp hi
    by_cases e : i < k
    · rw [hc i e, sub_self]; norm_num
    · rw [h.rh_out hi (by omega), Finset.sum_eq_zero fun j hj => by rw [if_neg (by have := Finset.mem_range.mp hj; omega), mul_zero]]; norm_num
  · intro hk
    exact absurd (Finset.mem_range.mpr h.lt) hk

/-- the entry `rh k` is the minimal residual -/
theorem GInv.least (h : GInv n M r k W t rh H β) : IsLeast (resSet M r (kv M r) k) (rh k ^ 2) := by
  constructor
  · obtain ⟨c, hc⟩ := tri_exists (fun i j => W i (j + 1)) k h.diag rh
    refine ⟨_, ?_, h.solved hc⟩
    rw [← h.span]
    exact spn_iff.mpr ⟨c, rfl⟩
  · rintro s ⟨v, hv, rfl⟩
    rw [← h.span] at hv
    obtain ⟨c, rfl⟩ := spn_iff.mp hv
    rw [h.formula]
    refine le_trans (le_of_eq ?_) (Finset.single_le_sum (fun i _ => sq_nonneg _) (Finset.mem_range.mpr h.lt))
    rw [Finset.sum_eq_zero fun j hj => by rw [if_neg (by have := Finset.mem_range.mp hj; omega), mul_zero], sub_zero]

/-- the residuals in the next step -/
theorem GInv.form_next (h : GInv n M r k W t rh H β) {Q' : Matrix (Fin n) (Fin n) ℝ} (hQ' : Q' ∈ unitaryGroup (Fin n) ℝ)
    (hfix : ∀ y : Nat → ℝ, (∀ i, k < i → y i = 0) → Q' *ᵥ fv n y = QQ n W t k *ᵥ fv n y)
    {u : Nat → ℝ} (hu : M *ᵥ qc n W t k = Q' *ᵥ fv n u) (c : Nat → ℝ) : nrm2 (r - M *ᵥ ∑ j ∈ Finset.range (k + 1), c j • qc n W t j) =
      ∑ i ∈ Finset.range n, (rh i - (∑ j ∈ Finset.range k, c j * (if i ≤ j then W i (j + 1) else 0) + c k * rots (rhos W) k u i)) ^ 2 := by
  obtain ⟨H', hH'⟩ : ∃ H' : Nat → Nat → ℝ, H' = fun j => if j = k then u else H j := ⟨_, rfl⟩
  have hHk : H' k = u := by rw [hH']; exact if_pos rfl
  have hHj : ∀ j, j ≠ k → H' j = H j := fun j hj => by rw [hH']; exact if_neg hj
  clear hH'
  have hM : ∀ j < k + 1, M *ᵥ qc n W t j = Q' *ᵥ fv n (H' j) := fun j hj => by
    by_cases e : j = k
    · subst e; rw [hHk, hu]
    · rw [hHj j e, h.hess j (by omega), hfix _ fun i hi => h.hsup j (by omega) i (by omega)]
  have hr : r = Q' *ᵥ fv n (β • eu 0) := by
    rw [hfix _ fun i hi => by simp [eu, show i ≠ 0 by omega]]; exact h.res
  rw [res_formula hQ' (rhos W) h.lt hM hr c]
  refine Finset.sum_congr rfl fun i hi => ?_
  have hi := Finset.mem_range.mp hi
  rw [← h.rhat i hi, Finset.sum_range_succ]
  congr 3
  · refine Finset.sum_congr rfl fun j hj => ?_
    have hj := Finset.mem_range.mp hj
    rw [← h.tri j hj i hi, hHj j (by omega)]
  · rw [hHk]

/-- The minimal residual of the next step. -/
theorem GInv.next (h : GInv n M r k W t rh H β) (hk : k + 1 < n) (h0 : rh k ≠ 0) {Q' : Matrix (Fin n) (Fin n) ℝ} (hQ' : Q' ∈ unitaryGroup (Fin n) ℝ)
    (hfix : ∀ y : Nat → ℝ, (∀ i, k < i → y i = 0) → Q' *ᵥ fv n y = QQ n W t k *ᵥ fv n y)
    {u : Nat → ℝ} (hu : M *ᵥ qc n W t k = Q' *ᵥ fv n u) (hu0 : ∀ i, k + 1 < i → u i = 0) :
    (∀ v ∈ spn (kv M r) (k + 1), rots (rhos W) k u k = 0 → rh k ^ 2 ≤ nrm2 (r - M *ᵥ v)) ∧
    (rots (rhos W) k u k ≠ 0 → IsLeast (resSet M r (kv M r) (k + 1)) (rh k ^ 2 * u (k + 1) ^ 2 / (rots (rhos W) k u k ^ 2 + u (k + 1) ^ 2))) := by
  obtain ⟨a, ha⟩ : ∃ a, a = rots (rhos W) k u k := ⟨_, rfl⟩
  obtain ⟨b, hb⟩ : ∃ b, b = u (k + 1) := ⟨_, rfl⟩
  have hub : rots (rhos W) k u (k + 1) = b := by rw [rots_out _ _ (by omega), hb]
  rw [← ha, ← hb]
  have form := h.form_next hQ' hfix hu
  have z1 : ∀ c : Nat → ℝ, ∀ i, k ≤ i → ∑ j ∈ Finset.range k, c j * (if i ≤ j then W i (j + 1) else 0) = 0 := fun c i hi =>
    Finset.sum_eq_zero fun j hj => by rw [if_neg (by have := Finset.mem_range.mp hj; omega), mul_zero]
  have low : ∀ c : Nat → ℝ, (rh k - c k * a) ^ 2 + (c k * b) ^ 2 ≤ nrm2 (r - M *ᵥ ∑ j ∈ Finset.range (k + 1), c j • qc n W t j) := fun c => by
    rw [form c]
    have hsub : ({k, k + 1} : Finset ℕ) ⊆ Finset.range n := by
      intro i hi
      simp only [Finset.mem_insert, Finset.mem_singleton] at hi
      rw [Finset.mem_range]; omega
    refine le_trans (le_of_eq ?_) (Finset.sum_le_sum_of_subset_of_nonneg hsub fun _ _ _ => sq_nonneg _)
    rw [Finset.sum_pair (by omega), z1 c k le_rfl, z1 c (k + 1) (by omega), h.rh_out hk (by omega), hub, ← ha]
    ring
  have hspan := h.span_succ h0
  refine ⟨fun v hv ha0 => ?_, fun ha0 => ⟨?_, ?_⟩⟩
  · rw [← hspan] at hv
    obtain ⟨c, rfl⟩ := spn_iff.mp hv
    refine le_trans ?_ (low c)
    rw [ha0, mul_zero, sub_zero]
    nlinarith [sq_nonneg (c k * b)]
  · have hp : a ^ 2 + b ^ 2 ≠ 0 := by positivity
    obtain ⟨c, hc⟩ := tri_exists (fun i j => W i (j + 1)) k h.diag fun i => rh i - rh k * a / (a ^ 2 + b ^ 2) * rots (rhos W) k u i
    refine ⟨∑ j ∈ Finset.range (k + 1), (fun j => if j = k then rh k * a / (a ^ 2 + b ^ 2) else c j) j • qc n W t j, ?_, ?_⟩
    · rw [← hspan]; exact spn_iff.mpr ⟨_, rfl⟩
    · rw [form]
      have e : ∀ i, ∑ j ∈ Finset.range k, (fun j => if j = k then rh k * a / (a ^ 2 + b ^ 2) else c j) j * (if i ≤ j then W i (j + 1) else 0) =
          ∑ j ∈ Finset.range k, c j * (if i ≤ j then W i (j + 1) else 0) := fun i =>
        Finset.sum_congr rfl fun j hj => by
          beta_reduce
          rw [if_neg (show j ≠ k by have := Finset.mem_range.mp hj; omega)]
      simp only [e, if_true]
      have hsub : ({k, k + 1} : Finset ℕ) ⊆ Finset.range n := by
        intro i hi
        simp only [Finset.mem_insert, Finset.mem_singleton] at hi
        rw [Finset.mem_range]; omega
      rw [← Finset.sum_subset hsub]
      · rw [Finset.sum_pair (by omega), z1 c k le_rfl, z1 c (k + 1) (by omega), h.rh_out hk (by omega), hub, ← ha]
        field_simp
        ring
      · intro i hi hi2
        have hi := Finset.mem_range.mp hi
        simp only [Finset.mem_insert, Finset.mem_singleton, not_or] at hi2
        by_cases e1 : i < k
        · rw [hc i e1]; ring
        · rw [h.rh_out hi (by omega), z1 c i (by omega), rots_out _ _ (by omega), hu0 i (by omega)]; ring
  · rintro s ⟨v, hv, rfl⟩
    rw [← hspan] at hv
    obtain ⟨c, rfl⟩ := spn_iff.mp hv
    refine le_trans ?_ (low c)
    have hp : 0 < a ^ 2 + b ^ 2 := by positivity
    rw [div_le_iff₀ hp]
    nlinarith [sq_nonneg (rh k * a - c k * (a ^ 2 + b ^ 2))]

end H2.Gm
