import Verif.Proof.Gmres2

/-! # GMRES: one step -/

set_option linter.unusedSectionVars false

namespace H2.Gm
open Spec Dense Matrix QR Krylov
variable {n : Nat} {M : Matrix (Fin n) (Fin n) ℝ} {r : Fin n → ℝ} {k : Nat} {W W' : Nat → Nat → ℝ} {t t' rh rh' : Nat → ℝ} {H : Nat → Nat → ℝ} {β : ℝ} {u : Nat → ℝ}

/-- What a step does before the rotations: `u` is the new column of the Hessenberg matrix. -/
structure Extends (n : Nat) (M : Matrix (Fin n) (Fin n) ℝ) (k : Nat) (W W' : Nat → Nat → ℝ) (t t' : Nat → ℝ) (u : Nat → ℝ) : Prop where
  lt : k + 1 < n
  old : ∀ j ≤ k, ∀ i < n, W' i j = W i j
  tau : ∀ l ≤ k, t' l = t l
  unit : reflector (hvec n W' (k + 1)) (t' (k + 1)) ∈ unitaryGroup (Fin n) ℝ
  new : (QQ n W t k)ᴴ *ᵥ (M *ᵥ qc n W t k) = reflector (hvec n W' (k + 1)) (t' (k + 1)) *ᵥ fv n u
  sup : ∀ i, k + 1 < i → u i = 0

theorem Extends.qq (h : Extends n M k W W' t t' u) : QQ n W' t' (k + 1) = QQ n W t k * reflector (hvec n W' (k + 1)) (t' (k + 1)) := by
  show qprod n W' t' (k + 1 + 1) = _
  rw [qprod]
  congr 1
  exact qprod_congr (fun l hl i hi _ => h.old l (by omega) i hi) fun l hl => h.tau l (by omega)

theorem Extends.qc (h : Extends n M k W W' t t' u) {j : Nat} (hj : j ≤ k) : Gm.qc n W' t' j = Gm.qc n W t j := by
  unfold Gm.qc
  rw [qprod_congr (fun l hl i hi _ => h.old l (by omega) i hi) fun l hl => h.tau l (by omega)]

theorem Extends.fix (h : Extends n M k W W' t t' u) (y : Nat → ℝ) (hy : ∀ i, k < i → y i = 0) : QQ n W' t' (k + 1) *ᵥ fv n y = QQ n W t k *ᵥ fv n y := by
  rw [h.qq, ← mulVec_mulVec, refl_fix (x := fv n y) fun i hi => hy i (by omega)]

theorem Extends.unitary (h : Extends n M k W W' t t' u) (h' : GInv n M r k W t rh H β) : QQ n W' t' (k + 1) ∈ unitaryGroup (Fin n) ℝ := by
  rw [h.qq]; exact mul_mem h'.unitary h.unit

theorem Extends.hess (h : Extends n M k W W' t t' u) (h' : GInv n M r k W t rh H β) : M *ᵥ Gm.qc n W t k = QQ n W' t' (k + 1) *ᵥ fv n u := by
  rw [h.qq, ← mulVec_mulVec, ← h.new, mulVec_mulVec, ← star_eq_conjTranspose, mem_unitaryGroup_iff.mp h'.unitary, one_mulVec]

/-- the minimal residual of the next step -/
theorem Extends.next (h : Extends n M k W W' t t' u) (h' : GInv n M r k W t rh H β) (h0 : rh k ≠ 0) :
    (∀ v ∈ spn (kv M r) (k + 1), rots (rhos W) k u k = 0 → rh k ^ 2 ≤ nrm2 (r - M *ᵥ v)) ∧
    (rots (rhos W) k u k ≠ 0 → IsLeast (resSet M r (kv M r) (k + 1)) (rh k ^ 2 * u (k + 1) ^ 2 / (rots (rhos W) k u k ^ 2 + u (k + 1) ^ 2))) :=
  h'.next h.lt h0 (h.unitary h') h.fix (h.hess h') h.sup

/-- the step with a rotation -/
theorem Extends.step (h : Extends n M k W W' t t' u) (h' : GInv n M r k W t rh H β) (h0 : rh k ≠ 0)
    (ha : rots (rhos W) k u k ≠ 0) (hz : (givensCS (W' (k + 1) (k + 1))).1 * u (k + 1) - (givensCS (W' (k + 1) (k + 1))).2 * rots (rhos W) k u k = 0)
    (hW : ∀ i ≤ k, W' i (k + 1) = rots (rhos W') (k + 1) u i)
    (hrh : ∀ i < n, rh' i = rot k (givensCS (W' (k + 1) (k + 1))).1 (givensCS (W' (k + 1) (k + 1))).2 rh i)
    {H' : Nat → Nat → ℝ} (hHk : H' k = u) (hHj : ∀ j, j ≠ k → H' j = H j) : GInv n M r (k + 1) W' t' rh' H' β := by
  obtain ⟨c, hc⟩ : ∃ c, c = (givensCS (W' (k + 1) (k + 1))).1 := ⟨_, rfl⟩
  obtain ⟨s, hs⟩ : ∃ s, s = (givensCS (W' (k + 1) (k + 1))).2 := ⟨_, rfl⟩
  have hu := givens_unit (W' (k + 1) (k + 1))
  have hρ : rots (rhos W') k = rots (rhos W) k := rots_ρ fun i hi => h.old (i + 1) (by omega) (i + 1) (by have := h.lt; omega)
  have hrs : ∀ y, rots (rhos W') (k + 1) y = rot k c s (rots (rhos W) k y) := fun y => by
    rw [rots_succ, hρ, hc, hs]; rfl
  rw [← hc, ← hs] at hz hu
  rw [← hc, ← hs] at hrh
  have hlt := h.lt
  have hub : rots (rhos W) k u (k + 1) = u (k + 1) := rots_out _ _ (by omega)
  have hdiag : c * rots (rhos W) k u k + s * u (k + 1) ≠ 0 := by
    intro e
    apply ha
    have : rots (rhos W) k u k ^ 2 + u (k + 1) ^ 2 = 0 := by
      linear_combination (c * rots (rhos W) k u k + s * u (k + 1)) * e + (c * u (k + 1) - s * rots (rhos W) k u k) * hz - (rots (rhos W) k u k ^ 2 + u (k + 1) ^ 2) * hu
    nlinarith [sq_nonneg (rots (rhos W) k u k), sq_nonneg (u (k + 1))]
  refine ⟨hlt, fun l hl => ?_, fun j hj => ?_, fun j hj i hi => ?_, ?_, fun j hj i hi => ?_, fun i hi => ?_, fun j hj => ?_, fun j hj hn => ?_, ?_⟩
  · by_cases e : l = k + 1
    · subst e; exact h.unit
    · rw [hvec_congr (V' := W) (fun i hi _ => h.old l (by omega) i hi), h.tau l (by omega)]
      exact h'.unit l (by omega)
  · rw [h.qc (by omega)]
    by_cases e : j = k
    · subst e; rw [hHk]; exact h.hess h'
    · rw [hHj j e, h'.hess j (by omega), h.fix _ fun i hi => h'.hsup j (by omega) i (by omega)]
  · by_cases e : j = k
    · subst e; rw [hHk]; exact h.sup i hi
    · rw [hHj j e]; exact h'.hsup j (by omega) i hi
  · rw [h.fix _ fun i hi => by simp [eu, show i ≠ 0 by omega]]; exact h'.res
  · by_cases e : j = k
    · subst e
      rw [hHk]
      split_ifs with e1
      · rw [hW i e1]
      · rw [hrs, rot_apply, if_neg (by omega)]
        split_ifs with e2
        · rw [hub, hz]
        · rw [rots_out _ _ (by omega), h.sup i (by omega)]
    · have y1 : rots (rhos W) k (H j) k = 0 := by rw [h'.tri j (by omega) k h'.lt, if_neg (by omega)]
      have y2 : rots (rhos W) k (H j) (k + 1) = 0 := by rw [h'.tri j (by omega) (k + 1) hlt, if_neg (by omega)]
      rw [hHj j e, hrs, rot_apply, y1, y2, h'.tri j (by omega) i hi]
      by_cases e1 : i ≤ j
      · rw [if_neg (by omega), if_neg (by omega), if_pos e1, if_pos e1, h.old (j + 1) (by omega) i hi]
      · rw [if_neg e1, if_neg e1]; simp
  · rw [hrh i hi, hrs, rot_apply, rot_apply, h'.rhat k h'.lt, h'.rhat (k + 1) hlt, h'.rhat i hi]
  · by_cases e : j = k
    · subst e
      rw [hW j le_rfl, hrs, rot_apply, if_pos rfl, hub]
      exact hdiag
    · rw [h.old (j + 1) (by omega) j (by omega)]; exact h'.diag j (by omega)
  · obtain rfl : j = k := by omega
    rw [hHk]
    intro hb
    rw [hb, mul_zero, zero_sub, neg_eq_zero, mul_eq_zero] at hz
    have hs0 : s = 0 := hz.resolve_right ha
    apply hn
    rw [hrh (j + 1) hlt, rot_apply, if_neg (by omega), if_pos rfl, h'.rh_out hlt (by omega), hs0]
    ring
  · rw [← h'.span_succ h0]
    unfold spn
    congr 1
    exact Set.image_congr fun j hj => h.qc (show j ≤ k by have : j < k + 1 := hj; omega)

/-- The step without a rotation, although the entries have the same modulus: the vector computed from the triangular system has a residual as large as the one before the step. -/
theorem Extends.tie (h : Extends n M k W W' t t' u) (h' : GInv n M r k W t rh H β)
    (ha : rots (rhos W) k u k ≠ 0) (hab : rots (rhos W) k u k ^ 2 = u (k + 1) ^ 2) (hW : ∀ i ≤ k, W' i (k + 1) = rots (rhos W) k u i)
    (hrh : ∀ i ≤ k, rh' i = rh i) {c : Nat → ℝ} (hc : ∀ i < k + 1, ∑ j ∈ Finset.range (k + 1), c j * (if i ≤ j then W' i (j + 1) else 0) = rh' i) :
    nrm2 (r - M *ᵥ ∑ j ∈ Finset.range (k + 1), c j • Gm.qc n W' t' j) = rh k ^ 2 := by
  have hlt := h.lt
  rw [Finset.sum_congr rfl fun j hj => by rw [h.qc (show j ≤ k by have := Finset.mem_range.mp hj; omega)],
    h'.form_next (h.unitary h') h.fix (h.hess h') c]
  have z1 : ∀ i, k ≤ i → ∑ j ∈ Finset.range k, c j * (if i ≤ j then W i (j + 1) else 0) = 0 := fun i hi =>
    Finset.sum_eq_zero fun j hj => by rw [if_neg (by have := Finset.mem_range.mp hj; omega), mul_zero]
  have hsys : ∀ i ≤ k, ∑ j ∈ Finset.range k, c j * (if i ≤ j then W i (j + 1) else 0) + c k * rots (rhos W) k u i = rh i := fun i hi => by
    rw [← hrh i hi, ← hc i (by omega), Finset.sum_range_succ, if_pos hi, hW i hi]
    congr 1
    refine Finset.sum_congr rfl fun j hj => ?_
    rw [h.old (j + 1) (by have := Finset.mem_range.mp hj; omega) i (by omega)]
  rw [Finset.sum_eq_single (k + 1)]
  · have := hsys k le_rfl
    rw [z1 k le_rfl, zero_add] at this
    rw [z1 (k + 1) (by omega), h'.rh_out hlt (by omega), rots_out _ _ (by omega), ← this]
    linear_combination (-(c k) ^ 2) * hab
  · intro i hi hik
    have hi := Finset.mem_range.mp hi
    by_cases e : i ≤ k
    · rw [hsys i e, sub_self]; norm_num
    · rw [h'.rh_out hi (by omega), z1 i (by omega), rots_out _ _ (by omega), h.sup i (by omega)]; ring
  · intro hk
    exact absurd (Finset.mem_range.mpr hlt) hk

end H2.Gm
