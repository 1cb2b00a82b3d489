import Verif.Proof.Gmres4

/-! # GMRES: the reflections -/

set_option linter.unusedSectionVars false

namespace H2.Gm
open Spec Dense Matrix QR Krylov
variable {n : Nat}

theorem refl_of_mem {v : Fin n → ℝ} {t : ℝ} {i : Fin n} (hi : v i = 1) (h : reflector v t ∈ unitaryGroup (Fin n) ℝ) : t = 0 ∨ t * nrm2 v = 2 := by
  have e : reflector v t *ᵥ v = (1 - t * nrm2 v) • v := by
    funext l
    rw [refl_mulVec]
    have : ∑ l, star (v l) * v l = nrm2 v := by
      unfold nrm2
      exact Finset.sum_congr rfl fun l _ => by rw [Real.norm_eq_abs, sq_abs, star_trivial]; ring
    rw [this, Pi.smul_apply, smul_eq_mul]; ring
  have h1 := nrm2_mulVec h v
  rw [e, nrm2_smul, Real.norm_eq_abs, sq_abs] at h1
  have hp : 0 < nrm2 v := by
    unfold nrm2
    refine lt_of_lt_of_le ?_ (Finset.single_le_sum (f := fun l => ‖v l‖ ^ 2) (fun _ _ => sq_nonneg _) (Finset.mem_univ i))
    simp only [hi]; norm_num
  have h2 : (1 - t * nrm2 v) ^ 2 = 1 := by
    have := mul_right_cancel₀ hp.ne' (h1.trans (one_mul _).symm)
    exact this
  have h3 : (t * nrm2 v) * (t * nrm2 v - 2) = 0 := by linear_combination h2
  rcases mul_eq_zero.mp h3 with h | h
  · exact .inl ((mul_eq_zero.mp h).resolve_right hp.ne')
  · exact .inr (by linarith)

theorem sum_shift (o n' : Nat) (g : Nat → ℝ) : ∑ l ∈ Finset.range (o + n'), (if l < o then 0 else g (l - o)) = ∑ l ∈ Finset.range n', g l := by
  rw [Finset.sum_range_add, Finset.sum_eq_zero fun l hl => if_pos (Finset.mem_range.mp hl), zero_add]
  exact Finset.sum_congr rfl fun l _ => by rw [if_neg (by omega), Nat.add_sub_cancel_left]

/-- reflection of the entries from position `o` on -/
theorem embed {o n' : Nat} (hn' : 0 < n') {Y W : Nat → Nat → ℝ} {τ : ℝ} (hW : ∀ i, o < i → i < o + n' → W i o = Y (i - o) 0)
    (hu : reflector (hvec n' Y 0) τ ∈ unitaryGroup (Fin n') ℝ) : reflector (hvec (o + n') W o) τ ∈ unitaryGroup (Fin (o + n')) ℝ ∧
    ∀ w y : Nat → ℝ, fv n' w = reflector (hvec n' Y 0) τ *ᵥ fv n' y →
      fv (o + n') (fun i => if i < o then 0 else w (i - o)) = reflector (hvec (o + n') W o) τ *ᵥ fv (o + n') (fun i => if i < o then 0 else y (i - o)) := by
  have eh : ∀ i : Fin (o + n'), hvec (o + n') W o i = if i.1 < o then 0 else if i.1 - o = 0 then 1 else Y (i.1 - o) 0 := fun i => by
    unfold hvec
    by_cases e : i.1 < o
    · rw [if_pos e, if_pos e]
    · rw [if_neg e, if_neg e]
      by_cases e1 : i.1 = o
      · rw [if_pos e1, if_pos (by omega)]
      · rw [if_neg e1, if_neg (by omega), hW _ (by omega) i.2]
  have eh' : ∀ i : Fin n', hvec n' Y 0 i = if i.1 = 0 then 1 else Y i.1 0 := fun i => by
    unfold hvec; rw [if_neg (by omega)]
  have es : ∀ g : Nat → ℝ, ∑ l : Fin (o + n'), (hvec (o + n') W o l) * (if l.1 < o then 0 else g (l - o)) = ∑ l : Fin n', hvec n' Y 0 l * g l := fun g => by
    simp only [eh, eh']
    rw [Fin.sum_univ_eq_sum_range (fun l => (if l < o then (0 : ℝ) else if l - o = 0 then 1 else Y (l - o) 0) * (if l < o then 0 else g (l - o))),
      Fin.sum_univ_eq_sum_range (fun l => (if l = 0 then 1 else Y l 0) * g l), ← sum_shift o n']
    refine Finset.sum_congr rfl fun l _ => ?_
    split_ifs <;> simp
  have en : nrm2 (hvec (o + n') W o) = nrm2 (hvec n' Y 0) := by
    unfold nrm2
    have e1 : ∀ l : Fin (o + n'), ‖hvec (o + n') W o l‖ ^ 2 = hvec (o + n') W o l * (if l.1 < o then 0 else (fun i => if i = 0 then 1 else Y i 0) (l - o)) := fun l => by
      rw [Real.norm_eq_abs, sq_abs, eh]
      split_ifs <;> simp_all [sq]
    rw [Finset.sum_congr rfl fun l _ => e1 l, es (fun i => if i = 0 then 1 else Y i 0)]
    exact Finset.sum_congr rfl fun l _ => by rw [Real.norm_eq_abs, sq_abs, eh', sq]
  refine ⟨refl_mem (star_trivial _) ?_, fun w y hy => ?_⟩
  · have := refl_of_mem (i := ⟨0, hn'⟩) (show hvec n' Y 0 ⟨0, hn'⟩ = 1 by rw [eh']; rfl) hu
    rw [en]; exact this
  · funext i
    rw [refl_mulVec]
    simp only [fv, star_trivial]
    rw [es y, eh]
    by_cases e : i.1 < o
    · rw [if_pos e, if_pos e, if_pos e]; ring
    · rw [if_neg e, if_neg e, if_neg e]
      have := congrFun hy ⟨i.1 - o, by have := i.2; omega⟩
      rw [refl_mulVec] at this
      simp only [fv, star_trivial] at this
      rw [this, eh']

/-- the reflection found by the factorization of a part of a column -/
theorem house_part {o : Nat} (ho : o < n) {A Y : Nat → Nat → ℝ} {t : Nat → ℝ} (h : QInv (n - o) 1 A 0 1 Y t) {W : Nat → Nat → ℝ}
    (hW : ∀ i, o < i → i < n → W i o = Y (i - o) 0) {X : Nat → ℝ} (hX : ∀ i, o ≤ i → i < n → X i = A (i - o) 0) :
    reflector (hvec n W o) (t 0) ∈ unitaryGroup (Fin n) ℝ ∧
    fv n X = reflector (hvec n W o) (t 0) *ᵥ fv n (fun i => if i < o then X i else if i = o then Y 0 0 else 0) := by
  obtain ⟨n', rfl⟩ : ∃ n', n = o + n' := ⟨n - o, by omega⟩
  rw [Nat.add_sub_cancel_left] at h
  obtain ⟨h1, h2⟩ := embed (show 0 < n' by omega) hW (h.unit 0 (by omega))
  refine ⟨h1, ?_⟩
  have h3 := h.done 0 (by omega) (by omega)
  have h4 : nrm2 (col n' A 0 - qprod n' Y t 1 *ᵥ upcol n' Y 0) = 0 := le_antisymm h3 (Finset.sum_nonneg fun _ _ => sq_nonneg _)
  have h5 : col n' A 0 = reflector (hvec n' Y 0) (t 0) *ᵥ upcol n' Y 0 := by
    have e : qprod n' Y t 1 = reflector (hvec n' Y 0) (t 0) := by rw [qprod, qprod, Matrix.one_mul]
    rw [e] at h4
    funext i
    have := (Finset.sum_eq_zero_iff_of_nonneg fun _ _ => sq_nonneg _).mp h4 i (Finset.mem_univ _)
    rw [pow_eq_zero_iff two_ne_zero, norm_eq_zero, Pi.sub_apply, sub_eq_zero] at this
    exact this
  have h6 := h2 (fun i => A i 0) (fun i => if i = 0 then Y 0 0 else 0) (by
    refine Eq.trans h5 ?_
    congr 1
    funext i
    rw [upcol_eq]
    simp only [fv]
    by_cases e : i.1 = 0
    · rw [if_pos (by omega), if_pos e, e]
    · rw [if_neg (by omega), if_neg e])
  have h7 : fv (o + n') X = fv (o + n') (fun i => if i < o then X i else 0) + fv (o + n') (fun i => if i < o then 0 else A (i - o) 0) := by
    funext i
    simp only [fv, Pi.add_apply]
    by_cases e : i.1 < o
    · rw [if_pos e, if_pos e, add_zero]
    · rw [if_neg e, if_neg e, zero_add, hX _ (by omega) i.2]
  have h8 : fv (o + n') (fun i => if i < o then X i else if i = o then Y 0 0 else 0) = fv (o + n') (fun i => if i < o then X i else 0) +
      fv (o + n') (fun i => if i < o then 0 else if i - o = 0 then Y 0 0 else 0) := by
    funext i
    simp only [fv, Pi.add_apply]
    by_cases e : i.1 < o
    · rw [if_pos e, if_pos e, if_pos e, add_zero]
    · rw [if_neg e, if_neg e, if_neg e, zero_add]
      by_cases e1 : i.1 = o
      · rw [if_pos e1, if_pos (by omega)]
      · rw [if_neg e1, if_neg (by omega)]
  rw [h7, h6, h8, mulVec_add, refl_fix (x := fv (o + n') fun i => if i < o then X i else 0)]
  intro i hi
  exact if_neg (by omega)

end H2.Gm
