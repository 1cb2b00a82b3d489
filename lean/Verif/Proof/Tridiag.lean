import Verif.Proof.Eigen
import Verif.Model.Tridiag

set_option linter.unusedSectionVars false

/-! Loops of the tridiagonalization (C72). -/

namespace H2.Eig
open Spec Krylov
variable {𝕜 : Type} [RCLike 𝕜]

/-- the reflection vector stored in column `k` -/
def hv (k : Nat) (A : VMat 𝕜) (i : Nat) : 𝕜 := if i ≤ k then 0 else if i = k + 1 then 1 else A.e i k

theorem hv_lo {k i : Nat} (A : VMat 𝕜) (h : i ≤ k) : hv k A i = 0 := if_pos h
theorem hv_one (k : Nat) (A : VMat 𝕜) : hv k A (k + 1) = 1 := by
  unfold hv; rw [if_neg (by omega), if_pos rfl]
theorem hv_hi {k i : Nat} (A : VMat 𝕜) (h : k + 1 < i) : hv k A i = A.e i k := by
  unfold hv; rw [if_neg (by omega), if_neg (by omega)]

theorem vget_ok {A : VMat 𝕜} {i j : Nat} (hi : i < A.rows) (hj : j < A.cols) : A.get i j = .ok (A.e i j) := if_pos ⟨hi, hj⟩
theorem vset_ok {A : VMat 𝕜} {i j : Nat} {x : 𝕜} (hi : i < A.rows) (hj : j < A.cols) :
    A.set i j x = .ok ⟨A.rows, A.cols, fun k l => if k = i ∧ l = j then x else A.e k l⟩ := if_pos ⟨hi, hj⟩

theorem subNorm2_tot {n k : Nat} {A : VMat 𝕜} (hr : A.rows = n) (hc : A.cols = n) (hk : k + 1 < n) :
    Tot (subNorm2 n k A) fun s => s = ∑ i ∈ Finset.Ico (k + 1) n, ‖A.e i k‖ ^ 2 := by
  unfold subNorm2
  rw [vget_ok (by omega) (by omega), ok_bind]
  refine (forUp_tot (fun i s => s = ∑ i ∈ Finset.Ico (k + 1) i, ‖A.e i k‖ ^ 2) (by omega) ?_ ?_).mono fun _ h => h
  · rw [Nat.Ico_succ_singleton, Finset.sum_singleton]
  · intro i s h1 h2 h3
    rw [vget_ok (by omega) (by omega), ok_bind]
    refine Tot.pure ?_
    rw [Finset.sum_Ico_succ_top (by omega), h3]

/-- sum that starts behind the zero entries -/
theorem sum_start {k : Nat} (f : Nat → 𝕜) (h : ∀ i ≤ k, f i = 0) : ∑ i ∈ Finset.range (k + 2), f i = f (k + 1) := by
  rw [Finset.sum_range_succ, Finset.sum_eq_zero, zero_add]
  intro i hi
  exact h i (by have := Finset.mem_range.mp hi; omega)

theorem reflCol_tot {n k j : Nat} {beta : 𝕜} {A : VMat 𝕜} (hr : A.rows = n) (hc : A.cols = n) (hk : k + 1 < n) (hj : k < j) (hj' : j < n) :
    Tot (reflCol n k beta j A) fun A' => A'.rows = n ∧ A'.cols = n ∧
      ∀ r c, A'.e r c = if c = j ∧ r < n then A.e r j - beta * (∑ i ∈ Finset.range n, star (hv k A i) * A.e i j) * hv k A r else A.e r c := by
  unfold reflCol
  rw [vget_ok (by omega) (by omega), ok_bind]
  refine Tot.bind (P := fun g => g = ∑ i ∈ Finset.range n, star (hv k A i) * A.e i j)
    (forUp_tot (fun i g => g = ∑ i ∈ Finset.range i, star (hv k A i) * A.e i j) (by omega) ?_ ?_) ?_
  · rw [sum_start _ fun i hi => by rw [hv_lo A hi]; simp, hv_one]; simp
  · intro i s h1 h2 h3
    rw [vget_ok (by omega) (by omega), ok_bind, vget_ok (by omega) (by omega), ok_bind]
    refine Tot.pure ?_
    rw [Finset.sum_range_succ, h3, hv_hi A (by omega)]
  rintro g - rfl
  simp only [ok_bind]
  rw [vset_ok (by omega) (by omega), ok_bind]
  generalize hG : ∑ i ∈ Finset.range n, star (hv k A i) * A.e i j = G
  refine (forUp_tot (fun i (A' : VMat 𝕜) => A'.rows = n ∧ A'.cols = n ∧
      ∀ r c, A'.e r c = if c = j ∧ r < i then A.e r j - beta * G * hv k A r else A.e r c) (by omega) ?_ ?_).mono fun _ h => h
  · refine ⟨hr, hc, fun r c => ?_⟩
    show (if r = k + 1 ∧ c = j then A.e (k + 1) j - G * beta else A.e r c) = _
    by_cases h1 : c = j
    · by_cases h2 : r = k + 1
      · rw [if_pos ⟨h2, h1⟩, if_pos ⟨h1, by omega⟩, h2, hv_one]; ring
      · rw [if_neg (fun h => h2 h.1)]
        by_cases h3 : r < k + 2
        · rw [if_pos ⟨h1, h3⟩, hv_lo A (by omega), h1]; ring
        · rw [if_neg (fun h => h3 h.2)]
    · rw [if_neg (fun h => h1 h.2), if_neg (fun h => h1 h.1)]
  · rintro i A' h1 h2 ⟨g1, g2, g3⟩
    rw [vget_ok (by omega) (by omega), ok_bind, vget_ok (by omega) (by omega), ok_bind, vset_ok (by omega) (by omega)]
    refine ⟨_, rfl, g1, g2, fun r c => ?_⟩
    show (if r = i ∧ c = j then A'.e i j - G * beta * A'.e i k else A'.e r c) = _
    by_cases hx : r = i ∧ c = j
    · rw [if_pos hx, if_pos ⟨hx.2, by omega⟩, g3, if_neg (by omega), g3, if_neg (by omega), hx.1, hv_hi A (by omega)]; ring
    · rw [if_neg hx, g3]
      by_cases hy : c = j ∧ r < i
      · rw [if_pos hy, if_pos ⟨hy.1, by omega⟩]
      · rw [if_neg hy, if_neg (by omega)]

theorem reflRow_tot {n k j m : Nat} {beta : 𝕜} {rd : VMat 𝕜 → Nat → R 𝕜} {v : Nat → 𝕜} {B : VMat 𝕜} (hr : B.rows = m) (hc : B.cols = n) (hk : k + 1 < n)
    (hj' : j < m) (v0 : ∀ i ≤ k, v i = 0) (v1 : v (k + 1) = 1)
    (hrd : ∀ B' : VMat 𝕜, B'.rows = B.rows → B'.cols = B.cols → (∀ r, B'.e r k = B.e r k) → ∀ i, k + 1 < i → i < n → rd B' i = .ok (v i)) :
    Tot (reflRow n k beta rd j B) fun B' => B'.rows = m ∧ B'.cols = n ∧
      ∀ r c, B'.e r c = if r = j ∧ c < n then B.e j c - beta * (∑ i ∈ Finset.range n, v i * B.e j i) * star (v c) else B.e r c := by
  unfold reflRow
  rw [vget_ok (by omega) (by omega), ok_bind]
  refine Tot.bind (P := fun g => g = ∑ i ∈ Finset.range n, v i * B.e j i)
    (forUp_tot (fun i g => g = ∑ i ∈ Finset.range i, v i * B.e j i) (by omega) ?_ ?_) ?_
  · rw [sum_start _ fun i hi => by rw [v0 i hi]; simp, v1]; simp
  · intro i s h1 h2 h3
    rw [hrd B rfl rfl (fun _ => rfl) i (by omega) h2, ok_bind, vget_ok (by omega) (by omega), ok_bind]
    refine Tot.pure ?_
    rw [Finset.sum_range_succ, h3]
  rintro g - rfl
  simp only [ok_bind]
  rw [vset_ok (by omega) (by omega), ok_bind]
  generalize hG : ∑ i ∈ Finset.range n, v i * B.e j i = G
  refine (forUp_tot (fun i (B' : VMat 𝕜) => B'.rows = m ∧ B'.cols = n ∧
      ∀ r c, B'.e r c = if r = j ∧ c < i then B.e j c - beta * G * star (v c) else B.e r c) (by omega) ?_ ?_).mono fun _ h => h
  · refine ⟨hr, hc, fun r c => ?_⟩
    show (if r = j ∧ c = k + 1 then B.e j (k + 1) - G * beta else B.e r c) = _
    by_cases h1 : r = j
    · by_cases h2 : c = k + 1
      · rw [if_pos ⟨h1, h2⟩, if_pos ⟨h1, by omega⟩, h2, v1, star_one]; ring
      · rw [if_neg (fun h => h2 h.2)]
        by_cases h3 : c < k + 2
        · rw [if_pos ⟨h1, h3⟩, v0 c (by omega), h1, star_zero]; ring
        · rw [if_neg (fun h => h3 h.2)]
    · rw [if_neg (fun h => h1 h.1), if_neg (fun h => h1 h.1)]
  · rintro i B' h1 h2 ⟨g1, g2, g3⟩
    have hcol : ∀ r, B'.e r k = B.e r k := by
      intro r
      rw [g3]
      split_ifs with h
      · rw [v0 k (le_refl _), h.1, star_zero, mul_zero, sub_zero]
      · rfl
    rw [vget_ok (by omega) (by omega), ok_bind, hrd B' (by omega) (by omega) hcol i (by omega) h2, ok_bind, vset_ok (by omega) (by omega)]
    refine ⟨_, rfl, g1, g2, fun r c => ?_⟩
    show (if r = j ∧ c = i then B'.e j i - G * beta * star (v i) else B'.e r c) = _
    by_cases hx : r = j ∧ c = i
    · rw [if_pos hx, if_pos ⟨hx.1, by omega⟩, g3, if_neg (by omega), hx.2]; ring
    · rw [if_neg hx, g3]
      by_cases hy : r = j ∧ c < i
      · rw [if_pos hy, if_pos ⟨hy.1, by omega⟩]
      · rw [if_neg hy, if_neg (by omega)]

theorem reflCols_tot {n k : Nat} {beta : 𝕜} {A : VMat 𝕜} (hr : A.rows = n) (hc : A.cols = n) (hk : k + 1 < n) :
    Tot (forUp (k + 1) n (reflCol n k beta) A) fun A' => A'.rows = n ∧ A'.cols = n ∧
      ∀ r c, A'.e r c = if k < c ∧ c < n ∧ r < n then A.e r c - beta * (∑ i ∈ Finset.range n, star (hv k A i) * A.e i c) * hv k A r else A.e r c := by
  refine (forUp_tot (fun j (A' : VMat 𝕜) => A'.rows = n ∧ A'.cols = n ∧
      ∀ r c, A'.e r c = if k < c ∧ c < j ∧ r < n then A.e r c - beta * (∑ i ∈ Finset.range n, star (hv k A i) * A.e i c) * hv k A r else A.e r c)
    (by omega) ⟨hr, hc, fun r c => (if_neg (by omega)).symm⟩ ?_).mono fun _ h => h
  rintro j A' h1 h2 ⟨g1, g2, g3⟩
  have hvv : ∀ i, hv k A' i = hv k A i := by
    intro i
    unfold hv
    have e : A'.e i k = A.e i k := by rw [g3, if_neg (by omega)]
    rw [e]
  refine (reflCol_tot g1 g2 hk (by omega) h2).mono ?_
  rintro A'' ⟨t1, t2, t3⟩
  refine ⟨t1, t2, fun r c => ?_⟩
  rw [t3]
  by_cases hx : c = j ∧ r < n
  · rw [if_pos hx, if_pos ⟨by omega, by omega, hx.2⟩, hvv]
    have e : ∀ i, A'.e i j = A.e i j := fun i => by rw [g3, if_neg (by omega)]
    simp only [e, hvv, hx.1]
  · rw [if_neg hx, g3]
    by_cases hy : k < c ∧ c < j ∧ r < n
    · rw [if_pos hy, if_pos (by omega)]
    · rw [if_neg hy, if_neg (by omega)]

theorem reflRows_tot {n k m lo : Nat} {beta : 𝕜} {rd : VMat 𝕜 → Nat → R 𝕜} {v : Nat → 𝕜} {B : VMat 𝕜} (hr : B.rows = m) (hc : B.cols = n) (hk : k + 1 < n)
    (hlo : lo ≤ m) (v0 : ∀ i ≤ k, v i = 0) (v1 : v (k + 1) = 1)
    (hrd : ∀ B' : VMat 𝕜, B'.rows = B.rows → B'.cols = B.cols → (∀ r, B'.e r k = B.e r k) → ∀ i, k + 1 < i → i < n → rd B' i = .ok (v i)) :
    Tot (forUp lo m (reflRow n k beta rd) B) fun B' => B'.rows = m ∧ B'.cols = n ∧
      ∀ r c, B'.e r c = if lo ≤ r ∧ r < m ∧ c < n then B.e r c - beta * (∑ i ∈ Finset.range n, v i * B.e r i) * star (v c) else B.e r c := by
  refine (forUp_tot (fun j (B' : VMat 𝕜) => B'.rows = m ∧ B'.cols = n ∧
      ∀ r c, B'.e r c = if lo ≤ r ∧ r < j ∧ c < n then B.e r c - beta * (∑ i ∈ Finset.range n, v i * B.e r i) * star (v c) else B.e r c)
    hlo ⟨hr, hc, fun r c => (if_neg (by omega)).symm⟩ ?_).mono fun _ h => h
  rintro j B' h1 h2 ⟨g1, g2, g3⟩
  have hcol : ∀ r, B'.e r k = B.e r k := by
    intro r
    rw [g3]
    split_ifs with h
    · rw [v0 k (le_refl _), star_zero, mul_zero, sub_zero]
    · rfl
  refine (reflRow_tot g1 g2 hk h2 v0 v1 fun B'' q1 q2 q3 => hrd B'' (q1.trans (g1.trans hr.symm)) (q2.trans (g2.trans hc.symm)) fun r => (q3 r).trans (hcol r)).mono ?_
  rintro B'' ⟨t1, t2, t3⟩
  refine ⟨t1, t2, fun r c => ?_⟩
  rw [t3]
  by_cases hx : r = j ∧ c < n
  · rw [if_pos hx, if_pos ⟨by omega, by omega, hx.2⟩]
    have e : ∀ i, B'.e j i = B.e j i := fun i => by rw [g3, if_neg (by omega)]
    simp only [e, hx.1]
  · rw [if_neg hx, g3]
    by_cases hy : lo ≤ r ∧ r < j ∧ c < n
    · rw [if_pos hy, if_pos (by omega)]
    · rw [if_neg hy, if_neg (by omega)]

end H2.Eig
