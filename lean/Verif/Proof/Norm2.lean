import Verif.Model.Norm2
import Verif.Spec.Norm2
import Verif.Proof.Sparse
import Verif.Proof.Admissible

set_option linter.unusedSectionVars false

namespace H2.Norm
open Spec H2.Adm

theorem norm2Avector_eq (x : Arr ℝ) : norm2Avector x = norm2 x.n x.v := by
  unfold norm2Avector norm2
  rw [forT_sum]
  simp [pow_two]

theorem norm2_congr {n : Nat} {v w : Nat → ℝ} (h : ∀ i < n, v i = w i) : norm2 n v = norm2 n w := by
  unfold norm2
  rw [Finset.sum_congr rfl fun i hi => by rw [h i (Finset.mem_range.mp hi)]]

theorem norm2_smul (n : Nat) (c : ℝ) (v : Nat → ℝ) : norm2 n (fun i => c * v i) = |c| * norm2 n v := by
  unfold norm2
  have : ∑ i ∈ Finset.range n, (c * v i) ^ 2 = c ^ 2 * ∑ i ∈ Finset.range n, v i ^ 2 := by
    rw [Finset.mul_sum]; exact Finset.sum_congr rfl fun i _ => by ring
  rw [this, Real.sqrt_mul (by positivity), Real.sqrt_sq_eq_abs]

theorem power_tot {mvm : Mvm} {rows cols : Nat} {A : Nat → Nat → ℝ} (hm : Computes mvm rows cols A) {M : ℝ}
    (hM0 : 0 ≤ M) (hM : Bound rows cols A M) : ∀ (n : Nat) (x y : Arr ℝ) (norm : ℝ), x.n = cols → y.n = rows →
    norm = norm2 cols x.v →
    Tot (power mvm n x y norm) (fun r => 0 ≤ r ∧ ((n = 0 ∨ norm = 0) → r = norm) ∧
      ((0 < n ∨ norm ≤ M ^ 2) → r ≤ M ^ 2))
  | 0, x, y, norm, _, _, hn => ⟨norm, rfl, by rw [hn]; exact Real.sqrt_nonneg _, fun _ => rfl, fun h => by simpa using h⟩
  | n + 1, x, y, norm, hx, hy, hn => by
    unfold power
    split
    · rename_i hpos
      refine Tot.bind (hm.1 1 (scaleA (1 / norm) x) (clearA y) hx hy) ?_
      rintro y1 - ⟨hy1n, hy1⟩
      refine Tot.bind (hm.2 1 y1 (clearA (scaleA (1 / norm) x)) (hy1n.trans hy) hx) ?_
      rintro x1 - ⟨hx1n, hx1⟩
      have hx1n' : x1.n = cols := hx1n.trans hx
      have hsc : norm2 cols (scaleA (1 / norm) x).v = 1 := by
        have : norm2 cols (scaleA (1 / norm) x).v = norm2 cols (fun i => 1 / norm * x.v i) :=
          norm2_congr fun i hi => by simp [scaleA, hx, hi]
        rw [this, norm2_smul, ← hn, abs_of_pos (by positivity)]
        field_simp
      have hyb : norm2 rows y1.v ≤ M := by
        have : norm2 rows y1.v = norm2 rows (fun i => ∑ j ∈ Finset.range cols, A i j * (scaleA (1 / norm) x).v j) :=
          norm2_congr fun i hi => by rw [hy1 i hi]; simp [clearA, hy, hi]
        rw [this]
        have := hM.1 (scaleA (1 / norm) x).v
        rw [hsc, mul_one] at this
        exact this
      have hxb : norm2 cols x1.v ≤ M ^ 2 := by
        have : norm2 cols x1.v = norm2 cols (fun j => ∑ i ∈ Finset.range rows, A i j * y1.v i) :=
          norm2_congr fun i hi => by rw [hx1 i hi]; simp [clearA, scaleA, hx, hi]
        rw [this, pow_two]
        exact le_trans (hM.2 y1.v) (mul_le_mul_of_nonneg_left hyb hM0)
      refine (power_tot hm hM0 hM n x1 y1 (norm2Avector x1) hx1n' (hy1n.trans hy)
        (by rw [norm2Avector_eq, hx1n'])).mono ?_
      rintro r ⟨h1, h2, h3⟩
      refine ⟨h1, fun h => ?_, fun _ => h3 (Or.inr ?_)⟩
      · rcases h with h | h
        · omega
        · exact absurd h (ne_of_gt hpos)
      · rw [norm2Avector_eq, hx1n']; exact hxb
    · rename_i hpos
      have h0 : 0 ≤ norm := by rw [hn]; exact Real.sqrt_nonneg _
      have : norm = 0 := le_antisymm (not_lt.mp hpos) h0
      exact ⟨norm, rfl, h0, fun _ => rfl, fun _ => by rw [this]; positivity⟩

theorem sparse_computes {S : Sparse ℝ} (h : CSR S) :
    Computes (fun alpha trans x y => Sparse.mvm alpha trans S x y) S.rows S.cols (entry S) :=
  ⟨fun alpha x y hx hy => by simpa [Sparse.mvm] using Sparse.addeval_tot h alpha hx hy,
   fun alpha x y hx hy => by simpa [Sparse.mvm] using Sparse.addevaltrans_tot h alpha hx hy⟩

end H2.Norm
