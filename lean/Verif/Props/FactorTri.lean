import Verif.Proof.FactorTri
import Verif.Props.Factor

/-!
# C57: triangular parts of matrices

`tri lower unit A` is the triangular (or trapezoidal) matrix stored in one triangle of `A`, `MatBecomes b m F m'` says that `b` holds `F` afterwards
and that nothing else in memory has changed.
-/

set_option linter.unusedSectionVars false

namespace H2.Props
open Spec Dense
variable {K : Type} [Field K] [StarRing K]

/-- `copy_lower_amatrix`: the part of `b` with as many rows as both matrices have in common receives the lower trapezoidal part of `a`, filled up with
zeros; the remaining rows of `b` keep their values. -/
theorem C57_copy_lower {a b : Mat} {m : Mem K} (ha : a.Valid m) (hb : b.Valid m) (hd : Disj a.Cell b.Cell) (unit : Bool) :
    ∃ m', copyLower a unit b m = .ok m' ∧ MatBecomes b m (fun i j => if i < a.rows then (if j < a.cols then tri true unit (a.val m) i j else 0) else b.val m i j) m' := by
  obtain ⟨m', h, h'⟩ := copyLower_tot ha hb hd unit
  refine ⟨m', h, becomes_congr h' fun i hi j _ => ?_⟩
  by_cases e : i < a.rows
  · rw [if_pos e, if_pos (by omega)]
  · rw [if_neg e, if_neg (by omega)]

/-- `copy_upper_amatrix`: the columns that both matrices have in common receive the upper trapezoidal part of `a`, filled up with zeros;
the remaining columns of `b` keep their values. -/
theorem C57_copy_upper {a b : Mat} {m : Mem K} (ha : a.Valid m) (hb : b.Valid m) (hd : Disj a.Cell b.Cell) (unit : Bool) :
    ∃ m', copyUpper a unit b m = .ok m' ∧ MatBecomes b m (fun i j => if j < a.cols then (if i < a.rows then tri false unit (a.val m) i j else 0) else b.val m i j) m' :=
  copyUpper_tot ha hb hd unit

/-- If both matrices have the same dimensions, `b` is exactly the triangular part of `a`. -/
theorem C57_copy_square {a b : Mat} {m : Mem K} (ha : a.Valid m) (hb : b.Valid m) (hd : Disj a.Cell b.Cell) (hr : b.rows = a.rows) (hc : b.cols = a.cols) (lower unit : Bool) :
    ∃ m', (if lower then copyLower a unit b m else copyUpper a unit b m) = .ok m' ∧ MatBecomes b m (tri lower unit (a.val m)) m' := by
  cases lower
  · obtain ⟨m', h, h'⟩ := C57_copy_upper ha hb hd unit
    exact ⟨m', h, becomes_congr h' fun i hi j hj => by rw [if_pos (by omega), if_pos (by omega)]⟩
  · obtain ⟨m', h, h'⟩ := C57_copy_lower ha hb hd unit
    exact ⟨m', h, becomes_congr h' fun i hi j hj => by rw [if_pos (by omega), if_pos (by omega)]⟩

/-- `triangularaddmul_amatrix` adds the product of two triangular matrices (both lower or upper, plain or adjoint), and refers only to the selected triangles. -/
theorem C57_addmul {a b c : Mat} {m : Mem K} (ha : a.Valid m) (hb : b.Valid m) (hc : c.Valid m) (hac : Disj a.Cell c.Cell) (hbc : Disj b.Cell c.Cell)
    (alpha : K) (alower atrans blower btrans : Bool) (h1 : c.rows = opRows atrans a) (h2 : opCols atrans a = opRows btrans b) (h3 : c.cols = opCols btrans b) :
    ∃ m', triaddmul alpha alower atrans a blower btrans b c m = .ok m' ∧ MatBecomes c m (fun i k => c.val m i k +
      alpha * ∑ j ∈ Finset.range (opCols atrans a), op atrans (tri alower false (a.val m)) i j * op btrans (tri blower false (b.val m)) j k) m' :=
  triaddmul_tot ha hb hc hac hbc alpha alower atrans blower btrans h1 h2 h3

/-- If the dimensions do not match, an assertion fails. -/
theorem C57_addmul_assert {a b c : Mat} {m : Mem K} (alpha : K) (alower atrans blower btrans : Bool)
    (h : ¬ (c.rows = opRows atrans a ∧ opCols atrans a = opRows btrans b ∧ c.cols = opCols btrans b)) :
    triaddmul alpha alower atrans a blower btrans b c m = .error .assertFail := by
  unfold triaddmul
  by_cases h1 : c.rows = opRows atrans a
  · rw [cassert_true (by simpa [opRows] using h1), ok_bind]
    by_cases h2 : opCols atrans a = opRows btrans b
    · rw [cassert_true (by simpa [opCols, opRows] using h2), ok_bind]
      have h3 : ¬ c.cols = opCols btrans b := fun h3 => h ⟨h1, h2, h3⟩
      rw [show cassert _ = .error .assertFail from by unfold cassert; rw [if_neg (by simpa [opCols] using h3)]]
      rfl
    · rw [show cassert (decide ((if atrans = true then a.rows else a.cols) = if btrans = true then b.cols else b.rows)) = .error .assertFail from by
        unfold cassert; rw [if_neg (by simpa [opCols, opRows] using h2)]]
      rfl
  · rw [show cassert (decide (c.rows = if atrans = true then a.cols else a.rows)) = .error .assertFail from by
      unfold cassert; rw [if_neg (by simpa [opRows] using h1)]]
    rfl

/-- three different windows of a memory with twenty cells, a matrix with a gap between its columns, and matching dimensions -/
example : ∃ (a b c : Mat) (m : Mem ℚ), a.Valid m ∧ b.Valid m ∧ c.Valid m ∧ Disj a.Cell b.Cell ∧ Disj a.Cell c.Cell ∧ Disj b.Cell c.Cell ∧ b.rows < a.rows ∧ a.cols < b.cols ∧
    c.rows = opRows true a ∧ opCols true a = opRows true b ∧ c.cols = opCols true b := by
  refine ⟨⟨0, 4, 3, 2⟩, ⟨8, 2, 2, 3⟩, ⟨14, 2, 2, 2⟩, fun c => if c < 20 then some c else none, ⟨by decide, ?_⟩, ⟨by decide, ?_⟩, ⟨by decide, ?_⟩, ?_, ?_, ?_, by decide, by decide, rfl, rfl, rfl⟩
  · intro i hi j hj
    have h : 0 + (i + j * 4) < 20 := by simp only at hi hj; omega
    show (if 0 + (i + j * 4) < 20 then some ((0 + (i + j * 4) : Nat) : ℚ) else none).isSome = true
    rw [if_pos h]; rfl
  · intro i hi j hj
    have h : 8 + (i + j * 2) < 20 := by simp only at hi hj; omega
    show (if 8 + (i + j * 2) < 20 then some ((8 + (i + j * 2) : Nat) : ℚ) else none).isSome = true
    rw [if_pos h]; rfl
  · intro i hi j hj
    have h : 14 + (i + j * 2) < 20 := by simp only at hi hj; omega
    show (if 14 + (i + j * 2) < 20 then some ((14 + (i + j * 2) : Nat) : ℚ) else none).isSome = true
    rw [if_pos h]; rfl
  all_goals
    rintro c ⟨i, hi, j, hj, rfl⟩ ⟨i', hi', j', hj', h⟩
    simp only [Mat.addr] at *
    omega

end H2.Props
