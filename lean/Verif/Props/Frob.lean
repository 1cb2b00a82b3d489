import Verif.Proof.Frob
import Mathlib.Tactic.IntervalCases

/-!
# C88: Frobenius norm and orthogonality check

`frob r c A` is the Frobenius norm, `defect r A` the matrix `I - A* A`, `OrthoCols r c A` says that the columns are orthonormal (Spec/Frob.lean).
With the flag set, `op true A` is the adjoint and the rows are checked.
-/

set_option linter.unusedSectionVars false

namespace H2.Props
open Spec Dense
variable {𝕜 : Type} [RCLike 𝕜] {m : Mem 𝕜}

/-- `normfrob_amatrix` and `normfrob2_amatrix` read only the entries of the matrix, whatever its leading dimension. -/
theorem C88_frobenius {a : Mat} (ha : a.Valid m) :
    normfrobM a m = .ok (Real.sqrt (∑ i ∈ Finset.range a.rows, ∑ j ∈ Finset.range a.cols, ‖a.val m i j‖ ^ 2)) ∧
    normfrob2M a m = .ok (∑ i ∈ Finset.range a.rows, ∑ j ∈ Finset.range a.cols, ‖a.val m i j‖ ^ 2) :=
  ⟨normfrobM_tot ha, normfrob2M_tot ha⟩

/-- `check_ortho_amatrix` returns the Frobenius norm of `I - A* A`, or of `I - A A*` if the flag is set; the memory is as before. -/
theorem C88_check {a : Mat} (ha : a.Valid m) (atrans : Bool) {p : Nat} (junk : Nat → 𝕜)
    (hf : Fresh m p (opCols atrans a * opCols atrans a)) :
    checkOrtho atrans a p junk m = .ok (frob (opCols atrans a) (opCols atrans a) (defect (opRows atrans a) (op atrans (a.val m))), m) :=
  checkOrtho_tot ha atrans hf

/-- The value is zero exactly if the columns (with the flag: the rows) are orthonormal. -/
theorem C88_zero_iff {a : Mat} (ha : a.Valid m) (atrans : Bool) {p : Nat} (junk : Nat → 𝕜)
    (hf : Fresh m p (opCols atrans a * opCols atrans a)) :
    ∃ e m', checkOrtho atrans a p junk m = .ok (e, m') ∧ (e = 0 ↔ OrthoCols (opRows atrans a) (opCols atrans a) (op atrans (a.val m))) :=
  ⟨_, _, checkOrtho_tot ha atrans hf, defect_zero⟩

/-- The value bounds how much the matrix (with the flag: its adjoint) changes the squared norm of a vector. -/
theorem C88_isometry {a : Mat} (ha : a.Valid m) (atrans : Bool) {p : Nat} (junk : Nat → 𝕜)
    (hf : Fresh m p (opCols atrans a * opCols atrans a)) :
    ∃ e m', checkOrtho atrans a p junk m = .ok (e, m') ∧ ∀ x : Nat → 𝕜,
      |(∑ i ∈ Finset.range (opRows atrans a), ‖∑ j ∈ Finset.range (opCols atrans a), op atrans (a.val m) i j * x j‖ ^ 2)
          - ∑ j ∈ Finset.range (opCols atrans a), ‖x j‖ ^ 2| ≤ e * ∑ j ∈ Finset.range (opCols atrans a), ‖x j‖ ^ 2 :=
  ⟨_, _, checkOrtho_tot ha atrans hf, defect_isometry⟩

/-! ### examples -/

/-- the matrix with rows `(3/5, 0)` and `(4/5, 2)` with leading dimension 3 at address 10 -/
noncomputable def frobMem : Mem ℝ := fun c => if c = 10 then some (3 / 5) else if c = 11 then some (4 / 5) else if c = 13 then some 0 else if c = 14 then some 2 else none

theorem frobMem_valid : (Mat.mk 10 3 2 2).Valid frobMem := by
  refine ⟨by decide, fun i hi j hj => ?_⟩
  simp only at hi hj
  interval_cases i <;> interval_cases j <;> simp [Mat.addr, frobMem]

/-- the hypotheses hold, the columns are not orthonormal, and the value is 3 up to the coupling of the columns -/
example : (Mat.mk 10 3 2 2).Valid frobMem ∧ Fresh frobMem 20 4 ∧ normfrob2M ⟨10, 3, 2, 2⟩ frobMem = .ok 5 ∧
    defect 2 ((Mat.mk 10 3 2 2).val frobMem) 1 1 = -3 ∧ ¬ OrthoCols 2 2 ((Mat.mk 10 3 2 2).val frobMem) := by
  refine ⟨frobMem_valid, fun c h1 h2 => ?_, ?_, ?_, fun h => ?_⟩
  · have : c ≠ 10 ∧ c ≠ 11 ∧ c ≠ 13 ∧ c ≠ 14 := by omega
    simp [frobMem, this]
  · rw [(C88_frobenius frobMem_valid).2]
    congr 1
    norm_num [Finset.sum_range_succ, Mat.val, Mat.addr, frobMem]
  · norm_num [defect, Finset.sum_range_succ, Mat.val, Mat.addr, frobMem]
  · have := h 1 (by decide) 1 (by decide)
    norm_num [Finset.sum_range_succ, Mat.val, Mat.addr, frobMem] at this

/-- the first column alone is orthonormal -/
example : (Mat.mk 10 3 2 1).Valid frobMem ∧ OrthoCols 2 1 ((Mat.mk 10 3 2 1).val frobMem) := by
  refine ⟨⟨by decide, fun i hi j hj => frobMem_valid.2 i hi j (by simp only at *; omega)⟩, fun j hj k hk => ?_⟩
  interval_cases j; interval_cases k
  norm_num [Finset.sum_range_succ, Mat.val, Mat.addr, frobMem]

end H2.Props
