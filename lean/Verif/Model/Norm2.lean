import Verif.Model.Sparse
import Mathlib.Analysis.SpecialFunctions.Pow.NNReal

/-! # Spectral norm estimation (`krylov.c:14-78`, `sparsematrix.c:404-417`), real arithmetic -/

namespace H2.Norm

/-- basic.h:46 `NORM_STEPS` -/
def NORM_STEPS : Nat := 20

/-- avector.c:343-354 `norm2_avector(v)` (without BLAS). -/
noncomputable def norm2Avector (x : Arr ℝ) : ℝ := Real.sqrt (forT 0 x.n (fun i s => s + x.v i * x.v i) 0)

/-- avector.c:326-333 `scale_avector(alpha, v)` -/
def scaleA (alpha : ℝ) (x : Arr ℝ) : Arr ℝ := ⟨x.n, fun i => if i < x.n then alpha * x.v i else x.v i⟩

/-- avector.c:235-242 `clear_avector(v)` -/
def clearA (x : Arr ℝ) : Arr ℝ := ⟨x.n, fun i => if i < x.n then 0 else x.v i⟩

/-- krylov.h `mvm_t`: `mvm(alpha, trans, A, x, y)` adds `alpha A x` (`alpha A^T x`) to `y`. -/
abbrev Mvm := ℝ → Bool → Arr ℝ → Arr ℝ → R (Arr ℝ)

/-- krylov.c:28-39, the loop of `norm2_matrix`; the first argument is `NORM_STEPS - i`. -/
noncomputable def power (mvm : Mvm) : Nat → Arr ℝ → Arr ℝ → ℝ → R ℝ
  | 0, _, _, norm => .ok norm
  | n + 1, x, y, norm =>
    if norm > 0 then do
      let x := scaleA (1 / norm) x
      let y := clearA y
      let y ← mvm 1 false x y
      let x := clearA x
      let x ← mvm 1 true y x
      power mvm n x y (norm2Avector x)
    else .ok norm

/-- krylov.c:14-45 `norm2_matrix(mvm, A, rows, cols)`; `rnd` are the numbers written by `random_avector`, `junk` the
uninitialised contents of `y`. -/
noncomputable def norm2Matrix (mvm : Mvm) (rows cols : Nat) (rnd junk : Nat → ℝ) : R ℝ := do
  let x : Arr ℝ := ⟨cols, rnd⟩
  let y : Arr ℝ := ⟨rows, junk⟩
  let norm ← power mvm NORM_STEPS x y (norm2Avector x)
  pure (Real.sqrt norm)

/-- krylov.c:47-81 `norm2diff_matrix(mvmA, A, mvmB, B, rows, cols)`: the same loop, each product being the
difference of two. -/
noncomputable def norm2diffMatrix (mvmA mvmB : Mvm) (rows cols : Nat) (rnd junk : Nat → ℝ) : R ℝ :=
  norm2Matrix (fun alpha trans x y => do
    let y ← mvmA alpha trans x y
    mvmB (-alpha) trans x y) rows cols rnd junk

/-- sparsematrix.c:404-409 `norm2_sparsematrix(S)`: passes `S->rows` as number of columns. -/
noncomputable def norm2Sparse (S : Sparse ℝ) (rnd junk : Nat → ℝ) : R ℝ :=
  norm2Matrix (fun alpha trans x y => Sparse.mvm alpha trans S x y) S.rows S.rows rnd junk

/-- sparsematrix.c:411-417 `norm2diff_sparsematrix(a, b)`. -/
noncomputable def norm2diffSparse (a b : Sparse ℝ) (rnd junk : Nat → ℝ) : R ℝ :=
  norm2diffMatrix (fun alpha trans x y => Sparse.mvm alpha trans a x y)
    (fun alpha trans x y => Sparse.mvm alpha trans b x y) a.rows a.rows rnd junk

end H2.Norm
