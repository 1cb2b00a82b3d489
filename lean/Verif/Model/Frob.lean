import Verif.Model.Dense
import Verif.Model.KrylovSolve
import Mathlib.Analysis.RCLike.Basic
import Mathlib.Analysis.Real.Sqrt

/-!
Model of the Frobenius norm of a dense matrix and of the orthogonality check (Library/amatrix.c), without BLAS, in exact arithmetic.
-/

namespace H2.Dense
variable {𝕜 : Type} [RCLike 𝕜]

/-- amatrix.c:835-850 `normfrob2_amatrix(a)` (without BLAS) -/
noncomputable def normfrob2M (a : Mat) (m : Mem 𝕜) : R ℝ :=
  forUp 0 a.cols (fun j (sum : ℝ) => forUp 0 a.rows (fun i (sum : ℝ) => do
    let x ← m.read (a.addr i j)
    pure (sum + RCLike.normSq x)) sum) 0

/-- amatrix.c:801-816 `normfrob_amatrix(a)` (without BLAS) -/
noncomputable def normfrobM (a : Mat) (m : Mem 𝕜) : R ℝ := do
  let sum ← forUp 0 a.cols (fun j (sum : ℝ) => forUp 0 a.rows (fun i (sum : ℝ) => do
    let x ← m.read (a.addr i j)
    pure (sum + RCLike.normSq x)) sum) 0
  pure (Real.sqrt sum)

/-- amatrix.c:121-138 `init_identity_amatrix(a, rows, cols)` and 205-215 `new_identity_amatrix(rows, cols)`; `p` is the address chosen by the allocator
and `junk` the contents of the new memory. The counter of active matrices is left out. -/
def newIdentity (p rows cols : Nat) (junk : Nat → 𝕜) (m : Mem 𝕜) : R (Mat × Mem 𝕜) := do
  let a : Mat := ⟨p, rows, rows, cols⟩
  let m := m.alloc p (rows * cols) junk
  let m ← forUp 0 cols (fun j m => forUp 0 rows (fun i m => m.write (a.addr i j) 0) m) m
  let m ← forUp 0 (min rows cols) (fun i m => m.write (a.addr i i) 1) m
  pure (a, m)

/-- amatrix.c:644-672 `check_ortho_amatrix(atrans, a)`; `p` and `junk` describe the memory of the temporary matrix -/
noncomputable def checkOrtho (atrans : Bool) (a : Mat) (p : Nat) (junk : Nat → 𝕜) (m : Mem 𝕜) : R (ℝ × Mem 𝕜) :=
  if atrans then do
    let s ← newIdentity p a.rows a.rows junk m
    let m ← addmul (-1) false a true a s.1 s.2
    let norm ← normfrobM s.1 m
    let m := m.free p (a.rows * a.rows)
    pure (max 0 norm, m)
  else do
    let s ← newIdentity p a.cols a.cols junk m
    let m ← addmul (-1) true a false a s.1 s.2
    let norm ← normfrobM s.1 m
    let m := m.free p (a.cols * a.cols)
    pure (max 0 norm, m)

end H2.Dense
