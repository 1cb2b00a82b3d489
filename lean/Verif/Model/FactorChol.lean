import Verif.Model.Factor
import Mathlib.Analysis.RCLike.Sqrt
import Mathlib.Analysis.SpecialFunctions.Pow.Real

/-!
# Cholesky and LDL^T decompositions (`factorizations.c`, code without BLAS)

`field` is `ℝ` or `ℂ` (`RCLike`); assigning a `field` to a `real` takes the real part.
-/

namespace H2.Dense
variable {𝕜 : Type} [RCLike 𝕜]

/-- The test `ABS(d - REAL(d)) > 1e-12 || REAL(d) <= 0.0` of factorizations.c:1851. -/
def CholBad (d : 𝕜) : Prop := 1e-12 < ‖d - (RCLike.re d : 𝕜)‖ ∨ RCLike.re d ≤ 0
/-- The test `ABS(d - REAL(d)) > 1e-12 || REAL(d) == 0.0` of factorizations.c:2109. -/
def LdltBad (d : 𝕜) : Prop := 1e-12 < ‖d - (RCLike.re d : 𝕜)‖ ∨ RCLike.re d = 0

/-- factorizations.c:1854-1861: one step of the Cholesky decomposition; `diag` is a `real` variable. -/
noncomputable def cholStep (a : Mat) (n i : Nat) (diag : ℝ) (m : Mem 𝕜) : R (Mem 𝕜) := do
  let m ← m.write (a.addr i i) ((√diag : ℝ) : 𝕜)
  let p ← m.read (a.addr i i)
  let alpha : ℝ := RCLike.re (1 / p)
  let m ← forUp (i + 1) n (fun j m => do
    let v ← m.read (a.addr j i)
    m.write (a.addr j i) (v * (alpha : 𝕜))) m
  forUp (i + 1) n (fun j m => forUp (i + 1) (j + 1) (fun k m => do
    let v ← m.read (a.addr j k)
    let l ← m.read (a.addr j i)
    let u ← m.read (a.addr k i)
    m.write (a.addr j k) (v - l * star u)) m) m

open Classical in
/-- factorizations.c:1848-1870: `for (i = i0; i < n - 1; i++)` with `steps` rounds left, then the last pivot; the result is the
returned number. -/
noncomputable def cholLoop (a : Mat) (n : Nat) : (steps i : Nat) → Mem 𝕜 → R (Nat × Mem 𝕜)
  | 0, i, m => do
    let d ← m.read (a.addr i i)
    if CholBad d then pure (i + 1, m)
    else do
      let m ← m.write (a.addr i i) ((√(RCLike.re d) : ℝ) : 𝕜)
      pure (0, m)
  | s + 1, i, m => do
    let d ← m.read (a.addr i i)
    if CholBad d then pure (i + 1, m)
    else do
      let m ← cholStep a n i (RCLike.re d) m
      cholLoop a n s (i + 1) m

/-- factorizations.c:1837-1871 `choldecomp_amatrix(a)`; `n - 1` is computed modulo 2^32. -/
noncomputable def choldecomp (a : Mat) (m : Mem 𝕜) : R (Nat × Mem 𝕜) := do
  cassert (decide (a.rows = a.cols))
  cholLoop a a.rows ((a.rows + (2 ^ 32 - 1)) % 2 ^ 32) 0 m

/-- factorizations.c:2034-2039 `cholsolve_amatrix_avector(a, x)`. -/
def cholsolveVec (a : Mat) (x : Vec) (m : Mem 𝕜) : R (Mem 𝕜) := do
  let m ← trisolveVec true false false a x m
  trisolveVec true false true a x m

/-- factorizations.c:2041-2048 `cholsolve_amatrix(a, x)`. -/
def cholsolve (a x : Mat) (m : Mem 𝕜) : R (Mem 𝕜) := do
  cassert (decide (a.cols = x.rows))
  let m ← trisolve true false false a false x m
  trisolve true false true a false x m

/-- factorizations.c:2050-2055 `choleval_amatrix_avector(a, x)`. -/
def cholevalVec (a : Mat) (x : Vec) (m : Mem 𝕜) : R (Mem 𝕜) := do
  let m ← trievalVec true false true a x m
  trievalVec true false false a x m

/-- factorizations.c:2113-2119: one step of the LDL^T decomposition. -/
noncomputable def ldltStep (a : Mat) (n i : Nat) (diag : ℝ) (m : Mem 𝕜) : R (Mem 𝕜) := do
  let alpha : ℝ := 1 / diag
  let m ← forUp (i + 1) n (fun j m => do
    let v ← m.read (a.addr j i)
    m.write (a.addr j i) (v * (alpha : 𝕜))) m
  forUp (i + 1) n (fun j m => forUp (i + 1) (j + 1) (fun k m => do
    let v ← m.read (a.addr j k)
    let l ← m.read (a.addr j i)
    let u ← m.read (a.addr k i)
    m.write (a.addr j k) (v - (diag : 𝕜) * l * star u)) m) m

open Classical in
/-- factorizations.c:2107-2125: `for (i = i0; i < n - 1; i++)` with `steps` rounds left, then the last pivot. -/
noncomputable def ldltLoop (a : Mat) (n : Nat) : (steps i : Nat) → Mem 𝕜 → R (Nat × Mem 𝕜)
  | 0, i, m => do
    let d ← m.read (a.addr i i)
    if LdltBad d then pure (i + 1, m) else pure (0, m)
  | s + 1, i, m => do
    let d ← m.read (a.addr i i)
    if LdltBad d then pure (i + 1, m)
    else do
      let m ← ldltStep a n i (RCLike.re d) m
      ldltLoop a n s (i + 1) m

/-- factorizations.c:2095-2126 `ldltdecomp_amatrix(a)`. -/
noncomputable def ldltdecomp (a : Mat) (m : Mem 𝕜) : R (Nat × Mem 𝕜) := do
  cassert (decide (a.rows = a.cols))
  ldltLoop a a.rows ((a.rows + (2 ^ 32 - 1)) % 2 ^ 32) 0 m

/-- factorizations.c:2129-2135 `ldltsolve_amatrix_avector(a, x)`. -/
def ldltsolveVec (a : Mat) (x : Vec) (m : Mem 𝕜) : R (Mem 𝕜) := do
  let m ← trisolveVec true true false a x m
  let m ← diagsolveVec false a x m
  trisolveVec true true true a x m

/-- factorizations.c:2137-2145 `ldltsolve_amatrix(a, x)`. -/
def ldltsolve (a x : Mat) (m : Mem 𝕜) : R (Mem 𝕜) := do
  cassert (decide (a.cols = x.rows))
  let m ← trisolve true true false a false x m
  let m ← diagsolve false a false x m
  trisolve true true true a false x m

end H2.Dense
