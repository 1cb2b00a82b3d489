import Verif.Model.Dense
import Mathlib.Analysis.RCLike.Basic

/-!
# Random test matrices (`amatrix.c`)

The outcome of the random generator is an arbitrary function: `rnd i j` is the value delivered by the call
`FIELD_RAND()` for entry `(i, j)`, `rrnd j` the value of `REAL_RAND()` for the diagonal entry `j`.  `ABS` is the
absolute value; the real and the complex build are the instances `𝕜 = ℝ` and `𝕜 = ℂ`.
-/

namespace H2.Dense
variable {𝕜 : Type} [RCLike 𝕜]

/-- amatrix.c:396-410 `random_amatrix(a)`. -/
def random (a : Mat) (rnd : Nat → Nat → 𝕜) (m : Mem 𝕜) : R (Mem 𝕜) :=
  forUp 0 a.cols (fun j m => forUp 0 a.rows (fun i m => m.write (a.addr i j) (rnd i j)) m) m

/-- amatrix.c:431-436 (and 476-481): the loop that makes the columns diagonally dominant; the diagonal entry is part
of the sum. -/
def dominate (a : Mat) (alpha : ℝ) (m : Mem 𝕜) : R (Mem 𝕜) :=
  forUp 0 a.rows (fun j m => do
    let sum ← forUp 0 a.rows (fun i (sum : ℝ) => do
      let x ← m.read (a.addr i j)
      pure (sum + ‖x‖)) 0
    m.write (a.addr j j) ((sum + alpha : ℝ) : 𝕜)) m

/-- amatrix.c:412-436 `random_invertible_amatrix(a, alpha)`. -/
def randomInvertible (a : Mat) (alpha : ℝ) (rnd : Nat → Nat → 𝕜) (m : Mem 𝕜) : R (Mem 𝕜) := do
  cassert (decide (a.rows = a.cols))
  let m ← forUp 0 a.rows (fun j m => do
    let m ← forUp 0 a.rows (fun i m => m.write (a.addr i j) (rnd i j)) m
    m.write (a.addr j j) 0) m
  dominate a alpha m

/-- amatrix.c:449-453 (and 470-473): the inner loop filling column `j` above and row `j` left of the diagonal. -/
def mirror (a : Mat) (rnd : Nat → Nat → 𝕜) (j : Nat) (m : Mem 𝕜) : R (Mem 𝕜) :=
  forUp 0 j (fun i m => do
    let m ← m.write (a.addr i j) (rnd i j)
    let x ← m.read (a.addr i j)
    m.write (a.addr j i) (star x)) m

/-- amatrix.c:438-455 `random_selfadjoint_amatrix(a)`. -/
def randomSelfadjoint (a : Mat) (rnd : Nat → Nat → 𝕜) (rrnd : Nat → ℝ) (m : Mem 𝕜) : R (Mem 𝕜) := do
  cassert (decide (a.rows = a.cols))
  forUp 0 a.rows (fun j m => do
    let m ← mirror a rnd j m
    m.write (a.addr j j) ((rrnd j : ℝ) : 𝕜)) m

/-- amatrix.c:458-482 `random_spd_amatrix(a, alpha)`. -/
def randomSpd (a : Mat) (alpha : ℝ) (rnd : Nat → Nat → 𝕜) (m : Mem 𝕜) : R (Mem 𝕜) := do
  cassert (decide (a.rows = a.cols))
  let m ← forUp 0 a.rows (fun j m => do
    let m ← mirror a rnd j m
    m.write (a.addr j j) 0) m
  dominate a alpha m

end H2.Dense
