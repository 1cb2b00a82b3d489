import Verif.Spec.Dense
import Mathlib.Analysis.RCLike.Basic
import Mathlib.Analysis.Real.Sqrt

namespace H2.Spec
open Dense
variable {𝕜 : Type} [RCLike 𝕜]

/-- Frobenius norm of the matrix with `r` rows, `c` columns and entries `A i j` -/
noncomputable def frob (r c : Nat) (A : Nat → Nat → 𝕜) : ℝ := Real.sqrt (∑ i ∈ Finset.range r, ∑ j ∈ Finset.range c, ‖A i j‖ ^ 2)

/-- entry of `I - A* A` if `A` has `r` rows -/
def defect (r : Nat) (A : Nat → Nat → 𝕜) (j k : Nat) : 𝕜 := (if j = k then 1 else 0) - ∑ i ∈ Finset.range r, star (A i j) * A i k

/-- The `c` columns of `A` with `r` rows are orthonormal. -/
def OrthoCols (r c : Nat) (A : Nat → Nat → 𝕜) : Prop :=
  ∀ j < c, ∀ k < c, ∑ i ∈ Finset.range r, star (A i j) * A i k = if j = k then 1 else 0

end H2.Spec
