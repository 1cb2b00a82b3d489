import Verif.Model.NormEst
import Verif.Spec.KrylovSolve

/-! # Specification of the norm estimates (C68) -/

namespace H2.Spec
variable {𝕜 : Type} [RCLike 𝕜]

/-- the product `A^* A f` -/
def gram (rows cols : Nat) (A : Nat → Nat → 𝕜) (f : Nat → 𝕜) : Nat → 𝕜 := mv rows (op true A) (mv cols A f)

/-- `r` is the estimate of the spectral norm of the `rows × cols` matrix `A` computed by twenty steps of the vector iteration started with `x0` -/
structure NormEst (rows cols : Nat) (A : Nat → Nat → 𝕜) (x0 : Nat → 𝕜) (r : ℝ) : Prop where
  /-- the value, zero if the denominator vanishes -/
  value : r = Real.sqrt (nrm cols ((gram rows cols A)^[20] x0) / nrm cols ((gram rows cols A)^[19] x0))
  nonneg : 0 ≤ r
  /-- it never exceeds the norm -/
  below : ∀ M : ℝ, 0 ≤ M → (∀ f : Nat → 𝕜, nrm rows (mv cols A f) ≤ M * nrm cols f) → r ≤ M
  /-- it is at least as good as the quotient of the starting vector -/
  above : nrm rows (mv cols A x0) ≤ r * nrm cols x0

/-- the entries of a matrix, zero outside -/
def entries {n : Nat} (B : Matrix (Fin n) (Fin n) 𝕜) (i j : Nat) : 𝕜 := if h : i < n ∧ j < n then B ⟨i, h.1⟩ ⟨j, h.2⟩ else 0

end H2.Spec
