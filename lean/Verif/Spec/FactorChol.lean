import Verif.Spec.Factor
import Mathlib.Analysis.RCLike.Basic
import Mathlib.LinearAlgebra.Matrix.PosDef

/-! # Self-adjoint matrices given by their lower triangle -/

namespace H2.Spec
variable {𝕜 : Type} [RCLike 𝕜]
open scoped ComplexOrder

/-- the self-adjoint matrix with the lower triangle of `A` -/
def herm (A : Nat → Nat → 𝕜) (i j : Nat) : 𝕜 := if j ≤ i then A i j else star (A j i)

/-- the leading block of order `k` is positive definite -/
def PD (A : Nat → Nat → 𝕜) (k : Nat) : Prop := (Matrix.of fun i j : Fin k => A i j).PosDef

/-- `p` is the order of the first leading block that is not positive definite, zero if there is none up to order `n` -/
def FirstNotPD (A : Nat → Nat → 𝕜) (n p : Nat) : Prop :=
  (p = 0 ∧ ∀ k ≤ n, PD A k) ∨ (0 < p ∧ p ≤ n ∧ ¬ PD A p ∧ ∀ k < p, PD A k)

end H2.Spec
