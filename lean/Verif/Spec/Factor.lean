import Verif.Model.Factor
import Verif.Spec.Dense
import Mathlib.LinearAlgebra.Matrix.Determinant.Basic

/-! Specifications for triangular matrices and factorizations (C41–C44). -/

namespace H2.Spec
variable {K : Type _}

/-- Entry `(i, j)` of the triangular (or trapezoidal) matrix that is stored in one triangle of `A`: the diagonal counts as
one if `unit` is set, the other triangle as zero. -/
def tri [Zero K] [One K] (lower unit : Bool) (A : Nat → Nat → K) (i j : Nat) : K :=
  if i = j then (if unit then 1 else A i i)
  else if (if lower then j < i else i < j) then A i j else 0

/-- `det` of the leading `k × k` block -/
noncomputable def minor [CommRing K] (A : Nat → Nat → K) (k : Nat) : K := Matrix.det (Matrix.of fun i j : Fin k => A i j)

/-- `p` is the result of a decomposition of an `n × n` matrix: zero if all leading minors are non-zero, otherwise the order of
the first one that vanishes. -/
def FirstZeroMinor [CommRing K] (A : Nat → Nat → K) (n p : Nat) : Prop :=
  (p = 0 ∧ ∀ k ≤ n, minor A k ≠ 0) ∨ (0 < p ∧ p ≤ n ∧ minor A p = 0 ∧ ∀ k < p, minor A k ≠ 0)

end H2.Spec
