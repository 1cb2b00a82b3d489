import Mathlib.LinearAlgebra.UnitaryGroup
import Verif.Spec.Eigen

/-! Specifications for the tridiagonalization (C72). -/

namespace H2.Spec

/-- the self-adjoint tridiagonal matrix with diagonal `d` and subdiagonal `s` -/
def herTri {𝕜 : Type} [RCLike 𝕜] (n : Nat) (d : Nat → ℝ) (s : Nat → 𝕜) : Matrix (Fin n) (Fin n) 𝕜 := fun i j =>
  if i.1 = j.1 then (d i : 𝕜) else if i.1 = j.1 + 1 then s j else if j.1 = i.1 + 1 then star (s i) else 0

/-- the entries of a matrix in memory -/
def vmat {𝕜 : Type} {n : Nat} (A : VMat 𝕜) : Matrix (Fin n) (Fin n) 𝕜 := fun i j => A.e i j

end H2.Spec
