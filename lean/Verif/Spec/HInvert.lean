import Verif.Model.HInvert
import Verif.Spec.Harith
import Verif.Spec.Factor

/-! # Specification for the inversion of H-matrices (C67) -/

namespace H2.Spec
variable {G : Type} {𝕜 : Type} [RCLike 𝕜]

/-- For each dense leaf on the diagonal, the leading principal submatrix of `A` that ends with the indices of this leaf is invertible; `off` is the first index of `A` in the numbering of the
clusters. -/
def LeadRegular (A : Nat → Nat → 𝕜) (off : Nat) : HV G 𝕜 → Prop
  | .rk .. => True
  | .full t _ _ => minor A (t.cl.off + t.cl.size - off) ≠ 0
  | .super _ _ m n son => ∀ (i : Fin m) (j : Fin n), i.1 = j.1 → LeadRegular A off (son i j)

end H2.Spec
