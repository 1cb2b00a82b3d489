import Verif.Spec.ClusterBasis

/-! Specifications for C82. -/

namespace H2.Spec
variable {G : Type _}

/-- `kbranch` is large enough for the coefficients along every path from the cluster to a leaf. -/
def BranchOk : CBas G → Prop
  | .mk _ k _ kbranch _ _ _ son => k ≤ kbranch ∧ ∀ i, k + (son i).kbranch ≤ kbranch ∧ BranchOk (son i)

end H2.Spec
