import Verif.Spec.H2Mul

/-! Specifications for clearing, scaling and converting H2-matrices (C87). -/

namespace H2.Spec
variable {G : Type}

/-- The matrices of different leaves do not overlap. -/
def H2Sep : H2Mat G → Prop
  | .zero _ _ => True
  | .uni _ _ _ => True
  | .full _ _ _ => True
  | .super _ _ _ _ son => (∀ i j i' j', ¬ (i = i' ∧ j = j') → Disj (H2Cell (son i j)) (H2Cell (son i' j'))) ∧ ∀ i j, H2Sep (son i j)

end H2.Spec
