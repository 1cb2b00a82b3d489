import Verif.Spec.HMatrix
import Verif.Spec.Block

/-! An H-matrix and a block tree of the same shape, and an H-matrix that is coarser than a block tree. -/

namespace H2.Spec

variable {G : Type _}

/-- The H-matrix has the same blocks as the block tree: the same clusters and the same numbers of sons everywhere. -/
def SameBlocks : H2.Block G → HMat G → Prop
  | .mk rc cc _ _ m n _, .rk t s _ _ => t = rc ∧ s = cc ∧ m * n = 0
  | .mk rc cc _ _ m n _, .full t s _ _ => t = rc ∧ s = cc ∧ m * n = 0
  | .mk rc cc _ _ m n son, .super t s _ m' n' hson => t = rc ∧ s = cc ∧ m = m' ∧ n = n' ∧
    ∀ i j i' j', i.1 = i'.1 → j.1 = j'.1 → SameBlocks (son i j) (hson i' j')

/-- As `SameBlocks`, but blocks of the tree that belong to leaves of the H-matrix may have sons. -/
def CoarserHMat : H2.Block G → HMat G → Prop
  | .mk rc cc _ _ _ _ _, .rk t s _ _ => t = rc ∧ s = cc
  | .mk rc cc _ _ _ _ _, .full t s _ _ => t = rc ∧ s = cc
  | .mk rc cc _ _ m n son, .super t s _ m' n' hson => t = rc ∧ s = cc ∧ m = m' ∧ n = n' ∧
    ∀ i j i' j', i.1 = i'.1 → j.1 = j'.1 → CoarserHMat (son i j) (hson i' j')

end H2.Spec
