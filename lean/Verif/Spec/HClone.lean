import Verif.Spec.HMatrix
import Verif.Spec.Rk
import Verif.Spec.H2Solve

/-! Copies of H-matrices. -/

namespace H2.Spec
variable {G : Type} {K : Type} [Field K] [StarRing K]

/-- `h'` in memory `m'` has the same blocks, ranks and coefficients as `h` in memory `m`. -/
def HCopyOf (m m' : Mem K) : HMat G → HMat G → Prop
  | .rk t s _ r, .rk t' s' _ r' => t' = t ∧ s' = s ∧ r'.k = r.k ∧ (∀ i < t.cl.size, ∀ l < r.k, r'.A.val m' i l = r.A.val m i l) ∧
    ∀ j < s.cl.size, ∀ l < r.k, r'.B.val m' j l = r.B.val m j l
  | .full t s _ f, .full t' s' _ f' => t' = t ∧ s' = s ∧ ∀ i < t.cl.size, ∀ j < s.cl.size, f'.val m' i j = f.val m i j
  | .super t s _ a b son, .super t' s' _ a' b' son' => t' = t ∧ s' = s ∧ a' = a ∧ b' = b ∧
    ∀ i j i' j', i.1 = i'.1 → j.1 = j'.1 → HCopyOf m m' (son i j) (son' i' j')
  | _, _ => False

end H2.Spec
