import Verif.Spec.HMatrix
import Verif.Spec.Sparse
import Verif.Spec.Harith
import Verif.Model.HFill

/-! Specifications for filling H-matrices (C84). -/

namespace H2.Spec
variable {G : Type} {K : Type}

/-- `r` is one of the positions of the cluster `t` in the index array -/
def InSeg (t : CRef G) (r : Nat) : Prop := t.cl.off ≤ r ∧ r < t.cl.off + t.cl.size

/-- the position `(r, c)` belongs to a dense leaf -/
def DensePos : HMat G → Nat → Nat → Prop
  | .rk .., _, _ => False
  | .full t s _ _, r, c => InSeg t r ∧ InSeg s c
  | .super _ _ _ _ _ son, r, c => ∃ i j, DensePos (son i j) r c

/-- the dense leaves are stored without gaps between the columns -/
def Packed : HMat G → Prop
  | .rk .. => True
  | .full _ _ _ f => f.ld = f.rows
  | .super _ _ _ _ _ son => ∀ i j, Packed (son i j)

/-- leaves that meet the diagonal are dense and belong to a pair of equal clusters, and the function can see that -/
def DiagDense : HV G K → Prop
  | .rk t s _ => (∀ r, InSeg t r → ¬ InSeg s r)
  | .full t s _ => t = s ∨ (t.same s = false ∧ (∀ r, InSeg t r → ¬ InSeg s r))
  | .super _ _ _ _ son => ∀ i j, DiagDense (son i j)

/-- the position `(r, c)` belongs to a low-rank leaf on the diagonal of the block structure -/
def RkDiag : HV G K → Nat → Nat → Prop
  | .rk t s _, r, c => InSeg t r ∧ InSeg s c
  | .full .., _, _ => False
  | .super _ _ m n son, r, c => ∃ (i : Fin m) (j : Fin n), i.1 = j.1 ∧ RkDiag (son i j) r c

/-- row and column clusters agree along the diagonal -/
def DiagSquare : HV G K → Prop
  | .rk t s _ => t = s
  | .full t s _ => t = s
  | .super t s m n son => t = s ∧ m = n ∧ ∀ (i : Fin m) (j : Fin n), i.1 = j.1 → DiagSquare (son i j)

end H2.Spec
