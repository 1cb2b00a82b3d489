import Verif.Spec.Harith
import Verif.Spec.Factor

/-! Specifications for H-matrices in memory used as triangular factors (C45). -/

namespace H2.Spec
variable {G K : Type}

/-- Row and column cluster are the same, and the diagonal blocks are subdivided symmetrically down to dense diagonal leaves. -/
def HSqOk : HMat G → Prop
  | .rk .. => False
  | .full t s _ _ => t = s
  | .super t s _ m n son => t = s ∧ ∃ e : m = n, ∀ i, HSqOk (son i (Fin.cast e i))

/-- the contents of a dense matrix -/
def readMat [Zero K] (m : Mem K) (a : Mat) : VMat K := ⟨a.rows, a.cols, a.val m⟩

/-- the contents of an H-matrix in memory -/
def readH [Zero K] (m : Mem K) : HMat G → HV G K
  | .rk t s _ r => .rk t s ⟨readMat m r.A, readMat m r.B, r.k⟩
  | .full t s _ f => .full t s (readMat m f)
  | .super t s _ k n son => .super t s k n fun i j => readH m (son i j)

/-- The H-matrix `h` in memory contains the matrix `a`: it has the same block structure and the same entries. -/
def Stores [CommRing K] [StarRing K] (m : Mem K) (h : HMat G) (a : HV G K) : Prop :=
  SameShape a (readH m h) ∧ ∀ i < a.rsize, ∀ j < a.csize, hentry (readH m h) i j = hentry a i j

/-- `D` is the matrix `A` in the original numbering: position `i` of the cluster belongs to the degree of freedom `idx[off + i]`. -/
def InDofs (idx : Arr Nat) (off n : Nat) (A D : Nat → Nat → K) : Prop :=
  ∀ i < n, ∀ j < n, D (idx.v (off + i)) (idx.v (off + j)) = A i j

end H2.Spec
