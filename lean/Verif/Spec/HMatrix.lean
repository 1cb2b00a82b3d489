import Verif.Model.HMatrix
import Verif.Spec.Rk
import Verif.Spec.Block

/-! Specifications for H-matrices (C32–C34). -/

namespace H2.Spec
variable {G : Type _} {K : Type _}

/-- The leaves, column by column. -/
def hleaves : HMat G → List (HMat G)
  | .rk t s d r => [.rk t s d r]
  | .full t s d f => [.full t s d f]
  | .super _ _ _ m n son =>
    (List.finRange n).flatMap fun j => (List.finRange m).flatMap fun i => hleaves (son i j)

/-- all matrix blocks, fathers before sons -/
def hnodes : HMat G → List (HMat G)
  | .rk t s d r => [.rk t s d r]
  | .full t s d f => [.full t s d f]
  | .super t s d m n son => .super t s d m n son ::
    (List.finRange n).flatMap fun j => (List.finRange m).flatMap fun i => hnodes (son i j)

/-- Entry `(i, j)` of the matrix stored in a leaf (local numbering). -/
def leafVal [CommRing K] [StarRing K] (m : Mem K) : HMat G → Nat → Nat → K
  | .rk _ _ _ r, i, j => r.val m i j
  | .full _ _ _ f, i, j => f.val m i j
  | .super .., _, _ => 0

/-- Entry `(r, c)` of the represented matrix, `r` and `c` being positions in the index arrays of the row and column
cluster tree: the sum of all leaves whose clusters contain these positions. -/
noncomputable def place [CommRing K] [StarRing K] (m : Mem K) (h : HMat G) (r c : Nat) : K :=
  ((hleaves h).map fun l =>
    if l.rc.cl.off ≤ r ∧ r < l.rc.cl.off + l.rc.cl.size ∧ l.cc.cl.off ≤ c ∧ c < l.cc.cl.off + l.cc.cl.size then
      leafVal m l (r - l.rc.cl.off) (c - l.cc.cl.off) else 0).sum

/-- Entry `(a, b)` of the represented matrix in the original numbering of the degrees of freedom: every leaf is placed
at the row indices `ridx` and column indices `cidx` of its clusters. -/
noncomputable def dense [CommRing K] [StarRing K] (ridx cidx : Nat → Nat) (m : Mem K) (h : HMat G) (a b : Nat) : K :=
  ((hleaves h).map fun l => ∑ i ∈ Finset.range l.rc.cl.size, ∑ j ∈ Finset.range l.cc.cl.size,
    if ridx (l.rc.cl.off + i) = a ∧ cidx (l.cc.cl.off + j) = b then leafVal m l i j else 0).sum

/-- The clusters `R 0, …, R (n-1)` are consecutive segments that make up the cluster `t`. -/
def Segments (t : CRef G) {n : Nat} (R : Fin n → CRef G) : Prop :=
  (∀ i, (R i).cl.off = t.cl.off + ∑ k : Fin n, if k.1 < i.1 then (R k).cl.size else 0) ∧
  ∑ k, (R k).cl.size = t.cl.size

/-- The sizes of the leaves match their clusters, and the clusters of the sons of a block form a grid of segments of the
clusters of the block. -/
def HOk : HMat G → Prop
  | .rk t s _ r => r.A.rows = t.cl.size ∧ r.B.rows = s.cl.size
  | .full t s _ f => f.rows = t.cl.size ∧ f.cols = s.cl.size
  | .super t s _ m n son => 0 < m ∧ 0 < n ∧
    (∃ (R : Fin m → CRef G) (C : Fin n → CRef G), (∀ i j, (son i j).rc = R i ∧ (son i j).cc = C j) ∧
      Segments t R ∧ Segments s C) ∧ ∀ i j, HOk (son i j)

/-- All leaves are allocated. -/
def HValid (m : Mem K) : HMat G → Prop
  | .rk _ _ _ r => r.Valid m
  | .full _ _ _ f => f.Valid m
  | .super _ _ _ _ _ son => ∀ i j, HValid m (son i j)

/-- cells of the leaves -/
def HCell : HMat G → Nat → Prop
  | .rk _ _ _ r, c => r.Cell c
  | .full _ _ _ f, c => f.Cell c
  | .super _ _ _ _ _ son, c => ∃ i j, HCell (son i j) c

/-- `idx[off], …, idx[off + n - 1]` are the numbers `0, …, n-1` in some order. -/
def IsPerm (idx : Arr Nat) (off n : Nat) : Prop :=
  off + n ≤ idx.n ∧ (∀ i < n, idx.v (off + i) < n) ∧
  ∀ i < n, ∀ j < n, idx.v (off + i) = idx.v (off + j) → i = j

/-- the self-adjoint matrix with the lower triangle of `A` -/
def lowerSymm [Star K] (A : Nat → Nat → K) (i j : Nat) : K := if j ≤ i then A i j else star (A j i)

/-- What `addevalsymm_hmatrix_avector` needs: along the diagonal the row cluster is the column cluster, sons correspond
to the sons of the cluster, and leaves are dense. -/
def SymmOk : HMat G → Prop
  | .rk .. => False
  | .full t s _ _ => t = s
  | .super t s _ m n son => t = s ∧ ∃ e : m = n, m = t.nsons ∧
      (∀ (i : Fin t.nsons) (h : i.1 < m), (son ⟨i.1, h⟩ (Fin.cast e ⟨i.1, h⟩)).rc = t.son i) ∧
      ∀ i, SymmOk (son i (Fin.cast e i))

end H2.Spec

namespace H2.Spec
variable {G : Type _}

/-- Different leaves do not share memory. -/
def HDisj : HMat G → Prop
  | .rk .. => True
  | .full .. => True
  | .super _ _ _ _ _ son => (∀ i j i' j', (i, j) ≠ (i', j') → Disj (HCell (son i j)) (HCell (son i' j'))) ∧
    ∀ i j, HDisj (son i j)

/-- Every `desc` field is the number of blocks in the submatrix. -/
def HDescExact (h : HMat G) : Prop := ∀ s ∈ hnodes h, s.desc = (hnodes s).length

end H2.Spec
