import Verif.Model.Harith
import Verif.Spec.HMatrix

/-! Specifications for the arithmetic of H-matrices (C45, C46). -/

namespace H2.Spec
variable {G K : Type}

/-- entry `(i, j)` of `A B^*` -/
def rkVal [CommRing K] [StarRing K] (r : VRk K) (i j : Nat) : K :=
  ∑ nu ∈ Finset.range r.k, r.A.e i nu * star (r.B.e j nu)

/-- both factors have `k` columns -/
def RkOk (r : VRk K) : Prop := r.A.cols = r.k ∧ r.B.cols = r.k

/-- Entry `(r, c)` of the represented matrix, `r` and `c` being positions in the index arrays of the row and column
cluster tree: the sum of all leaves whose clusters contain these positions. -/
def hval [CommRing K] [StarRing K] : HV G K → Nat → Nat → K
  | .rk t s x, r, c =>
    if (t.cl.off ≤ r ∧ r < t.cl.off + t.cl.size) ∧ s.cl.off ≤ c ∧ c < s.cl.off + s.cl.size then
      rkVal x (r - t.cl.off) (c - s.cl.off) else 0
  | .full t s f, r, c =>
    if (t.cl.off ≤ r ∧ r < t.cl.off + t.cl.size) ∧ s.cl.off ≤ c ∧ c < s.cl.off + s.cl.size then
      f.e (r - t.cl.off) (c - s.cl.off) else 0
  | .super _ _ m n son, r, c => ∑ i : Fin m, ∑ j : Fin n, hval (son i j) r c

/-- Entry `(i, j)` of the represented matrix, counted from the first row and column of the block. -/
def hentry [CommRing K] [StarRing K] (h : HV G K) (i j : Nat) : K := hval h (h.rc.cl.off + i) (h.cc.cl.off + j)

/-- Entry `(i, j)` of the represented matrix or its adjoint. -/
def ohentry [CommRing K] [StarRing K] (trans : Bool) (h : HV G K) (i j : Nat) : K :=
  if trans then star (hentry h j i) else hentry h i j

/-- The sizes of the leaves match their clusters, and the clusters of the sons of a block form a grid of segments of the
clusters of the block. -/
def HVOk : HV G K → Prop
  | .rk t s r => RkOk r ∧ r.A.rows = t.cl.size ∧ r.B.rows = s.cl.size
  | .full t s f => f.rows = t.cl.size ∧ f.cols = s.cl.size
  | .super t s m n son => 0 < m ∧ 0 < n ∧
    (∃ (R : Fin m → CRef G) (C : Fin n → CRef G), (∀ i j, (son i j).rc = R i ∧ (son i j).cc = C j) ∧
      Segments t R ∧ Segments s C) ∧ ∀ i j, HVOk (son i j)

/-- the `i`-th son of a cluster; a cluster without sons is kept -/
def kid (t : CRef G) (i : Nat) : CRef G := if h : i < t.nsons then t.son ⟨i, h⟩ else t

/-- Subdivided blocks follow the cluster trees: a cluster with sons is replaced by its sons, a cluster without sons is
kept, as in the block trees built by `build_strict_block` and `build_nonstrict_block`. -/
def HVStd : HV G K → Prop
  | .rk .. => True
  | .full .. => True
  | .super t s m n son => (0 < t.nsons ∨ 0 < s.nsons) ∧ m = max 1 t.nsons ∧ n = max 1 s.nsons ∧
    ∀ i j, (son i j).rc = kid t i ∧ (son i j).cc = kid s j ∧ HVStd (son i j)

/-- Row and column cluster are the same, and the diagonal blocks are subdivided symmetrically down to dense diagonal leaves. -/
def SqOk : HV G K → Prop
  | .rk .. => False
  | .full t s _ => t = s
  | .super t s m n son => t = s ∧ ∃ e : m = n, ∀ i, SqOk (son i (Fin.cast e i))

/-- The orders of the dense diagonal leaves are positive and fit into `uint`. -/
def DiagSizes : HV G K → Prop
  | .rk .. => True
  | .full t _ _ => 0 < t.cl.size ∧ t.cl.size < 2 ^ 32
  | .super _ _ m n son => ∀ (i : Fin m) (j : Fin n), i.1 = j.1 → DiagSizes (son i j)

/-- `h` and `h'` have the same clusters and the same block structure; low-rank blocks stay low-rank blocks, dense
blocks stay dense blocks. -/
def SameShape : HV G K → HV G K → Prop
  | .rk t s _, .rk t' s' _ => t = t' ∧ s = s'
  | .full t s _, .full t' s' _ => t = t' ∧ s = s'
  | .super t s m n son, .super t' s' m' n' son' => t = t' ∧ s = s' ∧ ∃ (e : m = m') (e' : n = n'),
      ∀ i j, SameShape (son i j) (son' (Fin.cast e i) (Fin.cast e' j))
  | _, _ => False

/-- The truncated operations are exact: they never fail on operands with matching dimensions and return low-rank
representations of the sum or the merged matrix. -/
structure Lossless [Field K] [StarRing K] (T : TruncOps K) : Prop where
  addRk : ∀ (alpha : K) (src trg : VRk K), RkOk src → RkOk trg → src.A.rows = trg.A.rows → src.B.rows = trg.B.rows →
    ∃ r, T.addRk alpha src trg = .ok r ∧ RkOk r ∧ r.A.rows = trg.A.rows ∧ r.B.rows = trg.B.rows ∧
      ∀ i < trg.A.rows, ∀ j < trg.B.rows, rkVal r i j = rkVal trg i j + alpha * rkVal src i j
  addAm : ∀ (alpha : K) (atrans : Bool) (a : VMat K) (trg : VRk K), RkOk trg → a.orows atrans = trg.A.rows →
    a.ocols atrans = trg.B.rows →
    ∃ r, T.addAm alpha atrans a trg = .ok r ∧ RkOk r ∧ r.A.rows = trg.A.rows ∧ r.B.rows = trg.B.rows ∧
      ∀ i < trg.A.rows, ∀ j < trg.B.rows, rkVal r i j = rkVal trg i j + alpha * a.oe atrans i j
  mergeCol : ∀ src trg : VRk K, RkOk src → RkOk trg → src.B.rows = trg.B.rows →
    ∃ r, T.merge true src trg = .ok r ∧ RkOk r ∧ r.A.rows = trg.A.rows + src.A.rows ∧ r.B.rows = trg.B.rows ∧
      ∀ i < trg.A.rows + src.A.rows, ∀ j < trg.B.rows, rkVal r i j =
        if i < trg.A.rows then rkVal trg i j else rkVal src (i - trg.A.rows) j
  mergeRow : ∀ src trg : VRk K, RkOk src → RkOk trg → src.A.rows = trg.A.rows →
    ∃ r, T.merge false src trg = .ok r ∧ RkOk r ∧ r.A.rows = trg.A.rows ∧ r.B.rows = trg.B.rows + src.B.rows ∧
      ∀ i < trg.A.rows, ∀ j < trg.B.rows + src.B.rows, rkVal r i j =
        if j < trg.B.rows then rkVal trg i j else rkVal src i (j - trg.B.rows)

end H2.Spec
