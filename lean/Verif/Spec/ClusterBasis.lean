import Verif.Model.ClusterBasis
import Verif.Spec.HMatrix

/-! Specifications for cluster bases (C38, C39). -/

namespace H2.Spec
variable {G : Type _} {K : Type _}

/-- position `r` of the index array belongs to the cluster -/
def In (t : CRef G) (r : Nat) : Prop := t.cl.off ≤ r ∧ r < t.cl.off + t.cl.size
instance (t : CRef G) (r : Nat) : Decidable (In t r) := inferInstanceAs (Decidable (_ ∧ _))

/-- Offset of the `i`-th of consecutive segments of lengths `sz 0, sz 1, …`. -/
def ofs {n : Nat} (sz : Fin n → Nat) (i : Fin n) : Nat := ∑ k : Fin n, if k.1 < i.1 then sz k else 0

/-- Entry `(r, l)` of the cluster basis matrix `V_t`, `r` being a position in the index array: the stored matrix for leaves,
otherwise the matrix with the blocks `V_{t'} E_{t'}` for the sons `t'`. -/
noncomputable def basis [CommRing K] (m : Mem K) : CBas G → Nat → Nat → K
  | .mk t _ _ _ V _ n son, r, l =>
    if n = 0 then (if In t r then V.val m (r - t.cl.off) l else 0)
    else ∑ i : Fin n, ∑ nu ∈ Finset.range (son i).k, basis m (son i) r nu * (son i).E.val m nu l

/-- The dimensions of the matrices match, the clusters of the sons partition the cluster, `ktree` is the sum of all ranks
plus the sizes of the leaves. -/
def CbOk : CBas G → Prop
  | .mk t k ktree _ V _ n son =>
    (n = 0 → V.rows = t.cl.size ∧ V.cols = k ∧ ktree = k + t.cl.size) ∧
    (0 < n → Segments t (fun i => (son i).t) ∧ ktree = k + ∑ i, (son i).ktree) ∧
    ∀ i, (son i).E.rows = (son i).k ∧ (son i).E.cols = k ∧ CbOk (son i)

/-- the matrices used by the transformations are allocated -/
def CbValid (m : Mem K) : CBas G → Prop
  | .mk _ _ _ _ V _ n son => (n = 0 → V.Valid m) ∧ ∀ i, (son i).E.Valid m ∧ CbValid m (son i)

/-- cells of the matrices used by the transformations -/
def CbCell : CBas G → Nat → Prop
  | .mk _ _ _ _ V _ n son, c => (n = 0 ∧ V.Cell c) ∨ ∃ i, (son i).E.Cell c ∨ CbCell (son i) c

/-- `Y` is the vector of coefficients of `X`: first `V_t^* X` for the root cluster `t`, then, for a leaf, a copy of the
entries of `X`, otherwise the coefficients of the sons one after the other. -/
def IsCoeffs [CommRing K] [StarRing K] (m : Mem K) : CBas G → (X Y : Nat → K) → Prop
  | .mk t k kt kb V E n son, X, Y =>
    (∀ l < k, Y l = ∑ i ∈ Finset.range t.cl.size,
      star (basis m (.mk t k kt kb V E n son) (t.cl.off + i) l) * X (t.cl.off + i)) ∧
    (n = 0 → ∀ i < t.cl.size, Y (k + i) = X (t.cl.off + i)) ∧
    ∀ i, IsCoeffs m (son i) X (fun q => Y (k + ofs (fun i => (son i).ktree) i + q))

/-- Entry at position `r` of the vector represented by the coefficients `Y`: the sum of `V_t Y_t` over all clusters `t`
that contain `r`, plus the entry of `Y` for `r` in the leaf that contains `r`. -/
noncomputable def synth [CommRing K] (m : Mem K) : CBas G → (Nat → K) → Nat → K
  | .mk t k kt kb V E n son, Y, r =>
    if In t r then
      ∑ l ∈ Finset.range k, basis m (.mk t k kt kb V E n son) r l * Y l +
      (if n = 0 then Y (k + (r - t.cl.off)) else 0) +
      ∑ i, synth m (son i) (fun q => Y (k + ofs (fun i => (son i).ktree) i + q)) r
    else 0

/-- the segments `(offset, length)` of the coefficient vector, beginning at `o`: for every cluster its `k` coefficients,
for every leaf cluster in addition its entries -/
def segs : CBas G → Nat → List (Nat × Nat)
  | .mk t k _ _ _ _ n son, o => (o, k) ::
    ((if n = 0 then [(o + k, t.cl.size)] else []) ++
      (List.finRange n).flatMap fun i => segs (son i) (o + k + ofs (fun i => (son i).ktree) i))

/-- `y[idx[r]] += g r` for all positions `r` of the cluster -/
def addAt [AddCommMonoid K] (idx : Arr Nat) (t : CRef G) (g : Nat → K) (p : Nat) : K :=
  ∑ i ∈ Finset.range t.cl.size, if idx.v (t.cl.off + i) = p then g (t.cl.off + i) else 0

/-- the index array is large enough and its entries for the cluster are less than `n` -/
def IdxOk (idx : Arr Nat) (t : CRef G) (n : Nat) : Prop :=
  t.cl.off + t.cl.size ≤ idx.n ∧ ∀ r, In t r → idx.v r < n

/-- the clusters of the sons are the sons of the cluster -/
def CbSons : CBas G → Prop
  | .mk t _ _ _ _ _ n son => (0 < n → ∃ e : n = t.nsons, ∀ i : Fin n, (son i).t = t.son (Fin.cast e i)) ∧
    ∀ i, CbSons (son i)

/-- number of leaves -/
def cbLeaves : CBas G → Nat
  | .mk _ _ _ _ _ _ n son => if n = 0 then 1 else ∑ i, cbLeaves (son i)

/-- The clusters of the sons partition the cluster, `ktree` is the sum of all ranks plus the sizes of the leaves; nothing is
said about the matrices. -/
def CbLay : CBas G → Prop
  | .mk t k ktree _ _ _ n son => (n = 0 → ktree = k + t.cl.size) ∧
    (0 < n → Segments t (fun i => (son i).t) ∧ ktree = k + ∑ i, (son i).ktree) ∧ ∀ i, CbLay (son i)

/-- Every cluster, also those with sons, has its matrix `V` (as the functions without transfer matrices need). -/
def CbFull (m : Mem K) : CBas G → Prop
  | .mk t k _ _ V _ _ son => V.rows = t.cl.size ∧ V.cols = k ∧ V.Valid m ∧ ∀ i, CbFull m (son i)

/-- cells of all matrices `V` -/
def CbVCell : CBas G → Nat → Prop
  | .mk _ _ _ _ V _ _ son, c => V.Cell c ∨ ∃ i, CbVCell (son i) c

/-- as `IsCoeffs`, with the matrix `V` stored in each cluster -/
def IsCoeffsV [CommRing K] [StarRing K] (m : Mem K) : CBas G → (X Y : Nat → K) → Prop
  | .mk t k _ _ V _ n son, X, Y =>
    (∀ l < k, Y l = ∑ i ∈ Finset.range t.cl.size, star (V.val m i l) * X (t.cl.off + i)) ∧
    (n = 0 → ∀ i < t.cl.size, Y (k + i) = X (t.cl.off + i)) ∧
    ∀ i, IsCoeffsV m (son i) X (fun q => Y (k + ofs (fun i => (son i).ktree) i + q))

/-- as `synth`, with the matrix `V` stored in each cluster -/
noncomputable def synthV [CommRing K] (m : Mem K) : CBas G → (Nat → K) → Nat → K
  | .mk t k _ _ V _ n son, Y, r =>
    if In t r then
      ∑ l ∈ Finset.range k, V.val m (r - t.cl.off) l * Y l +
      (if n = 0 then Y (k + (r - t.cl.off)) else 0) +
      ∑ i, synthV m (son i) (fun q => Y (k + ofs (fun i => (son i).ktree) i + q)) r
    else 0

/-- number of coefficients: the ranks of all clusters plus the sizes of the leaves -/
def coeffCount : CBas G → Nat
  | .mk t k _ _ _ _ n son => k + (if n = 0 then t.cl.size else ∑ i, coeffCount (son i))

/-- largest number of coefficients on a path from the root to a leaf -/
def branchCount : CBas G → Nat
  | .mk t k _ _ _ _ n son => k + (if n = 0 then t.cl.size else Finset.univ.sup fun i => branchCount (son i))

/-- the same tree, with the same clusters, ranks and matrices -/
def SameTree : CBas G → CBas G → Prop
  | .mk t k _ _ V E n son, .mk t' k' _ _ V' E' n' son' => t' = t ∧ k' = k ∧ V' = V ∧ E' = E ∧
    ∃ e : n' = n, ∀ i, SameTree (son (Fin.cast e i)) (son' i)

/-- the stored numbers of coefficients are correct in all clusters -/
def CountsOk : CBas G → Prop
  | .mk t k kt kb V E n son => kt = coeffCount (.mk t k kt kb V E n son) ∧ kb = branchCount (.mk t k kt kb V E n son) ∧
    ∀ i, CountsOk (son i)

end H2.Spec
