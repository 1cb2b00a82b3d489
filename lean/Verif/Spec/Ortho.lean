import Verif.Model.Ortho
import Verif.Spec.ClusterBasis

/-! Specifications for the orthogonalization of cluster bases and for cluster operators (C58, C59). -/

namespace H2.Spec
variable {G K : Type}

/-- Entry `(r, l)` of the cluster basis matrix `V_t`, `r` being a position in the index array: the stored matrix for leaves,
otherwise the matrix with the blocks `V_{t'} E_{t'}` for the sons `t'`. -/
def vbasis [CommRing K] : CBV G K → Nat → Nat → K
  | .mk t _ _ _ V _ n son, r, l =>
    if n = 0 then (if In t r then V.e (r - t.cl.off) l else 0)
    else ∑ i : Fin n, ∑ nu ∈ Finset.range (son i).k, vbasis (son i) r nu * (son i).E.e nu l

/-- The dimensions of the matrices match, the clusters of the sons partition the cluster. -/
def CBVOk : CBV G K → Prop
  | .mk t k _ _ V _ n son => (n = 0 → V.rows = t.cl.size ∧ V.cols = k) ∧ (0 < n → Segments t (fun i => (son i).t)) ∧
    ∀ i, (son i).E.rows = (son i).k ∧ (son i).E.cols = k ∧ CBVOk (son i)

/-- Entry `(a, b)` of `V_t^* W_t` for two bases of the same cluster. -/
def cross [CommRing K] [StarRing K] (cb cb' : CBV G K) (a b : Nat) : K :=
  ∑ i ∈ Finset.range cb.t.cl.size, star (vbasis cb (cb.t.cl.off + i) a) * vbasis cb' (cb.t.cl.off + i) b

/-- `V_t^* V_t = I` for all clusters `t` -/
def Orthonormal [CommRing K] [StarRing K] : CBV G K → Prop
  | .mk t k kt kb V E n son => (∀ a < k, ∀ b < k, cross (.mk t k kt kb V E n son) (.mk t k kt kb V E n son) a b = if a = b then 1 else 0) ∧
    ∀ i, Orthonormal (son i)

/-- the tree of the cluster operator has the structure of the tree of the basis -/
def OpTree : COp G K → CBV G K → Prop
  | .mk _ _ _ _ n son, .mk _ _ _ _ _ _ n' son' => ∃ e : n' = n, ∀ i, OpTree (son (Fin.cast e i)) (son' i)

/-- `cb'` is a basis for the same cluster tree; no rank has become larger, and no rank exceeds the size of the cluster. -/
def Reduced : CBV G K → CBV G K → Prop
  | .mk t k _ _ _ _ n son, .mk t' k' _ _ _ _ n' son' => t' = t ∧ k' ≤ k ∧ k' ≤ t.cl.size ∧ ∃ e : n' = n, ∀ i, Reduced (son (Fin.cast e i)) (son' i)

/-- The cluster operator describes the change of bases: `V_t = V'_t C_t` for all clusters `t`. -/
def Changes [CommRing K] : CBV G K → CBV G K → COp G K → Prop
  | .mk t k kt kb V E n son, .mk t' k' kt' kb' V' E' n' son', .mk _ krow kcol C n'' son'' =>
    krow = k' ∧ kcol = k ∧ C.rows = k' ∧ C.cols = k ∧
    (∀ r, ∀ l < k, vbasis (.mk t k kt kb V E n son) r l = ∑ nu ∈ Finset.range k', vbasis (.mk t' k' kt' kb' V' E' n' son') r nu * C.e nu l) ∧
    ∃ (e : n' = n) (e' : n' = n''), ∀ i, Changes (son (Fin.cast e i)) (son' i) (son'' (Fin.cast e' i))

/-- The cluster operator contains weights for all clusters: `C_t^* C_t = V_t^* V_t`, with at most as many rows as `V_t` has rows or columns. -/
def Weights [CommRing K] [StarRing K] : CBV G K → COp G K → Prop
  | .mk t k kt kb V E n son, .mk _ krow kcol C n' son' => C.rows = krow ∧ kcol = k ∧ C.cols = k ∧ krow ≤ k ∧ krow ≤ t.cl.size ∧
    (∀ a < k, ∀ b < k, ∑ i ∈ Finset.range krow, star (C.e i a) * C.e i b = cross (.mk t k kt kb V E n son) (.mk t k kt kb V E n son) a b) ∧
    ∃ e : n' = n, ∀ i, Weights (son (Fin.cast e i)) (son' i)

/-- The cluster operator contains the products `C_t = V_t^* W_t` for all clusters `t` of its tree. -/
def Products [CommRing K] [StarRing K] : CBV G K → CBV G K → COp G K → Prop
  | cb, cb', .mk _ krow kcol C n son => krow = cb.k ∧ kcol = cb'.k ∧ C.rows = cb.k ∧ C.cols = cb'.k ∧
    (∀ a < cb.k, ∀ b < cb'.k, C.e a b = cross cb cb' a b) ∧
    ∀ i : Fin n, ∃ (h : i.1 < cb.sons) (h' : i.1 < cb'.sons), Products (cb.son ⟨i, h⟩) (cb'.son ⟨i, h'⟩) (son i)

/-- the stored numbers of coefficients are correct in all clusters -/
def vCoeffs : CBV G K → Nat
  | .mk t k _ _ _ _ n son => k + (if n = 0 then t.cl.size else ∑ i, vCoeffs (son i))
/-- largest number of coefficients on a path from the root to a leaf -/
def vBranch : CBV G K → Nat
  | .mk t k _ _ _ _ n son => k + (if n = 0 then t.cl.size else Finset.univ.sup fun i => vBranch (son i))
/-- the stored numbers of coefficients are correct in all clusters -/
def VCounts : CBV G K → Prop
  | .mk t k kt kb V E n son => kt = vCoeffs (.mk t k kt kb V E n son) ∧ kb = vBranch (.mk t k kt kb V E n son) ∧ ∀ i, VCounts (son i)

/-- Frobenius norm of the difference between the `k × k` matrix `G` and the identity -/
noncomputable def identDev {𝕜 : Type} [RCLike 𝕜] (k : Nat) (G : Nat → Nat → 𝕜) : ℝ :=
  √(∑ i ∈ Finset.range k, ∑ j ∈ Finset.range k, ‖G i j - if i = j then 1 else 0‖ ^ 2)

/-- In all clusters the matrix consisting of the blocks `E_{t'}` of the sons (of the matrix `V` for leaves) is orthonormal up to `eps`. -/
def LocalDev {𝕜 : Type} [RCLike 𝕜] (eps : ℝ) : CBV G 𝕜 → Prop
  | .mk _ k _ _ V _ n son => identDev k (fun a b => if n = 0 then ∑ i ∈ Finset.range V.rows, star (V.e i a) * V.e i b
      else ∑ i : Fin n, ∑ nu ∈ Finset.range (son i).k, star ((son i).E.e nu a) * (son i).E.e nu b) ≤ eps ∧ ∀ i, LocalDev eps (son i)

/-- the clusters of the sons are the sons of the cluster -/
def CBVSons : CBV G K → Prop
  | .mk t _ _ _ _ _ n son => (0 < n → ∃ e : n = t.nsons, ∀ i : Fin n, (son i).t = t.son (Fin.cast e i)) ∧ ∀ i, CBVSons (son i)

/-- The tree of the cluster operator `pr` fits two bases of the same cluster tree: it is as deep as the less deep one of both. -/
def ProdTree : CBV G K → CBV G K → COp G K → Prop
  | cb, cb', .mk t _ _ _ n son => cb.t = t ∧ cb'.t = t ∧ (n = 0 → cb.sons = 0 ∨ cb'.sons = 0) ∧ (0 < n → cb.sons = n ∧ cb'.sons = n) ∧
    ∀ i : Fin n, ∃ (h : i.1 < cb.sons) (h' : i.1 < cb'.sons), ProdTree (cb.son ⟨i, h⟩) (cb'.son ⟨i, h'⟩) (son i)

end H2.Spec
