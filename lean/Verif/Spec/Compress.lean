import Verif.Model.Compress
import Verif.Spec.LocalWeights

/-! Specifications for the compression of H²-matrices (C76). -/

namespace H2.Spec
variable {G 𝕜 : Type} [RCLike 𝕜]

/-- the bound for the error in a cluster of level `l = length path`: `(eps zl^l)²` times the sum of `q^d` for all descendants -/
def nodeBound (q zl eps : ℝ) (b : BRef G 𝕜) : ℝ := (eps * zl ^ b.path.length) ^ 2 * treeSum q b.cb

/-- the sum of `(eps zl^l)²` times the sum of `q^d` for the descendants, taken for all clusters (`l` is the level of the cluster) -/
def boundSum (q zl : ℝ) : (eps : ℝ) → CBV G 𝕜 → ℝ
  | eps, .mk t k kt kb V E n son => eps ^ 2 * treeSum q (.mk t k kt kb V E n son) + ∑ i : Fin n, boundSum q zl (eps * zl) (son i)

/-- Same block structure, same clusters; dense blocks are identical; the error of each uniform block `V S W^*`, scaled by the factor `alpha` of the block, satisfies
`‖alpha (V S W^* - V' S' W'^*)‖² ≤ B_t + B_s` in the Frobenius norm or the spectral norm. -/
def BlocksClose (frob : Bool) (tm : Option CMode) (Br Bc : BRef G 𝕜 → ℝ) : H2V G 𝕜 → H2V G 𝕜 → Prop
  | .zero _ _, h' => ∃ rb' cb', h' = .zero rb' cb'
  | .full rb cb f, h' => ∃ rb' cb' f', h' = .full rb' cb' f' ∧ rb'.cb.t = rb.cb.t ∧ cb'.cb.t = cb.cb.t ∧ f'.rows = f.rows ∧ f'.cols = f.cols ∧ ∀ i < f.rows, ∀ j < f.cols, f'.e i j = f.e i j
  | .uni rb cb S, h' => ∃ rb' cb' S', h' = .uni rb' cb' S' ∧ rb'.cb.t = rb.cb.t ∧ cb'.cb.t = cb.cb.t ∧ rb'.cb.k ≤ rb.cb.k ∧ cb'.cb.k ≤ cb.cb.k ∧
      ErrLe frob rb.cb.t.cl.size cb.cb.t.cl.size (fun i j => (blockScale tm rb.cb cb.cb S : 𝕜) * (blockMat rb.cb cb.cb S i j - blockMat rb'.cb cb'.cb S' i j)) (Br rb + Bc cb)
  | .super _ _ rsons csons son, h' => ∃ rb' cb' son', h' = .super rb' cb' rsons csons son' ∧ ∀ i j, BlocksClose frob tm Br Bc (son i j) (son' i j)

/-- In `h'` all blocks vanish that are zero in `h`, and all uniform blocks for which the form `f` is zero in the row cluster and its predecessors. -/
def RowsLost (f : List Nat → (Nat → 𝕜) → ℝ) : H2V G 𝕜 → H2V G 𝕜 → Prop
  | .zero _ _, h' => ∀ r c, h2vplace h' r c = 0
  | .full _ _ _, _ => True
  | .uni rb _ _, h' => (∀ q, q <+: rb.path → ∀ x, f q x = 0) → ∀ r c, h2vplace h' r c = 0
  | .super _ _ rsons csons son, h' => ∃ rb' cb' son', h' = .super rb' cb' rsons csons son' ∧ ∀ i j, RowsLost f (son i j) (son' i j)

/-- `h'` is the adjoint of `h`: with row and column bases exchanged, and adjoint matrices in the leaves -/
def AdjointOf : H2V G 𝕜 → H2V G 𝕜 → Prop
  | .zero rb cb, h' => h' = .zero cb rb
  | .full rb cb f, h' => ∃ f', h' = .full cb rb f' ∧ f'.rows = f.cols ∧ f'.cols = f.rows ∧ ∀ i < f.rows, ∀ j < f.cols, f'.e j i = star (f.e i j)
  | .uni rb cb S, h' => ∃ S', h' = .uni cb rb S' ∧ S'.rows = S.cols ∧ S'.cols = S.rows ∧ ∀ a < S.rows, ∀ b < S.cols, S'.e b a = star (S.e a b)
  | .super rb cb rsons csons son, h' => ∃ son', h' = .super cb rb csons rsons son' ∧ ∀ i j, AdjointOf (son i j) (son' j i)

/-- `h'` is an approximation of `h` with orthonormal bases.  The error of each block is bounded by the errors of its row and its column cluster; without scaling of the blocks, the square of
the Frobenius norm of the difference of both matrices is bounded by the sum of the errors of all clusters. -/
structure Compressed (frob blocks : Bool) (zl za eps : ℝ) (h h' : H2V G 𝕜) : Prop where
  ok : H2VOk h'
  rorth : Orthonormal h'.rb.cb
  corth : Orthonormal h'.cb.cb
  close : BlocksClose frob (some ⟨⟨frob, true⟩, blocks, zl, za⟩) (nodeBound ((zl / za) ^ 2) zl eps) (nodeBound ((zl / za) ^ 2) zl eps) h h'
  total : frob = true → blocks = false → errSq (h2vplace h) h' ≤ boundSum ((zl / za) ^ 2) zl eps h.rb.cb + boundSum ((zl / za) ^ 2) zl eps h.cb.cb

end H2.Spec
