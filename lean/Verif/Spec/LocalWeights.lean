import Verif.Model.LocalWeights
import Verif.Spec.TruncBasis
import Verif.Spec.Collect

/-! Specifications for the local and total weights of H²-matrices (C75). -/

namespace H2.Spec
variable {G 𝕜 : Type} [RCLike 𝕜]

/-- entry `(i, j)` of the block `V_t S W_s^*`, relative to the clusters -/
def blockMat (rb cb : CBV G 𝕜) (S : VMat 𝕜) (i j : Nat) : 𝕜 :=
  ∑ a ∈ Finset.range rb.k, ∑ b ∈ Finset.range cb.k, vbasis rb (rb.t.cl.off + i) a * S.e a b * star (vbasis cb (cb.t.cl.off + j) b)

/-- the Frobenius norm or the spectral norm of a matrix -/
noncomputable def normOf (frob : Bool) (rows cols : Nat) (M : Nat → Nat → 𝕜) : ℝ :=
  if frob then √(frobSq rows cols M) else sInf {c | 0 ≤ c ∧ SpecBound rows cols M (c ^ 2)}

/-- the factor of a block: the reciprocal of its norm if the blocks are to be scaled, otherwise 1 -/
noncomputable def blockScale (tm : Option CMode) (rb cb : CBV G 𝕜) (S : VMat 𝕜) : ℝ :=
  match tm with
  | none => 1
  | some m => if m.blocks ∧ 0 < normOf m.mode.frobenius rb.t.cl.size cb.t.cl.size (blockMat rb cb S) then
      1 / normOf m.mode.frobenius rb.t.cl.size cb.t.cl.size (blockMat rb cb S) else 1

/-- The sum of `alpha_b² ‖W_s S_b^* x‖²` for all uniform blocks `b` with the row basis at `b`: the squared norm of the product of `x` with the adjoints of these
blocks without their row bases. -/
noncomputable def rowSum (tm : Option CMode) : H2V G 𝕜 → (path : List Nat) → (Nat → 𝕜) → ℝ
  | .zero _ _, _, _ => 0
  | .full _ _ _, _, _ => 0
  | .uni rb cb S, p, x => if rb.path = p then
      blockScale tm rb.cb cb.cb S ^ 2 * vecSq cb.cb.t.cl.size (fun j => ∑ b ∈ Finset.range cb.cb.k, vbasis cb.cb (cb.cb.t.cl.off + j) b * ∑ a ∈ Finset.range rb.cb.k, star (S.e a b) * x a)
    else 0
  | .super _ _ rsons csons son, p, x => ∑ i : Fin rsons, ∑ j : Fin csons, rowSum tm (son i j) p x

/-- the sum of `alpha_b² ‖V_t S_b x‖²` for all uniform blocks `b` with the column basis at `p` -/
noncomputable def colSum (tm : Option CMode) : H2V G 𝕜 → (path : List Nat) → (Nat → 𝕜) → ℝ
  | .zero _ _, _, _ => 0
  | .full _ _ _, _, _ => 0
  | .uni rb cb S, p, x => if cb.path = p then
      blockScale tm rb.cb cb.cb S ^ 2 * vecSq rb.cb.t.cl.size (fun i => ∑ a ∈ Finset.range rb.cb.k, vbasis rb.cb (rb.cb.t.cl.off + i) a * ∑ b ∈ Finset.range cb.cb.k, S.e a b * x b)
    else 0
  | .super _ _ rsons csons son, p, x => ∑ i : Fin rsons, ∑ j : Fin csons, colSum tm (son i j) p x

/-- The weights `new` are the weights `old` (of the basis `b` and its descendants) with the contributions `f` of the blocks added: `‖C'_t x‖² = ‖C_t x‖² + f_t(x)`, that is,
`C'_t^* C'_t = C_t^* C_t + F_t` where `F_t` is the matrix of the quadratic form `f_t`. -/
def Contrib (f : List Nat → (Nat → 𝕜) → ℝ) : BRef G 𝕜 → COp G 𝕜 → COp G 𝕜 → Prop
  | b, .mk t kr _ C n son, new => new.t = t ∧ new.kcol = b.cb.k ∧ new.C.rows = new.krow ∧ new.C.cols = b.cb.k ∧
    (∀ x, vecSq new.krow (matVec b.cb.k new.C.e x) = vecSq kr (matVec b.cb.k C.e x) + f b.path x) ∧
    ∃ e : new.sons = n, ∀ (i : Fin n) (h : i.1 < b.cb.sons), Contrib f (b.son ⟨i, h⟩) (son i) (new.son (Fin.cast e.symm i))

/-- The weights `new` contain the weights `old` and those of the fathers: `‖C'_{t'} x‖² = ‖C_{t'} x‖² + zeta² ‖C'_t E_{t'}^* x‖²` for each son `t'` of `t`. -/
def Accumulated (zeta : ℝ) : CBV G 𝕜 → COp G 𝕜 → COp G 𝕜 → Prop
  | .mk _ k _ _ _ _ n son, .mk _ _ _ _ m lson, .mk _ kr' _ C' m' lson' => ∃ (e : n = m) (e' : n = m'), ∀ i : Fin n,
    (∀ x, vecSq (lson' (Fin.cast e' i)).krow (matVec (son i).k (lson' (Fin.cast e' i)).C.e x) =
      vecSq (lson (Fin.cast e i)).krow (matVec (son i).k (lson (Fin.cast e i)).C.e x) +
      zeta ^ 2 * vecSq kr' (matVec k C'.e fun l => ∑ a ∈ Finset.range (son i).k, star ((son i).E.e a l) * x a)) ∧
    Accumulated zeta (son i) (lson (Fin.cast e i)) (lson' (Fin.cast e' i))

/-- the operator has matrices for all clusters of the basis, with as many columns as the rank of the basis -/
def OpFull : COp G 𝕜 → CBV G 𝕜 → Prop
  | .mk ct krow kcol C n son, cb => ct = cb.t ∧ kcol = cb.k ∧ C.rows = krow ∧ C.cols = cb.k ∧ ∃ e : n = cb.sons, ∀ i : Fin n, OpFull (son i) (cb.son (Fin.cast e i))

/-- `norm2_amatrix` computes the spectral norm (only relevant if the blocks are scaled by their spectral norms) -/
def ExactNorm (env : LWEnv 𝕜) (tm : Option CMode) : Prop :=
  ∀ m, tm = some m → m.blocks = true → m.mode.frobenius = false → ∀ M : VMat 𝕜, env.norm2 M = normOf false M.rows M.cols M.e

/-- the hypotheses: the H²-matrix is consistent, the bases are defined for the entire cluster trees -/
structure LWArgs (h : H2V G 𝕜) : Prop where
  ok : H2VOk h
  single : H2VTiles h
  rok : CBVOk h.rb.cb
  cok : CBVOk h.cb.cb
  rfull : CBVFull h.rb.cb
  cfull : CBVFull h.cb.cb

end H2.Spec
