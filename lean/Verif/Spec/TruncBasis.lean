import Verif.Model.TruncBasis
import Verif.Spec.Project
import Verif.Spec.Trunc

/-! Specifications for the truncation of cluster bases (C74). -/

namespace H2.Spec
variable {G 𝕜 : Type} [RCLike 𝕜]

/-- Entry `(i, l)` of `Q_t Q_t^* V_t`, the best approximation of `V_t` in the range of an orthonormal basis `Q_t` of the same cluster; `i` is relative to the cluster. -/
def projected (cb cb' : CBV G 𝕜) (i l : Nat) : 𝕜 := ∑ a ∈ Finset.range cb'.k, vbasis cb' (cb.t.cl.off + i) a * cross cb' cb a l

/-- entry `(i, j)` of `(V_t - Q_t Q_t^* V_t) X` -/
def projErr (cb cb' : CBV G 𝕜) (X : Nat → Nat → 𝕜) (i j : Nat) : 𝕜 :=
  ∑ l ∈ Finset.range cb.k, (vbasis cb (cb.t.cl.off + i) l - projected cb cb' i l) * X l j

/-- The square of the norm of a matrix is at most `B`: Frobenius norm or spectral norm. -/
def ErrLe (frob : Bool) (rows cols : Nat) (M : Nat → Nat → 𝕜) (B : ℝ) : Prop := if frob then frobSq rows cols M ≤ B else SpecBound rows cols M B

/-- the error of the basis `Q_t` weighted by `C`: `‖(V_t - Q_t Q_t^* V_t) C^*‖² ≤ B` -/
def WeightedErr (frob : Bool) (B : ℝ) (cb cb' : CBV G 𝕜) (C : VMat 𝕜) : Prop :=
  ErrLe frob cb.t.cl.size C.rows (projErr cb cb' fun l j => star (C.e j l)) B

/-- the sum of `q^d` for all clusters of the tree, `d` being the level of the cluster -/
def treeSum (q : ℝ) : CBV G 𝕜 → ℝ
  | .mk _ _ _ _ _ _ n son => 1 + ∑ i : Fin n, q * treeSum q (son i)

/-- In all clusters the weighted errors are bounded: the error weighted by the local weight, the error weighted by the total weight,
and, if `un` holds, the error without a weight.  The tolerance is multiplied by `zl` from level to level. -/
def Accurate (frob : Bool) (un : Prop) (q zl : ℝ) : (eps : ℝ) → (cb cb' : CBV G 𝕜) → (clw cw : Option (COp G 𝕜)) → Prop
  | eps, .mk t k kt kb V E n son, cb', clw, cw =>
    (∀ x, clw = some x → WeightedErr frob (eps ^ 2 * treeSum q (.mk t k kt kb V E n son)) (.mk t k kt kb V E n son) cb' x.C) ∧
    (∀ x, cw = some x → WeightedErr frob (eps ^ 2 * treeSum q (.mk t k kt kb V E n son)) (.mk t k kt kb V E n son) cb' x.C) ∧
    (un → ErrLe frob t.cl.size k (projErr (.mk t k kt kb V E n son) cb' fun l j => if l = j then 1 else 0) (eps ^ 2 * treeSum q (.mk t k kt kb V E n son))) ∧
    ∃ e : cb'.sons = n, ∀ i, Accurate frob un q zl (eps * zl) (son i) (cb'.son (Fin.cast e.symm i)) (opSon clw i) (opSon cw i)

/-- the basis is defined for the entire cluster tree -/
def CBVFull : CBV G 𝕜 → Prop
  | .mk t _ _ _ _ _ n son => ∃ e : n = t.nsons, ∀ i : Fin n, (son i).t = t.son (Fin.cast e i) ∧ CBVFull (son i)

/-- the operator has matrices with as many columns as the rank of the basis; its tree may end before the tree of the basis -/
def OpFor : COp G 𝕜 → CBV G 𝕜 → Prop
  | .mk ct krow kcol C n son, cb => ct = cb.t ∧ kcol = cb.k ∧ C.rows = krow ∧ C.cols = cb.k ∧ ∀ (i : Fin n) (h : i.1 < cb.sons), OpFor (son i) (cb.son ⟨i, h⟩)

/-- `cbnew` has the clusters and the sons of `cb` -/
def SameClusters : CBV G 𝕜 → CBV G 𝕜 → Prop
  | .mk t _ _ _ _ _ n son, .mk t' _ _ _ _ _ n' son' => t' = t ∧ ∃ e : n' = n, ∀ i, SameClusters (son (Fin.cast e i)) (son' i)

/-- the operator has the clusters and the sons of `cb` -/
def OpClusters : COp G 𝕜 → CBV G 𝕜 → Prop
  | .mk t _ _ _ n son, .mk t' _ _ _ _ _ n' son' => t = t' ∧ ∃ e : n' = n, ∀ i, OpClusters (son (Fin.cast e i)) (son' i)

/-- squared norm of `Z_t x` for the total weight `Z_t`, of `x` if there are no weights at all -/
def totalSq (un : Prop) [Decidable un] (cw : Option (COp G 𝕜)) (k : Nat) (x : Nat → 𝕜) : ℝ :=
  match cw with
  | some z => vecSq z.C.rows (matVec k z.C.e x)
  | none => if un then vecSq k x else 0

/-- The total weights of the sons contain the total weight of the father: `‖za Z_t E_{t'}^* x‖ ≤ ‖Z_{t'} x‖`. -/
def Inherits (un : Prop) [Decidable un] (za : ℝ) : CBV G 𝕜 → Option (COp G 𝕜) → Prop
  | .mk _ k _ _ _ _ n son, cw => ∀ i : Fin n,
    (∀ x, za ^ 2 * totalSq un cw k (fun l => ∑ a ∈ Finset.range (son i).k, star ((son i).E.e a l) * x a) ≤ totalSq un (opSon cw i) (son i).k x) ∧
    Inherits un za (son i) (opSon cw i)

/-- every cluster has at most `c` sons -/
def SonsLe (c : Nat) : CBV G 𝕜 → Prop
  | .mk _ _ _ _ _ _ n son => n ≤ c ∧ ∀ i, SonsLe c (son i)

/-- the hypotheses: the basis is consistent and defined for the entire cluster tree, the weights, if there are any, have as many columns as the basis has in each cluster,
the new basis and the new operator belong to the same clusters -/
structure TruncArgs (cb : CBV G 𝕜) (cw clw : Option (COp G 𝕜)) (tm : Option CMode) (eps : ℝ) (cbnew : CBV G 𝕜) (old2new : COp G 𝕜) : Prop where
  ok : CBVOk cb
  full : CBVFull cb
  total : ∀ z, cw = some z → OpFor z cb
  loc : ∀ z, clw = some z → OpFor z cb
  level : 0 ≤ CMode.level tm
  eps : 0 ≤ eps
  new : SameClusters cb cbnew
  op : OpClusters old2new cb

end H2.Spec
