import Verif.Model.H2Matrix
import Verif.Spec.ClusterBasis

/-! Specifications for H2-matrices (C40). -/

namespace H2.Spec
variable {G : Type _} {K : Type}

/-- Entry `(r, c)` of the represented matrix, `r` and `c` being positions in the index arrays of the row and column
cluster tree: `V S W^*` for uniform leaves, the stored matrix for dense leaves. -/
noncomputable def h2place [CommRing K] [StarRing K] (m : Mem K) : H2Mat G → Nat → Nat → K
  | .zero _ _, _, _ => 0
  | .uni rb cb S, r, c => ∑ a ∈ Finset.range rb.k, ∑ b ∈ Finset.range cb.k,
      basis m rb r a * S.val m a b * star (basis m cb c b)
  | .full rb cb f, r, c => if In rb.t r ∧ In cb.t c then f.val m (r - rb.t.cl.off) (c - cb.t.cl.off) else 0
  | .super _ _ rsons csons son, r, c => ∑ i : Fin rsons, ∑ j : Fin csons, h2place m (son i j) r c

/-- Entry `(a, b)` of the represented matrix in the original numbering of the degrees of freedom. -/
noncomputable def h2dense [CommRing K] [StarRing K] (ridx cidx : Nat → Nat) (m : Mem K) (h : H2Mat G) (a b : Nat) : K :=
  ∑ i ∈ Finset.range h.rb.size, ∑ j ∈ Finset.range h.cb.size,
    if ridx (h.rb.t.cl.off + i) = a ∧ cidx (h.cb.t.cl.off + j) = b then
      h2place m h (h.rb.t.cl.off + i) (h.cb.t.cl.off + j) else 0

/-- The bases of the sons of a block in one direction: the sons of its basis or, if that is a leaf, the basis itself. -/
def SonBases (cb : CBas G) {n : Nat} (f : Fin n → CBas G) : Prop :=
  (0 < cb.sons → ∃ e : n = cb.sons, ∀ i, f i = cb.son (Fin.cast e i)) ∧ (cb.sons = 0 → n = 1 ∧ ∀ i, f i = cb)

/-- The matrices of the leaves have the right dimensions, dense leaves belong to leaf bases, the bases of the sons fit. -/
def H2Ok : H2Mat G → Prop
  | .zero _ _ => True
  | .uni rb cb S => S.rows = rb.k ∧ S.cols = cb.k
  | .full rb cb f => rb.sons = 0 ∧ cb.sons = 0 ∧ f.rows = rb.t.cl.size ∧ f.cols = cb.t.cl.size
  | .super rb cb rsons csons son => (∃ (R : Fin rsons → CBas G) (C : Fin csons → CBas G),
      (∀ i j, (son i j).rb = R i ∧ (son i j).cb = C j) ∧ SonBases rb R ∧ SonBases cb C) ∧ ∀ i j, H2Ok (son i j)

/-- all matrices of the leaves are allocated -/
def H2Valid (m : Mem K) : H2Mat G → Prop
  | .zero _ _ => True
  | .uni _ _ S => S.Valid m
  | .full _ _ f => f.Valid m
  | .super _ _ _ _ son => ∀ i j, H2Valid m (son i j)

/-- cells of the matrices of the leaves -/
def H2Cell : H2Mat G → Nat → Prop
  | .zero _ _, _ => False
  | .uni _ _ S, c => S.Cell c
  | .full _ _ f, c => f.Cell c
  | .super _ _ _ _ son, c => ∃ i j, H2Cell (son i j) c

end H2.Spec
