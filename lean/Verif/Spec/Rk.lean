import Verif.Model.Rk
import Verif.Spec.Dense

/-! Specifications for low-rank matrices (C30) and truncation (C31). -/

namespace H2
variable {K : Type _}

namespace Rk
/-- both factors are allocated, separate, and have `k` columns -/
structure Valid (r : Rk) (m : Mem K) : Prop where
  A : r.A.Valid m
  B : r.B.Valid m
  disj : Spec.Disj r.A.Cell r.B.Cell
  colsA : r.A.cols = r.k
  colsB : r.B.cols = r.k

/-- cells of the factors -/
def Cell (r : Rk) (c : Nat) : Prop := r.A.Cell c ∨ r.B.Cell c

/-- entry `(i, j)` of `A B^*` -/
def val [CommRing K] [StarRing K] (r : Rk) (m : Mem K) (i j : Nat) : K :=
  ∑ nu ∈ Finset.range r.k, r.A.val m i nu * star (r.B.val m j nu)

/-- rows of `A B^*` or of its adjoint -/
def rows (trans : Bool) (r : Rk) : Nat := if trans then r.B.rows else r.A.rows
/-- columns of `A B^*` or of its adjoint -/
def cols (trans : Bool) (r : Rk) : Nat := if trans then r.A.rows else r.B.rows
end Rk

namespace Spec
variable {R' : Type} [Field R'] [LinearOrder R'] [IsStrictOrderedRing R']

/-- the singular values `sigma[k], …, sigma[n-1]` may be discarded in mode `tm` -/
def Acceptable (tm : Option Trunc.Mode) (eps : R') (n : Nat) (sigma : Nat → R') (k : Nat) : Prop :=
  match tm with
  | some ⟨true, true⟩ => ∑ l ∈ Finset.Ico k n, sigma l ^ 2 ≤ eps ^ 2
  | some ⟨true, false⟩ => ∑ l ∈ Finset.Ico k n, sigma l ^ 2 ≤ eps ^ 2 * ∑ l ∈ Finset.range n, sigma l ^ 2
  | some ⟨false, true⟩ => ∀ l, k ≤ l → l < n → sigma l ≤ eps
  | some ⟨false, false⟩ | none => ∀ l, k ≤ l → l < n → sigma l ≤ eps * sigma 0
end Spec
end H2
