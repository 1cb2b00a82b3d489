import Verif.Model.Sparse
import Mathlib.Algebra.BigOperators.Ring.Finset
import Mathlib.Data.Set.Function

/-! Specifications for sparse patterns and matrices (C19–C23). -/

namespace H2.Spec

/-- the set of positions added since the last `clear` -/
def posAfter (S : Nat → Nat → Prop) : List Pattern.Op → Nat → Nat → Prop
  | [] => S
  | .clear :: h => posAfter (fun _ _ => False) h
  | .addnz r c :: h => posAfter (fun i j => (i = r ∧ j = c) ∨ S i j) h

/-- all positions of the history are inside a `rows × cols` pattern -/
def PosInRange (rows cols : Nat) : List Pattern.Op → Prop
  | [] => True
  | .clear :: h => PosInRange rows cols h
  | .addnz r c :: h => (r < rows ∧ c < cols) ∧ PosInRange rows cols h

/-- column numbers stored for row `i`, with multiplicity -/
def patCols (sp : Pattern) (i : Nat) : List Nat := (sp.row.v i).map Prod.snd

/-- `k` is one of the storage positions of row `i` -/
def InRow {K : Type} (a : Sparse K) (i k : Nat) : Prop := a.row.v i ≤ k ∧ k < a.row.v (i + 1)

/-- compressed-row format: the rows occupy consecutive ranges that fill `0..nz-1`, columns are in range and no
position is stored twice. -/
structure CSR {K : Type} (a : Sparse K) : Prop where
  nrow : a.row.n = a.rows + 1
  ncol : a.col.n = a.nz
  ncoeff : a.coeff.n = a.nz
  first : a.row.v 0 = 0
  mono : ∀ i < a.rows, a.row.v i ≤ a.row.v (i + 1)
  last : a.row.v a.rows = a.nz
  inCols : ∀ k < a.nz, a.col.v k < a.cols
  nodup : ∀ i < a.rows, ∀ k l, InRow a i k → InRow a i l → a.col.v k = a.col.v l → k = l

/-- position `(i, j)` is stored -/
def HasPos {K : Type} (a : Sparse K) (i j : Nat) : Prop := i < a.rows ∧ ∃ k, InRow a i k ∧ a.col.v k = j

/-- entry `(i, j)` of the represented matrix: the sum of the coefficients stored for it -/
def entry {K : Type} [AddCommMonoid K] (a : Sparse K) (i j : Nat) : K :=
  ∑ k ∈ Finset.Ico (a.row.v i) (a.row.v (i + 1)), if a.col.v k = j then a.coeff.v k else 0

/-- the same updates on a dense matrix -/
def denseApply {K : Type} [Add K] [Zero K] (A : Nat → Nat → K) : Sparse.Op K → Nat → Nat → K
  | .add r c x => fun i j => if i = r ∧ j = c then A i j + x else A i j
  | .set r c x => fun i j => if i = r ∧ j = c then x else A i j
  | .clear => fun _ _ => 0

def denseRun {K : Type} [Add K] [Zero K] (A : Nat → Nat → K) (h : List (Sparse.Op K)) : Nat → Nat → K :=
  h.foldl denseApply A

/-- the positions mentioned by the history satisfy `P` -/
def OpsIn {K : Type} (P : Nat → Nat → Prop) : List (Sparse.Op K) → Prop
  | [] => True
  | .clear :: h => OpsIn P h
  | .add r c _ :: h => P r c ∧ OpsIn P h
  | .set r c _ :: h => P r c ∧ OpsIn P h

end H2.Spec
