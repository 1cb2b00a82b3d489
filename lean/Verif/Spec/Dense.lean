import Verif.Model.Dense

/-! Specifications for dense windows (C24–C29). -/

namespace H2
variable {K : Type _}

namespace Vec
/-- cell `c` belongs to the vector -/
def Cell (v : Vec) (c : Nat) : Prop := ∃ i < v.dim, c = v.addr i
/-- all entries are allocated -/
def Valid (v : Vec) (m : Mem K) : Prop := ∀ i < v.dim, (m (v.addr i)).isSome
/-- entry `i` -/
def val [Zero K] (v : Vec) (m : Mem K) (i : Nat) : K := (m (v.addr i)).getD 0
end Vec

namespace Mat
/-- cell `c` belongs to the matrix (not to the gap between `rows` and `ld`) -/
def Cell (a : Mat) (c : Nat) : Prop := ∃ i < a.rows, ∃ j < a.cols, c = a.addr i j
/-- the leading dimension is large enough and all entries are allocated -/
def Valid (a : Mat) (m : Mem K) : Prop := a.rows ≤ a.ld ∧ ∀ i < a.rows, ∀ j < a.cols, (m (a.addr i j)).isSome
/-- entry `(i, j)` -/
def val [Zero K] (a : Mat) (m : Mem K) (i j : Nat) : K := (m (a.addr i j)).getD 0
end Mat

namespace Spec
/-- the two sets of cells do not meet -/
def Disj (S T : Nat → Prop) : Prop := ∀ c, S c → ¬ T c

/-- cells outside `S` are unchanged (in particular stay allocated or not allocated) -/
def Frame (S : Nat → Prop) (m m' : Mem K) : Prop := ∀ c, ¬ S c → m' c = m c

/-- afterwards matrix `a` holds `F`, and nothing else in memory has changed -/
def MatBecomes [Zero K] (a : Mat) (m : Mem K) (F : Nat → Nat → K) (m' : Mem K) : Prop :=
  a.Valid m' ∧ (∀ i < a.rows, ∀ j < a.cols, a.val m' i j = F i j) ∧ Frame a.Cell m m'

/-- afterwards vector `v` holds `F`, and nothing else in memory has changed -/
def VecBecomes [Zero K] (v : Vec) (m : Mem K) (F : Nat → K) (m' : Mem K) : Prop :=
  v.Valid m' ∧ (∀ i < v.dim, v.val m' i = F i) ∧ Frame v.Cell m m'

/-- entry `(i, j)` of `A` or of its adjoint -/
def op [Star K] (trans : Bool) (A : Nat → Nat → K) (i j : Nat) : K := if trans then star (A j i) else A i j

/-- number of rows of `A` or of its adjoint -/
def opRows (trans : Bool) (a : Mat) : Nat := if trans then a.cols else a.rows
/-- number of columns of `A` or of its adjoint -/
def opCols (trans : Bool) (a : Mat) : Nat := if trans then a.rows else a.cols

/-- entry `(i, j)` of the lower bidiagonal matrix with diagonal `d` and subdiagonal `l` -/
def bidiag [Zero K] (d l : Nat → K) (i j : Nat) : K := if i = j then d j else if i = j + 1 then l j else 0

/-- the matrix owns the block of `ld * cols` allocated cells at its address -/
def Owns (a : Mat) (m : Mem K) : Prop := ∀ c, a.base ≤ c → c < a.base + a.ld * a.cols → (m c).isSome
/-- cells of the block owned by `a` -/
def Block (a : Mat) (c : Nat) : Prop := a.base ≤ c ∧ c < a.base + a.ld * a.cols
/-- what a correct allocator guarantees: none of the `n` cells at `p` is in use -/
def Fresh (m : Mem K) (p n : Nat) : Prop := ∀ c, p ≤ c → c < p + n → m c = none
end Spec
end H2
