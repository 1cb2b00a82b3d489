import Verif.Core.Arr
import Mathlib.Algebra.Field.Defs

/-! # Sparse patterns and sparse matrices (`sparsepattern.c`, `sparsematrix.c`) -/

namespace H2

/-- sparsepattern.h `struct _sparsepattern`: `row i` is the linked list of `(e->row, e->col)` starting at
`sp->row[i]`. -/
structure Pattern where
  rows : Nat
  cols : Nat
  row : Arr (List (Nat × Nat))

namespace Pattern

/-- sparsepattern.c:50-69 `new_sparsepattern(rows, cols)`. -/
def new (rows cols : Nat) : R Pattern := do
  cassert (decide (0 < rows))
  cassert (decide (0 < cols))
  let row ← forUp 0 rows (fun i (r : Arr (List (Nat × Nat))) => r.set i []) ⟨rows, fun _ => [(0, 0)]⟩
  pure ⟨rows, cols, row⟩

/-- sparsepattern.c:90-108 `clear_sparsepattern(sp)`; freeing the entries has no effect on reachable data. -/
def clear (sp : Pattern) : R Pattern := do
  let row ← forUp 0 sp.rows (fun i (r : Arr (List (Nat × Nat))) => do
    let e ← r.get i
    if e ≠ [] then r.set i [] else pure r) sp.row
  pure { sp with row := row }

/-- sparsepattern.c:125-127, the `while` loop of `addnz_sparsepattern`: the suffix at which the search stops. -/
def find (col : Nat) : List (Nat × Nat) → List (Nat × Nat)
  | [] => []
  | e :: es => if e.2 ≠ col then find col es else e :: es

/-- sparsepattern.c:116-131 `addnz_sparsepattern(sp, row, col)`. -/
def addnz (sp : Pattern) (row col : Nat) : R Pattern := do
  cassert (decide (row < sp.rows))
  cassert (decide (col < sp.cols))
  let e ← sp.row.get row
  match find col e with
  | [] => do
    let r ← sp.row.set row ((row, col) :: e)
    pure { sp with row := r }
  | _ :: _ => pure sp

/-- the operations a client can apply to a pattern -/
inductive Op where
  | addnz (row col : Nat)
  | clear

/-- one operation -/
def apply (sp : Pattern) : Op → R Pattern
  | .addnz r c => sp.addnz r c
  | .clear => sp.clear

/-- a history of operations -/
def run (sp : Pattern) (h : List Op) : R Pattern := h.foldlM apply sp

end Pattern

/-- sparsematrix.h:42-57 `struct _sparsematrix`. -/
structure Sparse (K : Type) where
  rows : Nat
  cols : Nat
  nz : Nat
  row : Arr Nat
  col : Arr Nat
  coeff : Arr K

namespace Sparse
variable {K : Type}

/-- sparsematrix.c:16-37 `new_raw_sparsematrix(rows, cols, nz)`; `col` and `coeff` have arbitrary contents. -/
def newRaw (junkc : Nat → Nat) (junk : Nat → K) (rows cols nz : Nat) : R (Sparse K) := do
  let row ← forUp 0 (rows + 1) (fun i (r : Arr Nat) => r.set i 0) ⟨rows + 1, junkc⟩
  pure ⟨rows, cols, nz, row, ⟨nz, junkc⟩, ⟨nz, junk⟩⟩

/-- sparsematrix.c:39-67 `new_identity_sparsematrix(rows, cols)`. -/
def newIdentity [One K] (junkc : Nat → Nat) (junk : Nat → K) (rows cols : Nat) : R (Sparse K) := do
  let n := min rows cols
  let (row, col, coeff) ← forUp 0 n (fun i (st : Arr Nat × Arr Nat × Arr K) => do
    let row ← st.1.set i i
    let col ← st.2.1.set i i
    let coeff ← st.2.2.set i 1
    pure (row, col, coeff)) (⟨rows + 1, junkc⟩, ⟨n, junkc⟩, ⟨n, junk⟩)
  let row ← forUp n (rows + 1) (fun i (r : Arr Nat) => r.set i n) row
  pure ⟨rows, cols, n, row, col, coeff⟩

/-- sparsematrix.c:190-203 `swap(i1, i2, col, coeff)`. -/
def swap (i1 i2 : Nat) (col : Arr Nat) (coeff : Arr K) : R (Arr Nat × Arr K) := do
  let hcol ← col.get i1
  let c2 ← col.get i2
  let col ← col.set i1 c2
  let col ← col.set i2 hcol
  let hcoeff ← coeff.get i1
  let x2 ← coeff.get i2
  let coeff ← coeff.set i1 x2
  let coeff ← coeff.set i2 hcoeff
  pure (col, coeff)

/-- The loop `for (j = lo; j < hi && col[j] != c; j++);` (sparsematrix.c:145, 162, 216); the first argument is the
number of remaining iterations, `hi - j`. -/
def search (col : Arr Nat) (c : Nat) : Nat → Nat → R Nat
  | 0, j => .ok j
  | n + 1, j => do
    let x ← col.get j
    if x ≠ c then search col c n (j + 1) else pure j

/-- sparsematrix.c:205-220 `sort_sparsematrix(a)`. -/
def sort (a : Sparse K) : R (Sparse K) := do
  let (col, coeff) ← forUp 0 a.rows (fun i (st : Arr Nat × Arr K) => do
    let k ← a.row.get i
    let hi ← a.row.get (i + 1)
    let j ← search st.1 i (hi - k) k
    if j < hi then swap k j st.1 st.2 else pure st) (a.col, a.coeff)
  pure { a with col := col, coeff := coeff }

/-- sparsematrix.c:95-105, inner loop of `new_zero_sparsematrix` over the entries of one row -/
def fillRow [Zero K] (i : Nat) : List (Nat × Nat) → Nat × Arr Nat × Arr K → R (Nat × Arr Nat × Arr K)
  | [], st => .ok st
  | e :: es, st => do
    cassert (decide (e.1 = i))
    let col ← st.2.1.set st.1 e.2
    let coeff ← st.2.2.set st.1 0
    fillRow i es (st.1 + 1, col, coeff)

/-- sparsematrix.c:69-116 `new_zero_sparsematrix(sp)`. -/
def newZero [Zero K] (junkc : Nat → Nat) (junk : Nat → K) (sp : Pattern) : R (Sparse K) := do
  let nz ← forUp 0 sp.rows (fun i nz => do
    let e ← sp.row.get i
    pure (e.foldl (fun nz _ => nz + 1) nz)) 0
  let A ← newRaw junkc junk sp.rows sp.cols nz
  let (row, j, col, coeff) ← forUp 0 sp.rows (fun i (st : Arr Nat × Nat × Arr Nat × Arr K) => do
    let row ← st.1.set i st.2.1
    let e ← sp.row.get i
    let st' ← fillRow i e st.2
    pure (row, st')) (A.row, 0, A.col, A.coeff)
  cassert (decide (j = nz))
  let row ← row.set sp.rows j
  sort { A with row := row, col := col, coeff := coeff }

/-- sparsematrix.c:136-151 `addentry_sparsematrix(a, row, col, x)`, with the returned value. -/
def addentry [Add K] (a : Sparse K) (row col : Nat) (x : K) : R (Sparse K × K) := do
  cassert (decide (row < a.rows))
  cassert (decide (col < a.cols))
  let lo ← a.row.get row
  let hi ← a.row.get (row + 1)
  let i ← search a.col col (hi - lo) lo
  cassert (decide (i < hi))
  let c ← a.col.get i
  cassert (decide (c = col))
  let y ← a.coeff.get i
  let coeff ← a.coeff.set i (y + x)
  pure ({ a with coeff := coeff }, y + x)

/-- sparsematrix.c:153-167 `setentry_sparsematrix(a, row, col, x)`. -/
def setentry (a : Sparse K) (row col : Nat) (x : K) : R (Sparse K) := do
  cassert (decide (row < a.rows))
  cassert (decide (col < a.cols))
  let lo ← a.row.get row
  let hi ← a.row.get (row + 1)
  let i ← search a.col col (hi - lo) lo
  cassert (decide (i < hi))
  let c ← a.col.get i
  cassert (decide (c = col))
  let coeff ← a.coeff.set i x
  pure { a with coeff := coeff }

/-- sparsematrix.c:222-229 `clear_sparsematrix(a)`. -/
def clear [Zero K] (a : Sparse K) : R (Sparse K) := do
  let coeff ← forUp 0 a.nz (fun i (c : Arr K) => c.set i 0) a.coeff
  pure { a with coeff := coeff }

/-- the updates a client can apply -/
inductive Op (K : Type) where
  | add (row col : Nat) (x : K)
  | set (row col : Nat) (x : K)
  | clear

/-- one update -/
def apply [Add K] [Zero K] (a : Sparse K) : Op K → R (Sparse K)
  | .add r c x => do let (a, _) ← a.addentry r c x; pure a
  | .set r c x => a.setentry r c x
  | .clear => a.clear

/-- a history of updates -/
def run [Add K] [Zero K] (a : Sparse K) (h : List (Op K)) : R (Sparse K) := h.foldlM apply a

/-- sparsematrix.c:323-356 `addeval_sparsematrix_avector(alpha, a, x, y)`; a vector is its array, `dim` is the array
size.  `x` and `y` are different vectors. -/
def addeval [Field K] (alpha : K) (a : Sparse K) (x y : Arr K) : R (Arr K) := do
  cassert (decide (a.rows = y.n))
  cassert (decide (a.cols = x.n))
  forUp 0 a.rows (fun i (y : Arr K) => do
    let lo ← a.row.get i
    let hi ← a.row.get (i + 1)
    let sum ← forUp lo hi (fun j sum => do
      let c ← a.coeff.get j
      let k ← a.col.get j
      let xk ← x.get k
      pure (sum + c * xk)) 0
    let yi ← y.get i
    y.set i (yi + alpha * sum)) y

/-- sparsematrix.c:358-390 `addevaltrans_sparsematrix_avector(alpha, a, x, y)`. -/
def addevaltrans [Field K] (alpha : K) (a : Sparse K) (x y : Arr K) : R (Arr K) := do
  cassert (decide (a.rows = x.n))
  cassert (decide (a.cols = y.n))
  forUp 0 a.rows (fun i (y : Arr K) => do
    let xi ← x.get i
    let lo ← a.row.get i
    let hi ← a.row.get (i + 1)
    forUp lo hi (fun j (y : Arr K) => do
      let k ← a.col.get j
      let c ← a.coeff.get j
      let yk ← y.get k
      y.set k (yk + c * (alpha * xi))) y) y

/-- sparsematrix.c:392-402 `mvm_sparsematrix_avector(alpha, trans, a, x, y)`. -/
def mvm [Field K] (alpha : K) (trans : Bool) (a : Sparse K) (x y : Arr K) : R (Arr K) :=
  if trans then addevaltrans alpha a x y else addeval alpha a x y

/-- a dense matrix in column-major order in its own array: amatrix.h `struct _amatrix` -/
structure Dense (K : Type) where
  rows : Nat
  cols : Nat
  ld : Nat
  a : Arr K

/-- sparsematrix.c:419-459 `add_sparsematrix_amatrix(alpha, atrans, a, b)`. -/
def addAmatrix [Field K] (alpha : K) (atrans : Bool) (a : Sparse K) (b : Dense K) : R (Dense K) := do
  if 0 < a.nz then
    if atrans then
      cassert (decide (b.rows = a.cols))
      cassert (decide (b.cols = a.rows))
      let ba ← forUp 0 a.rows (fun i (ba : Arr K) => do
        let lo ← a.row.get i
        let hi ← a.row.get (i + 1)
        forUp lo hi (fun k (ba : Arr K) => do
          let j ← a.col.get k
          let c ← a.coeff.get k
          let z ← ba.get (j + i * b.ld)
          ba.set (j + i * b.ld) (z + alpha * c)) ba) b.a
      pure { b with a := ba }
    else
      cassert (decide (b.rows = a.rows))
      cassert (decide (b.cols = a.cols))
      let ba ← forUp 0 a.rows (fun i (ba : Arr K) => do
        let lo ← a.row.get i
        let hi ← a.row.get (i + 1)
        forUp lo hi (fun k (ba : Arr K) => do
          let j ← a.col.get k
          let c ← a.coeff.get k
          let z ← ba.get (i + j * b.ld)
          ba.set (i + j * b.ld) (z + alpha * c)) ba) b.a
      pure { b with a := ba }
  else pure b

end Sparse
end H2
