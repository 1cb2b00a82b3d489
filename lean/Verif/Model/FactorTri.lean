import Verif.Model.Factor

/-!
# Triangular parts of matrices (`factorizations.c:1255-1526`, code without BLAS)

`a` and `b` are windows of the memory; the pointers `pa` into the result are addresses.
-/

namespace H2.Dense
variable {K : Type} [Field K] [StarRing K]

/-- factorizations.c:1449-1489 `copy_lower_amatrix(a, aunit, b)` -/
def copyLower (a : Mat) (aunit : Bool) (b : Mat) (m : Mem K) : R (Mem K) := do
  let rows := min a.rows b.rows
  let cols := min a.cols b.cols
  let m ← forUp 0 cols (fun j m => do
    let m ← forUp 0 (min rows j) (fun i m => m.write (b.addr i j) 0) m
    let i := min rows j
    let (i, m) ← (if aunit && decide (i < rows) && decide (i = j) then do
        let m ← m.write (b.addr i j) 1
        pure (i + 1, m)
      else pure (i, m))
    forUp i rows (fun i m => do
      let v ← m.read (a.addr i j)
      m.write (b.addr i j) v) m) m
  forUp cols b.cols (fun j m => forUp 0 rows (fun i m => m.write (b.addr i j) 0) m) m

/-- factorizations.c:1491-1526 `copy_upper_amatrix(a, aunit, b)` -/
def copyUpper (a : Mat) (aunit : Bool) (b : Mat) (m : Mem K) : R (Mem K) :=
  let rows := min a.rows b.rows
  let cols := min a.cols b.cols
  forUp 0 cols (fun j m => do
    let n := if aunit then min rows j else min rows (j + 1)
    let m ← forUp 0 n (fun i m => do
      let v ← m.read (a.addr i j)
      m.write (b.addr i j) v) m
    let (i, m) ← (if aunit && decide (n < rows) && decide (n = j) then do
        let m ← m.write (b.addr n j) 1
        pure (n + 1, m)
      else pure (n, m))
    forUp i b.rows (fun i m => m.write (b.addr i j) 0) m) m

/-- factorizations.c:1277-1284, 1315-1322, 1358-1365, 1393-1400: first row and number of rows of the part of column `j` of a matrix with `n` rows that
belongs to its lower or upper triangle -/
def triRange (lower : Bool) (n j : Nat) : Nat × Nat := if lower then (j, n - min j n) else (0, min (j + 1) n)

/-- factorizations.c:1255-1447 `triangularaddmul_amatrix(alpha, alower, atrans, a, blower, btrans, b, c)`; the four branches for `atrans` and `btrans`
differ in the roles of `lda`, `ainc`, `ldb`, `binc`, in the conjugations, and in the triangles of the transposed matrices. -/
def triaddmul (alpha : K) (alower atrans : Bool) (a : Mat) (blower btrans : Bool) (b c : Mat) (m : Mem K) : R (Mem K) := do
  cassert (decide (c.rows = if atrans then a.cols else a.rows))
  cassert (decide ((if atrans then a.rows else a.cols) = if btrans then b.cols else b.rows))
  cassert (decide (c.cols = if btrans then b.rows else b.cols))
  forUp 0 (if atrans then a.rows else a.cols) (fun j m =>
    let (aoff, adim) := if atrans then triRange (!alower) a.cols j else triRange alower a.rows j
    let (boff, bdim) := if btrans then triRange blower b.rows j else triRange (!blower) b.cols j
    forUp 0 bdim (fun k m => forUp 0 adim (fun i m => do
      let x ← m.read (if atrans then a.addr j (aoff + i) else a.addr (aoff + i) j)
      let y ← m.read (if btrans then b.addr (boff + k) j else b.addr j (boff + k))
      let v ← m.read (c.addr (aoff + i) (boff + k))
      m.write (c.addr (aoff + i) (boff + k)) (v + alpha * (if atrans then star x else x) * (if btrans then star y else y))) m) m) m

end H2.Dense
