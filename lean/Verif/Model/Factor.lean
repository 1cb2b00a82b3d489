import Verif.Core.Down
import Verif.Model.Dense

/-!
# Triangular matrices and factorizations (`factorizations.c`, code without BLAS)

`c` is the identity or `CONJ`, `ad i j` the address of the entry of `a` that plays the role of entry `(i, j)`.
-/

namespace H2.Dense
variable {K : Type} [Field K] [StarRing K]

/-- `CONJ` if `trans` -/
def cj (trans : Bool) (x : K) : K := if trans then star x else x
/-- address of the entry used for position `(i, j)` of the matrix or of its adjoint -/
def adOp (trans : Bool) (a : Mat) (i j : Nat) : Nat := if trans then a.addr j i else a.addr i j

/-! ## diagonal -/

/-- factorizations.c:18-35 `diagsolve_amatrix_avector(atrans, a, x)`. -/
def diagsolveVec (trans : Bool) (a : Mat) (x : Vec) (m : Mem K) : R (Mem K) :=
  forUp 0 (min a.rows a.cols) (fun i m => do
    let v ← m.read (x.addr i)
    let d ← m.read (a.addr i i)
    m.write (x.addr i) (v / cj trans d)) m

/-- factorizations.c:91-107 `diageval_amatrix_avector(atrans, a, x)`. -/
def diagevalVec (trans : Bool) (a : Mat) (x : Vec) (m : Mem K) : R (Mem K) := do
  cassert (decide (a.cols ≤ x.dim))
  forUp 0 (min a.rows a.cols) (fun i m => do
    let d ← m.read (a.addr i i)
    let v ← m.read (x.addr i)
    m.write (x.addr i) (v * cj trans d)) m

/-- factorizations.c:63-88 `diagsolve_amatrix(atrans, a, xtrans, x)`. -/
def diagsolve (trans : Bool) (a : Mat) (xtrans : Bool) (x : Mat) (m : Mem K) : R (Mem K) :=
  if xtrans then
    forUp 0 (min a.rows a.cols) (fun i m => do
      let d ← m.read (a.addr i i)
      let alpha := 1 / cj trans d
      forUp 0 x.rows (fun j m => do
        let v ← m.read (x.addr j i)
        m.write (x.addr j i) (v * alpha)) m) m
  else
    forUp 0 (min a.rows a.cols) (fun i m => do
      let d ← m.read (a.addr i i)
      let alpha := 1 / cj trans d
      forUp 0 x.cols (fun j m => do
        let v ← m.read (x.addr i j)
        m.write (x.addr i j) (v * alpha)) m) m

/-! ## triangular solves -/

/-- The body of the loops over `j` in factorizations.c:282-338:
`newval = (aunit ? xv[j] : (xv[j] /= c(aa[..]))); for (i = lo; i < hi; i++) xv[i] -= c(aa[..]) * newval;` -/
def solveStep (c : K → K) (ad : Nat → Nat → Nat) (unit : Bool) (x : Vec) (j lo hi : Nat) (m : Mem K) : R (Mem K) := do
  let (newval, m) ← (if unit then do
      let v ← m.read (x.addr j)
      pure (v, m)
    else do
      let v ← m.read (x.addr j)
      let d ← m.read (ad j j)
      let m ← m.write (x.addr j) (v / c d)
      pure (v / c d, m))
  forUp lo hi (fun i m => do
    let v ← m.read (x.addr i)
    let d ← m.read (ad i j)
    m.write (x.addr i) (v - c d * newval)) m

/-- factorizations.c:282-309 `lowersolve_amatrix_avector(aunit, atrans, a, x)`. -/
def lowersolveVec (unit trans : Bool) (a : Mat) (x : Vec) (m : Mem K) : R (Mem K) := do
  let n := min a.rows a.cols
  cassert (decide (a.rows ≤ x.dim))
  cassert (decide (a.cols ≤ x.dim))
  if trans then
    forDown (fun j m => solveStep star (fun i j => a.addr j i) unit x j 0 j m) n m
  else
    forUp 0 n (fun j m => solveStep id a.addr unit x j (j + 1) n m) m

/-- factorizations.c:311-338 `uppersolve_amatrix_avector(aunit, atrans, a, x)`. -/
def uppersolveVec (unit trans : Bool) (a : Mat) (x : Vec) (m : Mem K) : R (Mem K) := do
  let n := min a.rows a.cols
  cassert (decide (a.rows ≤ x.dim))
  cassert (decide (a.cols ≤ x.dim))
  if trans then
    forUp 0 n (fun j m => solveStep star (fun i j => a.addr j i) unit x j (j + 1) n m) m
  else
    forDown (fun j m => solveStep id a.addr unit x j 0 j m) n m

/-- factorizations.c:341-349 `triangularsolve_amatrix_avector(alower, aunit, atrans, a, x)`. -/
def trisolveVec (lower unit trans : Bool) (a : Mat) (x : Vec) (m : Mem K) : R (Mem K) :=
  if lower then lowersolveVec unit trans a x m else uppersolveVec unit trans a x m

/-- The body of the loops over `k` in factorizations.c:432-578 for `!xtrans`: row operations
`x[k,*] *= 1 / c(aa[..]); for (i = lo; i < hi; i++) for (j = 0; j < x->cols; j++) x[i,j] -= c(aa[..]) * x[k,j];` -/
def rowStep (c : K → K) (ad : Nat → Nat → Nat) (unit : Bool) (x : Mat) (k lo hi : Nat) (m : Mem K) : R (Mem K) := do
  let m ← (if unit then pure m
    else do
      let d ← m.read (ad k k)
      let alpha := 1 / c d
      forUp 0 x.cols (fun j m => do
        let v ← m.read (x.addr k j)
        m.write (x.addr k j) (v * alpha)) m)
  forUp lo hi (fun i m => forUp 0 x.cols (fun j m => do
    let v ← m.read (x.addr i j)
    let d ← m.read (ad i k)
    let w ← m.read (x.addr k j)
    m.write (x.addr i j) (v - c d * w)) m) m

/-- The body of the loops over `k` in factorizations.c:432-578 for `xtrans`: column operations
`x[*,k] *= 1 / c(aa[..]); for (i = 0; i < x->rows; i++) for (j = lo; j < hi; j++) x[i,j] -= x[i,k] * c(aa[..]);` -/
def colStep (c : K → K) (ad : Nat → Nat → Nat) (unit : Bool) (x : Mat) (k lo hi : Nat) (m : Mem K) : R (Mem K) := do
  let m ← (if unit then pure m
    else do
      let d ← m.read (ad k k)
      let alpha := 1 / c d
      forUp 0 x.rows (fun i m => do
        let v ← m.read (x.addr i k)
        m.write (x.addr i k) (v * alpha)) m)
  forUp 0 x.rows (fun i m => forUp lo hi (fun j m => do
    let v ← m.read (x.addr i j)
    let w ← m.read (x.addr i k)
    let d ← m.read (ad j k)
    m.write (x.addr i j) (v - w * c d)) m) m

/-- factorizations.c:432-504 `lowersolve_amatrix(aunit, atrans, a, xtrans, x)`. -/
def lowersolve (unit trans : Bool) (a : Mat) (xtrans : Bool) (x : Mat) (m : Mem K) : R (Mem K) := do
  let n := min a.rows a.cols
  if trans then
    if xtrans then do
      cassert (decide (n ≤ x.cols))
      forDown (fun k m => colStep id (fun i j => a.addr j i) unit x k 0 k m) n m
    else do
      cassert (decide (n ≤ x.rows))
      forDown (fun k m => rowStep star (fun i j => a.addr j i) unit x k 0 k m) n m
  else
    if xtrans then do
      cassert (decide (n ≤ x.cols))
      forUp 0 n (fun k m => colStep star a.addr unit x k (k + 1) n m) m
    else do
      cassert (decide (n ≤ x.rows))
      forUp 0 n (fun k m => rowStep id a.addr unit x k (k + 1) n m) m

/-- factorizations.c:506-578 `uppersolve_amatrix(aunit, atrans, a, xtrans, x)`. -/
def uppersolve (unit trans : Bool) (a : Mat) (xtrans : Bool) (x : Mat) (m : Mem K) : R (Mem K) := do
  let n := min a.rows a.cols
  if trans then
    if xtrans then do
      cassert (decide (n ≤ x.cols))
      forUp 0 n (fun k m => colStep id (fun i j => a.addr j i) unit x k (k + 1) n m) m
    else do
      cassert (decide (n ≤ x.rows))
      forUp 0 n (fun k m => rowStep star (fun i j => a.addr j i) unit x k (k + 1) n m) m
  else
    if xtrans then do
      cassert (decide (n ≤ x.cols))
      forDown (fun k m => colStep star a.addr unit x k 0 k m) n m
    else do
      cassert (decide (n ≤ x.rows))
      forDown (fun k m => rowStep id a.addr unit x k 0 k m) n m

/-- factorizations.c:581-589 `triangularsolve_amatrix(alower, aunit, atrans, a, xtrans, x)`. -/
def trisolve (lower unit trans : Bool) (a : Mat) (xtrans : Bool) (x : Mat) (m : Mem K) : R (Mem K) :=
  if lower then lowersolve unit trans a xtrans x m else uppersolve unit trans a xtrans x m

/-! ## triangular products

`xa i` is the address of the `i`-th entry of the vector, of a column or of a row of `x`. -/

/-- `newval += c(aa[..]) * x[j]` for `j = lo, …, hi - 1` -/
def accum (c : K → K) (ad : Nat → Nat → Nat) (xa : Nat → Nat) (i lo hi : Nat) (m : Mem K) (newval : K) : R K :=
  forUp lo hi (fun j newval => do
    let d ← m.read (ad i j)
    let v ← m.read (xa j)
    pure (newval + c d * v)) newval

/-- one row of the triangular part:
`newval = (aunit ? x[i] : c(aa[..]) * x[i]); for (j = lo; j < hi; j++) newval += c(aa[..]) * x[j]; x[i] = newval;` -/
def evalRow (c : K → K) (ad : Nat → Nat → Nat) (unit : Bool) (xa : Nat → Nat) (i lo hi : Nat) (m : Mem K) : R (Mem K) := do
  let newval ← (if unit then m.read (xa i)
    else do
      let d ← m.read (ad i i)
      let v ← m.read (xa i)
      pure (c d * v))
  let newval ← accum c ad xa i lo hi m newval
  m.write (xa i) newval

/-- The upper triangular or trapezoidal products of factorizations.c:689-799 and 1004-1242 with `p` rows and `q` columns,
`n = min(p, q)`: left upper part, right part, lower part. -/
def evalUpper (c : K → K) (ad : Nat → Nat → Nat) (unit : Bool) (xa : Nat → Nat) (n p q : Nat) (m : Mem K) : R (Mem K) := do
  let m ← forUp 0 n (fun i m => evalRow c ad unit xa i (i + 1) n m) m
  let m ← (if n < q then
      forUp 0 n (fun i m => do
        let newval ← m.read (xa i)
        let newval ← accum c ad xa i n q m newval
        m.write (xa i) newval) m
    else pure m)
  if n < p then forUp n p (fun i m => m.write (xa i) 0) m else pure m

/-- The lower triangular or trapezoidal products of factorizations.c:689-799 and 1004-1242 with `p` rows and `q` columns:
lower part (the bound `q` of the inner loop is `n` in factorizations.c:762), top part. -/
def evalLower (c : K → K) (ad : Nat → Nat → Nat) (unit : Bool) (xa : Nat → Nat) (n p q : Nat) (m : Mem K) : R (Mem K) := do
  let m ← (if n < p then
      forUp n p (fun i m => do
        let newval ← accum c ad xa i 0 q m 0
        m.write (xa i) newval) m
    else pure m)
  forDown (fun i m => evalRow c ad unit xa i 0 i m) n m

/-- factorizations.c:689-743 `lowereval_amatrix_avector(aunit, atrans, a, x)`. -/
def lowerevalVec (unit trans : Bool) (a : Mat) (x : Vec) (m : Mem K) : R (Mem K) := do
  let n := min a.rows a.cols
  cassert (decide (a.rows ≤ x.dim))
  cassert (decide (a.cols ≤ x.dim))
  if trans then evalUpper star (fun i j => a.addr j i) unit x.addr n a.cols a.rows m
  else evalLower id a.addr unit x.addr n a.rows a.cols m

/-- factorizations.c:745-799 `uppereval_amatrix_avector(aunit, atrans, a, x)`. -/
def upperevalVec (unit trans : Bool) (a : Mat) (x : Vec) (m : Mem K) : R (Mem K) := do
  let n := min a.rows a.cols
  cassert (decide (a.rows ≤ x.dim))
  cassert (decide (a.cols ≤ x.dim))
  if trans then evalLower star (fun i j => a.addr j i) unit x.addr n a.cols n m
  else evalUpper id a.addr unit x.addr n a.rows a.cols m

/-- factorizations.c:802-810 `triangulareval_amatrix_avector(alower, aunit, atrans, a, x)`. -/
def trievalVec (lower unit trans : Bool) (a : Mat) (x : Vec) (m : Mem K) : R (Mem K) :=
  if lower then lowerevalVec unit trans a x m else upperevalVec unit trans a x m

/-- factorizations.c:1004-1122 `lowereval_amatrix(aunit, atrans, a, xtrans, x)`. -/
def lowereval (unit trans : Bool) (a : Mat) (xtrans : Bool) (x : Mat) (m : Mem K) : R (Mem K) := do
  let n := min a.rows a.cols
  if xtrans then do
    cassert (decide (a.rows ≤ x.cols))
    cassert (decide (a.cols ≤ x.cols))
    if trans then
      forUp 0 x.rows (fun k m => evalUpper id (fun i j => a.addr j i) unit (fun i => x.addr k i) n a.cols a.rows m) m
    else
      forUp 0 x.rows (fun k m => evalLower star a.addr unit (fun i => x.addr k i) n a.rows a.cols m) m
  else do
    cassert (decide (a.rows ≤ x.rows))
    cassert (decide (a.cols ≤ x.rows))
    if trans then
      forUp 0 x.cols (fun k m => evalUpper star (fun i j => a.addr j i) unit (fun i => x.addr i k) n a.cols a.rows m) m
    else
      forUp 0 x.cols (fun k m => evalLower id a.addr unit (fun i => x.addr i k) n a.rows a.cols m) m

/-- factorizations.c:1124-1242 `uppereval_amatrix(aunit, atrans, a, xtrans, x)`. -/
def uppereval (unit trans : Bool) (a : Mat) (xtrans : Bool) (x : Mat) (m : Mem K) : R (Mem K) := do
  let n := min a.rows a.cols
  if xtrans then do
    cassert (decide (a.rows ≤ x.cols))
    cassert (decide (a.cols ≤ x.cols))
    if trans then
      forUp 0 x.rows (fun k m => evalLower id (fun i j => a.addr j i) unit (fun i => x.addr k i) n a.cols a.rows m) m
    else
      forUp 0 x.rows (fun k m => evalUpper star a.addr unit (fun i => x.addr k i) n a.rows a.cols m) m
  else do
    cassert (decide (a.rows ≤ x.rows))
    cassert (decide (a.cols ≤ x.rows))
    if trans then
      forUp 0 x.cols (fun k m => evalLower star (fun i j => a.addr j i) unit (fun i => x.addr i k) n a.cols a.rows m) m
    else
      forUp 0 x.cols (fun k m => evalUpper id a.addr unit (fun i => x.addr i k) n a.rows a.cols m) m

/-- factorizations.c:1245-1253 `triangulareval_amatrix(alower, aunit, atrans, a, xtrans, x)`. -/
def trieval (lower unit trans : Bool) (a : Mat) (xtrans : Bool) (x : Mat) (m : Mem K) : R (Mem K) :=
  if lower then lowereval unit trans a xtrans x m else uppereval unit trans a xtrans x m

/-! ## LR decomposition -/

/-- factorizations.c:1580-1584: rows `i + 1, …, n - 1` of one elimination step. -/
def lrStep (a : Mat) (n i : Nat) (m : Mem K) : R (Mem K) := do
  let p ← m.read (a.addr i i)
  let alpha := 1 / p
  forUp (i + 1) n (fun j m => do
    let v ← m.read (a.addr j i)
    let m ← m.write (a.addr j i) (v * alpha)
    forUp (i + 1) n (fun k m => do
      let v ← m.read (a.addr j k)
      let l ← m.read (a.addr j i)
      let u ← m.read (a.addr i k)
      m.write (a.addr j k) (v - l * u)) m) m

open Classical in
/-- factorizations.c:1574-1588: `for (i = i0; i < n - 1; i++)` with `steps` rounds left, then the final test; the result is
the returned number. -/
noncomputable def lrLoop (a : Mat) (n : Nat) : (steps i : Nat) → Mem K → R (Nat × Mem K)
  | 0, i, m => do
    let p ← m.read (a.addr i i)
    if p = 0 then pure (i + 1, m) else pure (0, m)
  | s + 1, i, m => do
    let p ← m.read (a.addr i i)
    if p = 0 then pure (i + 1, m)
    else do
      let m ← lrStep a n i m
      lrLoop a n s (i + 1) m

/-- factorizations.c:1563-1591 `lrdecomp_amatrix(a)`; `n - 1` is computed modulo 2^32. -/
noncomputable def lrdecomp (a : Mat) (m : Mem K) : R (Nat × Mem K) := do
  cassert (decide (a.rows = a.cols))
  lrLoop a a.rows ((a.rows + (2 ^ 32 - 1)) % 2 ^ 32) 0 m

/-- factorizations.c:1760-1783 `lrsolve_amatrix_avector(atrans, a, x)`. -/
def lrsolveVec (trans : Bool) (a : Mat) (x : Vec) (m : Mem K) : R (Mem K) :=
  if trans then do
    let m ← trisolveVec false false true a x m
    trisolveVec true true true a x m
  else do
    let m ← trisolveVec true true false a x m
    trisolveVec false false false a x m

/-- factorizations.c:1785-1790 `lrsolve_amatrix(a, x)`. -/
def lrsolve (a x : Mat) (m : Mem K) : R (Mem K) := do
  let m ← trisolve true true false a false x m
  trisolve false false false a false x m

/-- factorizations.c:1792-1815 `lreval_amatrix_avector(atrans, a, x)`. -/
def lrevalVec (trans : Bool) (a : Mat) (x : Vec) (m : Mem K) : R (Mem K) :=
  if trans then do
    let m ← trievalVec true true true a x m
    trievalVec false false true a x m
  else do
    let m ← trievalVec false false false a x m
    trievalVec true true false a x m

/-! ## blocked LR decomposition -/

/-- `n * k / blocks` in `uint` arithmetic -/
def blockOff (n blocks k : Nat) : Nat := n * k % 2 ^ 32 / blocks
/-- `n * (k + 1) / blocks - koff` in `uint` arithmetic -/
def blockSize (n blocks k : Nat) : Nat := (blockOff n blocks (k + 1) + 2 ^ 32 - blockOff n blocks k) % 2 ^ 32
/-- the submatrix `A_{ij}` given by factorizations.c:1616-1656 -/
def subBlock (a : Mat) (blocks i j : Nat) : R Mat :=
  initSub a (blockSize a.rows blocks i) (blockOff a.rows blocks i) (blockSize a.rows blocks j) (blockOff a.rows blocks j)

/-- factorizations.c:1613-1670: one round of the loop of `lrdecomp_blocks_amatrix`; a positive first component is returned
by the function. -/
noncomputable def lrBlockStep (a : Mat) (blocks k : Nat) (m : Mem K) : R (Nat × Mem K) := do
  let d ← subBlock a blocks k k
  let (i, m) ← lrdecomp d m
  if 0 < i then pure ((i + blockOff a.rows blocks k) % 2 ^ 32, m)
  else do
    let m ← forUp (k + 1) blocks (fun j m => do
      let r ← subBlock a blocks k j
      trisolve true true false d false r m) m
    let m ← forUp (k + 1) blocks (fun i m => do
      let l ← subBlock a blocks i k
      trisolve false false true d true l m) m
    let m ← forUp (k + 1) blocks (fun j m => do
      let r ← subBlock a blocks k j
      forUp (k + 1) blocks (fun i m => do
        let l ← subBlock a blocks i k
        let s ← subBlock a blocks i j
        addmul (-1) false l false r s m) m) m
    pure (0, m)

/-- factorizations.c:1612-1673: the remaining `steps` rounds starting with round `k`. -/
noncomputable def lrBlockLoop (a : Mat) (blocks : Nat) : (steps k : Nat) → Mem K → R (Nat × Mem K)
  | 0, _, m => pure (0, m)
  | s + 1, k, m => do
    let (p, m) ← lrBlockStep a blocks k m
    if 0 < p then pure (p, m) else lrBlockLoop a blocks s (k + 1) m

/-- factorizations.c:1594-1674 `lrdecomp_blocks_amatrix(a, blocksize)`. -/
noncomputable def lrdecompBlocks (a : Mat) (blocksize : Nat) (m : Mem K) : R (Nat × Mem K) := do
  cassert (decide (a.rows = a.cols))
  if a.rows ≤ blocksize then lrdecomp a m
  else if blocksize = 0 then throw .ub
  else lrBlockLoop a (a.rows / blocksize) (a.rows / blocksize) 0 m

end H2.Dense
