import Verif.Core.Mem
import Mathlib.Algebra.Field.Defs
import Mathlib.Algebra.Star.Basic

/-!
# Dense vectors and matrices (`avector.c`, `amatrix.c`, code without BLAS)

Vectors and matrices are windows into a flat memory.  `CONJ` is `star`; with a trivial star this is the real build.
-/

namespace H2

/-- avector.h `struct _avector`: `v` is the address `base`. -/
structure Vec where
  base : Nat
  dim : Nat

/-- amatrix.h `struct _amatrix`: `a` is the address `base`. -/
structure Mat where
  base : Nat
  ld : Nat
  rows : Nat
  cols : Nat
deriving DecidableEq

namespace Vec
/-- address of `v->v[i]` -/
def addr (v : Vec) (i : Nat) : Nat := v.base + i
end Vec

namespace Mat
/-- address of `a->a[i + j * ld]` -/
def addr (a : Mat) (i j : Nat) : Nat := a.base + (i + j * a.ld)
end Mat

namespace Dense
variable {K : Type _} [Field K] [StarRing K]

/-! ## windows -/

/-- amatrix.c:39-62 `init_sub_amatrix(a, src, rows, roff, cols, coff)`. -/
def initSub (src : Mat) (rows roff cols coff : Nat) : R Mat := do
  cassert (decide (roff + rows ≤ src.rows))
  cassert (decide (coff + cols ≤ src.cols))
  pure ⟨src.base + roff + src.ld * coff, src.ld, rows, cols⟩

/-- amatrix.c:64-83 `init_vec_amatrix(a, src, rows, cols)`; `dim / 0` is undefined. -/
def initVecMat (src : Vec) (rows cols : Nat) : R Mat := do
  if cols = 0 then throw .ub
  cassert (decide (rows ≤ src.dim / cols))
  pure ⟨src.base, rows, rows, cols⟩

/-- amatrix.c:85-103 `init_pointer_amatrix(a, src, rows, cols)` for a non-NULL `src`. -/
def initPointer (src rows _cols : Nat) : R Mat := pure ⟨src, rows, rows, rows⟩

/-- avector.c:37-54 `init_sub_avector(v, src, dim, off)`. -/
def initSubVec (src : Vec) (dim off : Nat) : R Vec := do
  cassert (decide (dim + off ≤ src.dim))
  pure ⟨src.base + off, dim⟩

/-- avector.c:67-88 `init_column_avector(v, src, col)`. -/
def initColumn (src : Mat) (col : Nat) : R Vec := do
  cassert (decide (col < src.cols))
  pure ⟨src.base + col * src.ld, src.rows⟩

/-! ## vectors -/

/-- avector.c:235-242 `clear_avector(v)`. -/
def clearVec (v : Vec) (m : Mem K) : R (Mem K) :=
  forUp 0 v.dim (fun i m => m.write (v.addr i) 0) m

/-- avector.c:244-251 `fill_avector(v, x)`. -/
def fillVec (v : Vec) (x : K) (m : Mem K) : R (Mem K) :=
  forUp 0 v.dim (fun i m => m.write (v.addr i) x) m

/-- avector.c:277-286 `copy_avector(v, w)`. -/
def copyVec (v w : Vec) (m : Mem K) : R (Mem K) := do
  cassert (decide (v.dim = w.dim))
  forUp 0 v.dim (fun i m => do
    let x ← m.read (v.addr i)
    m.write (w.addr i) x) m

/-- avector.c:288-297 `copy_sub_avector(v, w)`. -/
def copySubVec (v w : Vec) (m : Mem K) : R (Mem K) :=
  forUp 0 (min v.dim w.dim) (fun i m => do
    let x ← m.read (v.addr i)
    m.write (w.addr i) x) m

/-- avector.c:326-333 `scale_avector(alpha, v)`. -/
def scaleVec (alpha : K) (v : Vec) (m : Mem K) : R (Mem K) :=
  forUp 0 v.dim (fun i m => do
    let x ← m.read (v.addr i)
    m.write (v.addr i) (x * alpha)) m

/-- avector.c:366-379 `dotprod_avector(x, y)`. -/
def dotprodVec (x y : Vec) (m : Mem K) : R K := do
  cassert (decide (x.dim = y.dim))
  forUp 0 x.dim (fun i alpha => do
    let a ← m.read (x.addr i)
    let b ← m.read (y.addr i)
    pure (alpha + star a * b)) 0

/-- avector.c:391-401 `add_avector(alpha, x, y)`. -/
def addVec (alpha : K) (x y : Vec) (m : Mem K) : R (Mem K) := do
  cassert (decide (x.dim ≤ y.dim))
  forUp 0 x.dim (fun i m => do
    let b ← m.read (y.addr i)
    let a ← m.read (x.addr i)
    m.write (y.addr i) (b + alpha * a)) m

/-! ## matrices -/

/-- amatrix.c:317-327 `clear_amatrix(a)`. -/
def clear (a : Mat) (m : Mem K) : R (Mem K) :=
  forUp 0 a.cols (fun j m => forUp 0 a.rows (fun i m => m.write (a.addr i j) 0) m) m

/-- amatrix.c:329-351 `clear_lower_amatrix(a, strict)`. -/
def clearLower (a : Mat) (strict : Bool) (m : Mem K) : R (Mem K) :=
  if strict then
    forUp 0 a.cols (fun j m => forUp (j + 1) a.rows (fun i m => m.write (a.addr i j) 0) m) m
  else
    forUp 0 a.cols (fun j m => forUp j a.rows (fun i m => m.write (a.addr i j) 0) m) m

/-- amatrix.c:353-375 `clear_upper_amatrix(a, strict)`; `rows - 1` is computed modulo 2^32. -/
def clearUpper (a : Mat) (strict : Bool) (m : Mem K) : R (Mem K) :=
  if strict then
    forUp 0 a.cols (fun j m => forUp 0 (min j a.rows) (fun i m => m.write (a.addr i j) 0) m) m
  else
    forUp 0 a.cols (fun j m =>
      forUp 0 (min j ((a.rows + (2 ^ 32 - 1)) % 2 ^ 32) + 1) (fun i m => m.write (a.addr i j) 0) m) m

/-- amatrix.c:377-394 `identity_amatrix(a)`. -/
def identity (a : Mat) (m : Mem K) : R (Mem K) := do
  let m ← forUp 0 a.cols (fun j m => forUp 0 a.rows (fun i m => m.write (a.addr i j) 0) m) m
  forUp 0 (min a.cols a.rows) (fun i m => m.write (a.addr i i) 1) m

/-- amatrix.c:549-576 `copy_sub_amatrix(atrans, a, b)`. -/
def copySub (atrans : Bool) (a b : Mat) (m : Mem K) : R (Mem K) :=
  if atrans then
    forUp 0 (min a.cols b.rows) (fun i m => forUp 0 (min a.rows b.cols) (fun j m => do
      let x ← m.read (a.addr j i)
      m.write (b.addr i j) (star x)) m) m
  else
    forUp 0 (min a.cols b.cols) (fun j m => forUp 0 (min a.rows b.rows) (fun i m => do
      let x ← m.read (a.addr i j)
      m.write (b.addr i j) x) m) m

/-- amatrix.c:484-499 `copy_amatrix(atrans, a, b)`. -/
def copy (atrans : Bool) (a b : Mat) (m : Mem K) : R (Mem K) :=
  if atrans then do
    cassert (decide (a.rows = b.cols))
    cassert (decide (a.cols = b.rows))
    copySub true a b m
  else do
    cassert (decide (a.rows = b.rows))
    cassert (decide (a.cols = b.cols))
    copySub false a b m

/-- amatrix.c:501-536 `copy_colpiv_amatrix(atrans, a, colpiv, b)`. -/
def copyColpiv (atrans : Bool) (a : Mat) (colpiv : Arr Nat) (b : Mat) (m : Mem K) : R (Mem K) :=
  if atrans then do
    cassert (decide (b.rows = a.cols))
    cassert (decide (b.cols = a.rows))
    forUp 0 a.cols (fun j m => do
      let j1 ← colpiv.get j
      cassert (decide (j1 < a.cols))
      forUp 0 a.rows (fun i m => do
        let x ← m.read (a.addr i j1)
        m.write (b.addr j i) (star x)) m) m
  else do
    cassert (decide (b.rows = a.rows))
    cassert (decide (b.cols = a.cols))
    forUp 0 a.cols (fun j m => do
      let j1 ← colpiv.get j
      cassert (decide (j1 < a.cols))
      forUp 0 a.rows (fun i m => do
        let x ← m.read (a.addr i j1)
        m.write (b.addr i j) x) m) m

/-- amatrix.c:693-706 `scale_amatrix(alpha, a)`. -/
def scale (alpha : K) (a : Mat) (m : Mem K) : R (Mem K) :=
  forUp 0 a.cols (fun j m => forUp 0 a.rows (fun i m => do
    let x ← m.read (a.addr i j)
    m.write (a.addr i j) (x * alpha)) m) m

/-- amatrix.c:709-726 `conjugate_amatrix(a)` (complex build). -/
def conjugate (a : Mat) (m : Mem K) : R (Mem K) :=
  forUp 0 a.cols (fun j m => forUp 0 a.rows (fun i m => do
    let x ← m.read (a.addr i j)
    m.write (a.addr i j) (star x)) m) m

/-- amatrix.c:752-775 `dotprod_amatrix(a, b)`. -/
def dotprod (a b : Mat) (m : Mem K) : R K := do
  cassert (decide (a.rows = b.rows))
  cassert (decide (a.cols = b.cols))
  forUp 0 a.cols (fun j sum => forUp 0 a.rows (fun i sum => do
    let x ← m.read (a.addr i j)
    let y ← m.read (b.addr i j)
    pure (sum + star x * y)) sum) 0

/-- amatrix.c:887-904 `addeval_amatrix_avector(alpha, a, src, trg)`. -/
def addeval (alpha : K) (a : Mat) (src trg : Vec) (m : Mem K) : R (Mem K) := do
  cassert (decide (a.cols ≤ src.dim))
  cassert (decide (a.rows ≤ trg.dim))
  forUp 0 a.rows (fun i m => do
    let sum ← forUp 0 a.cols (fun j sum => do
      let x ← m.read (a.addr i j)
      let y ← m.read (src.addr j)
      pure (sum + x * y)) 0
    let z ← m.read (trg.addr i)
    m.write (trg.addr i) (z + alpha * sum)) m

/-- amatrix.c:906-924 `addevaltrans_amatrix_avector(alpha, a, src, trg)`. -/
def addevaltrans (alpha : K) (a : Mat) (src trg : Vec) (m : Mem K) : R (Mem K) := do
  cassert (decide (a.rows ≤ src.dim))
  cassert (decide (a.cols ≤ trg.dim))
  forUp 0 a.cols (fun j m => do
    let sum ← forUp 0 a.rows (fun i sum => do
      let x ← m.read (a.addr i j)
      let y ← m.read (src.addr i)
      pure (sum + star x * y)) 0
    let z ← m.read (trg.addr j)
    m.write (trg.addr j) (z + alpha * sum)) m

/-- amatrix.c:927-935 `mvm_amatrix_avector(alpha, atrans, a, src, trg)`. -/
def mvm (alpha : K) (atrans : Bool) (a : Mat) (src trg : Vec) (m : Mem K) : R (Mem K) :=
  if atrans then addevaltrans alpha a src trg m else addeval alpha a src trg m

/-- `m[p] += x` -/
def incr (m : Mem K) (p : Nat) (x : K) : R (Mem K) := do
  let z ← m.read p
  m.write p (z + x)

/-- amatrix.c:966-995 `add_amatrix(alpha, atrans, a, b)`. -/
def add (alpha : K) (atrans : Bool) (a b : Mat) (m : Mem K) : R (Mem K) :=
  if atrans then do
    cassert (decide (a.rows ≤ b.cols))
    cassert (decide (a.cols ≤ b.rows))
    forUp 0 a.rows (fun i m => forUp 0 a.cols (fun j m => do
      let x ← m.read (a.addr i j)
      incr m (b.addr j i) (alpha * star x)) m) m
  else do
    cassert (decide (a.rows ≤ b.rows))
    cassert (decide (a.cols ≤ b.cols))
    forUp 0 a.cols (fun j m => forUp 0 a.rows (fun i m => do
      let x ← m.read (a.addr i j)
      incr m (b.addr i j) (alpha * x)) m) m

/-- amatrix.c:1046-1138 `addmul_amatrix(alpha, atrans, a, btrans, b, c)`. -/
def addmul (alpha : K) (atrans : Bool) (a : Mat) (btrans : Bool) (b c : Mat) (m : Mem K) : R (Mem K) :=
  if a.rows = 0 ∨ a.cols = 0 ∨ b.rows = 0 ∨ b.cols = 0 then pure m
  else
    match atrans, btrans with
    | true, true => do
      cassert (decide (a.cols ≤ c.rows))
      cassert (decide (b.rows ≤ c.cols))
      cassert (decide (a.rows = b.cols))
      forUp 0 a.cols (fun i m => forUp 0 b.rows (fun k m => forUp 0 a.rows (fun j m => do
        let x ← m.read (a.addr j i)
        let y ← m.read (b.addr k j)
        incr m (c.addr i k) (alpha * star x * star y)) m) m) m
    | true, false => do
      cassert (decide (a.cols ≤ c.rows))
      cassert (decide (b.cols ≤ c.cols))
      cassert (decide (a.rows = b.rows))
      forUp 0 b.cols (fun k m => forUp 0 a.cols (fun i m => forUp 0 a.rows (fun j m => do
        let x ← m.read (a.addr j i)
        let y ← m.read (b.addr j k)
        incr m (c.addr i k) (alpha * star x * y)) m) m) m
    | false, true => do
      cassert (decide (a.rows ≤ c.rows))
      cassert (decide (b.rows ≤ c.cols))
      cassert (decide (a.cols = b.cols))
      forUp 0 a.cols (fun j m => forUp 0 b.rows (fun k m => forUp 0 a.rows (fun i m => do
        let x ← m.read (a.addr i j)
        let y ← m.read (b.addr k j)
        incr m (c.addr i k) (alpha * x * star y)) m) m) m
    | false, false => do
      cassert (decide (a.rows ≤ c.rows))
      cassert (decide (b.cols ≤ c.cols))
      cassert (decide (a.cols = b.rows))
      forUp 0 b.cols (fun k m => forUp 0 a.cols (fun j m => forUp 0 a.rows (fun i m => do
        let x ← m.read (a.addr i j)
        let y ← m.read (b.addr j k)
        incr m (c.addr i k) (alpha * x * y)) m) m) m

/-- amatrix.c:1187-1233 `bidiagmul_amatrix(alpha, atrans, a, d, l)`. -/
def bidiagmul (alpha : K) (atrans : Bool) (a : Mat) (d l : Vec) (m : Mem K) : R (Mem K) :=
  if atrans then do
    cassert (decide (a.rows = d.dim))
    cassert (decide (l.dim + 1 = d.dim))
    if a.rows < 1 ∨ a.cols < 1 then pure m
    else do
      let m ← forUp 0 (a.rows - 1) (fun j m => do
        let dj ← m.read (d.addr j)
        let lj ← m.read (l.addr j)
        forUp 0 a.cols (fun i m => do
          let x ← m.read (a.addr j i)
          let y ← m.read (a.addr (j + 1) i)
          m.write (a.addr j i) (star (alpha * dj) * x + star (alpha * lj) * y)) m) m
      let dj ← m.read (d.addr (a.rows - 1))
      forUp 0 a.cols (fun i m => do
        let x ← m.read (a.addr (a.rows - 1) i)
        m.write (a.addr (a.rows - 1) i) (x * star (alpha * dj))) m
  else do
    cassert (decide (a.cols = d.dim))
    cassert (decide (l.dim + 1 = d.dim))
    if a.rows < 1 ∨ a.cols < 1 then pure m
    else do
      let m ← forUp 0 (a.cols - 1) (fun j m => do
        let dj ← m.read (d.addr j)
        let lj ← m.read (l.addr j)
        forUp 0 a.rows (fun i m => do
          let x ← m.read (a.addr i j)
          let y ← m.read (a.addr i (j + 1))
          m.write (a.addr i j) (alpha * dj * x + alpha * lj * y)) m) m
      let dj ← m.read (d.addr (a.cols - 1))
      forUp 0 a.rows (fun i m => do
        let x ← m.read (a.addr i (a.cols - 1))
        m.write (a.addr i (a.cols - 1)) (x * (alpha * dj))) m

/-- amatrix.c:243-277 `resizecopy_amatrix(a, rows, cols)` for a matrix that owns the `a.ld * a.cols` cells at
`a.base`; the allocator returns the address `nb` (cells not in use) with arbitrary contents. -/
def resizecopy (a : Mat) (rows cols nb : Nat) (junk : Nat → K) (m : Mem K) : R (Mat × Mem K) :=
  if rows ≠ a.rows ∨ cols ≠ a.cols then do
    let n : Mat := ⟨nb, rows, rows, cols⟩
    let m := m.alloc nb (rows * cols) junk
    let m ← forUp 0 (min cols a.cols) (fun j m => do
      let m ← forUp 0 (min rows a.rows) (fun i m => do
        let x ← m.read (a.addr i j)
        m.write (n.addr i j) x) m
      forUp (min rows a.rows) rows (fun i m => m.write (n.addr i j) 0) m) m
    let m ← forUp (min cols a.cols) cols (fun j m => forUp 0 rows (fun i m => m.write (n.addr i j) 0) m) m
    pure (n, m.free a.base (a.ld * a.cols))
  else pure (a, m)

/-- amatrix.c:226-241 `resize_amatrix(a, rows, cols)`. -/
def resize (a : Mat) (rows cols nb : Nat) (junk : Nat → K) (m : Mem K) : R (Mat × Mem K) :=
  if rows ≠ a.rows ∨ cols ≠ a.cols then
    pure (⟨nb, rows, rows, cols⟩, (m.free a.base (a.ld * a.cols)).alloc nb (rows * cols) junk)
  else pure (a, m)

end Dense
end H2
