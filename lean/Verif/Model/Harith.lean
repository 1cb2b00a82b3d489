import Verif.Model.Block
import Verif.Core.FinLoop
import Mathlib.Algebra.Star.Basic
import Mathlib.Algebra.Field.Defs

/-!
# Arithmetic of H-matrices (`Library/harith.c`)

Matrices are values: dense matrices are given by their dimensions and entries, low-rank matrices by their factors.  The
memory level of the dense kernels that are called here (`addmul_amatrix`, `add_amatrix`, `copy_amatrix`, …) is treated in
`Model/Dense` (C24–C28).  Simplifications:

* A submatrix that shares memory with its father (`init_sub_amatrix`, `split_sub_amatrix`) is modelled by taking the
  window out of the father (`VMat.sub`), working on it, and putting it back (`VMat.glue`).
* The truncated low-rank operations `add_rkmatrix`, `add_amatrix_rkmatrix` and `merge_rkmatrix` are parameters
  (`TruncOps`).
* The `HARITH_*_QUICK_EXIT` macros are not defined.
* The field `desc` of the H-matrices is not represented.
* Pointer comparisons of clusters compare the paths from the root (`CRef.same`).
-/

namespace H2

/-- amatrix.h `struct _amatrix` as a value. -/
structure VMat (K : Type _) where
  rows : Nat
  cols : Nat
  e : Nat → Nat → K

/-- rkmatrix.h `struct _rkmatrix` as a value: `A B^*`. -/
structure VRk (K : Type _) where
  A : VMat K
  B : VMat K
  k : Nat

/-- hmatrix.h `struct _hmatrix`: exactly one of `r`, `f`, `son` is not NULL; `son i j` is `son[i + j * rsons]`. -/
inductive HV (G K : Type) where
  | rk (rc cc : CRef G) (r : VRk K)
  | full (rc cc : CRef G) (f : VMat K)
  | super (rc cc : CRef G) (rsons csons : Nat) (son : Fin rsons → Fin csons → HV G K)

/-- The truncated operations of harith.c: `add_rkmatrix(alpha, src, tm, eps, trg)` (harith.c:956-992),
`add_amatrix_rkmatrix(alpha, atrans, a, tm, eps, trg)` (harith.c:339-508), `merge_rkmatrix(colmerge, src, tm, eps, trg)`
(harith.c:1888-1893), for fixed `tm` and `eps`; the result is the new value of `trg`. -/
structure TruncOps (K : Type) where
  addRk : K → VRk K → VRk K → R (VRk K)
  addAm : K → Bool → VMat K → VRk K → R (VRk K)
  merge : Bool → VRk K → VRk K → R (VRk K)

namespace VMat
variable {K : Type} [Field K] [StarRing K]

/-- amatrix.c:317-327 `clear_amatrix(a)` for a new matrix. -/
def zero (rows cols : Nat) : VMat K := ⟨rows, cols, fun _ _ => 0⟩
/-- amatrix.c:377-394 `identity_amatrix(a)` for a new matrix. -/
def ident (rows cols : Nat) : VMat K := ⟨rows, cols, fun i j => if i = j then 1 else 0⟩
/-- amatrix.c:39-62 `init_sub_amatrix(a, src, rows, roff, cols, coff)`: the content of the window. -/
def sub (a : VMat K) (rows roff cols coff : Nat) : R (VMat K) := do
  cassert (decide (roff + rows ≤ a.rows))
  cassert (decide (coff + cols ≤ a.cols))
  pure ⟨rows, cols, fun i j => a.e (roff + i) (coff + j)⟩
/-- `a` after its window at `(roff, coff)` has obtained the content `w` (the window shares memory with `a`). -/
def glue (a : VMat K) (roff coff : Nat) (w : VMat K) : VMat K :=
  ⟨a.rows, a.cols, fun i j =>
    if roff ≤ i ∧ i < roff + w.rows ∧ coff ≤ j ∧ j < coff + w.cols then w.e (i - roff) (j - coff) else a.e i j⟩
/-- rows of `a` or `a^*` -/
def orows (trans : Bool) (a : VMat K) : Nat := if trans then a.cols else a.rows
/-- columns of `a` or `a^*` -/
def ocols (trans : Bool) (a : VMat K) : Nat := if trans then a.rows else a.cols
/-- entry of `a` or `a^*` -/
def oe (trans : Bool) (a : VMat K) (i j : Nat) : K := if trans then star (a.e j i) else a.e i j

/-- amatrix.c:484-499 `copy_amatrix(atrans, a, b)`: the new value of `b` (all entries are overwritten). -/
def copy (atrans : Bool) (a : VMat K) (rows cols : Nat) : R (VMat K) := do
  cassert (decide (a.orows atrans = rows))
  cassert (decide (a.ocols atrans = cols))
  pure ⟨rows, cols, a.oe atrans⟩

/-- amatrix.c:938-995 `add_amatrix(alpha, atrans, a, b)`. -/
def add (alpha : K) (atrans : Bool) (a b : VMat K) : R (VMat K) := do
  cassert (decide (a.orows atrans ≤ b.rows))
  cassert (decide (a.ocols atrans ≤ b.cols))
  pure ⟨b.rows, b.cols, fun i j =>
    if i < a.orows atrans ∧ j < a.ocols atrans then b.e i j + alpha * a.oe atrans i j else b.e i j⟩

/-- amatrix.c:999-1138 `addmul_amatrix(alpha, atrans, a, btrans, b, c)`. -/
def addmul (alpha : K) (atrans : Bool) (a : VMat K) (btrans : Bool) (b c : VMat K) : R (VMat K) :=
  if a.rows = 0 ∨ a.cols = 0 ∨ b.rows = 0 ∨ b.cols = 0 then pure c
  else do
    cassert (decide (a.orows atrans ≤ c.rows))
    cassert (decide (b.ocols btrans ≤ c.cols))
    cassert (decide (a.ocols atrans = b.orows btrans))
    pure ⟨c.rows, c.cols, fun i j => if i < a.orows atrans ∧ j < b.ocols btrans then
      c.e i j + alpha * ∑ l ∈ Finset.range (a.ocols atrans), a.oe atrans i l * b.oe btrans l j else c.e i j⟩
end VMat

namespace VRk
variable {K : Type} [Field K] [StarRing K]
/-- rkmatrix.c:45-53 `new_rkmatrix(rows, cols, 0)`. -/
def new0 (rows cols : Nat) : VRk K := ⟨.zero rows 0, .zero cols 0, 0⟩
/-- rkmatrix.c:24-36 `init_sub_rkmatrix(r, src, rows, roff, cols, coff)`. -/
def sub (src : VRk K) (rows roff cols coff : Nat) : R (VRk K) := do
  let A ← src.A.sub rows roff src.k 0
  let B ← src.B.sub cols coff src.k 0
  pure ⟨A, B, src.k⟩
/-- rkmatrix.c:136-159 `copy_rkmatrix(false, a, b)` where `b` has been created with the dimensions and the rank
of `a`: the new value of `b`. -/
def copyNew (a : VRk K) : R (VRk K) := do
  let A ← a.A.copy false a.A.rows a.k
  let B ← a.B.copy false a.B.rows a.k
  pure ⟨A, B, a.k⟩
end VRk

namespace HV
variable {G K : Type} [Field K] [StarRing K]

def rc : HV G K → CRef G | rk t _ _ => t | full t _ _ => t | super t _ _ _ _ => t
def cc : HV G K → CRef G | rk _ s _ => s | full _ s _ => s | super _ s _ _ _ => s
/-- `h->rc->size` -/
def rsize (h : HV G K) : Nat := h.rc.cl.size
/-- `h->cc->size` -/
def csize (h : HV G K) : Nat := h.cc.cl.size

/-- the array `son` after `son[i + j * rsons]` has become `v` -/
def setSon {m n : Nat} (son : Fin m → Fin n → HV G K) (i : Fin m) (j : Fin n) (v : HV G K) : Fin m → Fin n → HV G K :=
  fun i' j' => if i' = i ∧ j' = j then v else son i' j'

/-- `son[q]` in an array of `m * n` pointers, changed by `f`. -/
def atFlat {m n : Nat} (son : Fin m → Fin n → HV G K) (q : Nat) (f : HV G K → R (HV G K)) :
    R (Fin m → Fin n → HV G K) :=
  if h : q % m < m ∧ q / m < n then do
    let v ← f (son ⟨q % m, h.1⟩ ⟨q / m, h.2⟩)
    pure (setSon son ⟨q % m, h.1⟩ ⟨q / m, h.2⟩ v)
  else .error .ub

/-- hmatrix.c:480-514 `build_from_block_hmatrix(b, k)`: the block structure; `r` and `f` give the contents of the leaves,
which are filled afterwards. -/
def ofBlock (r : CRef G → CRef G → VRk K) (f : CRef G → CRef G → VMat K) : Block G → HV G K
  | .mk rc cc a _ rsons csons son =>
    if rsons * csons ≠ 0 then super rc cc rsons csons (fun i j => ofBlock r f (son i j))
    else if a then rk rc cc (r rc cc) else full rc cc (f rc cc)

/-- harith.c:514-536 `add_rkmatrix_amatrix(alpha, atrans, a, b)`. -/
def addRkAm (alpha : K) (atrans : Bool) (a : VRk K) (b : VMat K) : R (VMat K) :=
  if atrans then do
    cassert (decide (a.B.rows = b.rows))
    cassert (decide (a.A.rows = b.cols))
    if 0 < a.k then VMat.addmul alpha false a.B true a.A b else pure b
  else do
    cassert (decide (a.A.rows = b.rows))
    cassert (decide (a.B.rows = b.cols))
    if 0 < a.k then VMat.addmul alpha false a.A true a.B b else pure b

/-- harith.c:542-590 `add_hmatrix_amatrix(alpha, atrans, a, b)`. -/
def addHAm (alpha : K) (atrans : Bool) : HV G K → VMat K → R (VMat K)
  | rk t s r, b => do
    cassert (decide (t.cl.size = b.orows atrans))
    cassert (decide (s.cl.size = b.ocols atrans))
    addRkAm alpha atrans r b
  | full t s f, b => do
    cassert (decide (t.cl.size = b.orows atrans))
    cassert (decide (s.cl.size = b.ocols atrans))
    VMat.add alpha atrans f b
  | super t s rsons csons son, b => do
    cassert (decide (t.cl.size = b.orows atrans))
    cassert (decide (s.cl.size = b.ocols atrans))
    let (b, coff) ← foldFinM csons (fun j (st : VMat K × Nat) =>
      if h : 0 < rsons then do
        let (b, roff) ← foldFinM rsons (fun i (st' : VMat K × Nat) => do
          let (wr, wo, vr, vo) := if atrans then ((son i j).csize, st.2, (son i j).rsize, st'.2)
            else ((son i j).rsize, st'.2, (son i j).csize, st.2)
          let b1 ← st'.1.sub wr wo vr vo
          let b1 ← addHAm alpha atrans (son i j) b1
          pure (st'.1.glue wo vo b1, st'.2 + (son i ⟨0, Nat.lt_of_le_of_lt (Nat.zero_le _) j.2⟩).rsize)) (st.1, 0)
        cassert (decide (roff = t.cl.size))
        pure (b, st.2 + (son ⟨0, h⟩ j).csize)
      else .error .ub) (b, 0)
    cassert (decide (coff = s.cl.size))
    pure b

/-- harith.c:998-1042 `add_amatrix_hmatrix(alpha, atrans, a, tm, eps, b)`: the subblock of `a` is taken at `(roff, coff)`
for `atrans = true`, too. -/
def addAmH (T : TruncOps K) (alpha : K) (atrans : Bool) : VMat K → HV G K → R (HV G K)
  | a, rk t s r => do
    let r ← T.addAm alpha atrans a r
    pure (rk t s r)
  | a, full t s f => do
    let f ← VMat.add alpha atrans a f
    pure (full t s f)
  | a, super t s rsons csons son => do
    let (son', coff) ← foldFinM csons (fun j (st : (Fin rsons → Fin csons → HV G K) × Nat) =>
      if h : 0 < rsons then do
        let (son', roff) ← foldFinM rsons (fun i (st' : (Fin rsons → Fin csons → HV G K) × Nat) => do
          let a1 ← a.sub (son i j).rsize st'.2 (son i j).csize st.2
          let b1 ← addAmH T alpha atrans a1 (son i j)
          pure (setSon st'.1 i j b1, st'.2 + (son i j).rsize)) (st.1, 0)
        cassert (decide (roff = t.cl.size))
        pure (son', st.2 + (son ⟨0, h⟩ j).csize)
      else .error .ub) (son, 0)
    cassert (decide (coff = s.cl.size))
    pure (super t s rsons csons son')

/-- harith.c:1122-1166 `add_rkmatrix_hmatrix(alpha, r, tm, eps, a)`. -/
def addRkH (T : TruncOps K) (alpha : K) : VRk K → HV G K → R (HV G K)
  | r, rk t s ar => do
    let ar ← T.addRk alpha r ar
    pure (rk t s ar)
  | r, full t s f => do
    let f ← VMat.addmul alpha false r.A true r.B f
    pure (full t s f)
  | r, super t s rsons csons son => do
    let (son', coff) ← foldFinM csons (fun j (st : (Fin rsons → Fin csons → HV G K) × Nat) =>
      if h : 0 < rsons then do
        let (son', roff) ← foldFinM rsons (fun i (st' : (Fin rsons → Fin csons → HV G K) × Nat) => do
          let r1 ← r.sub (son i j).rsize st'.2 (son i j).csize st.2
          let b1 ← addRkH T alpha r1 (son i j)
          pure (setSon st'.1 i j b1, st'.2 + (son i j).rsize)) (st.1, 0)
        cassert (decide (roff = t.cl.size))
        pure (son', st.2 + (son ⟨0, h⟩ j).csize)
      else .error .ub) (son, 0)
    cassert (decide (coff = s.cl.size))
    pure (super t s rsons csons son')

/-- The row clusters of the blocks created by the `split_*` functions: `rc->son[i]` if `rsplit && rc->sons > 0`, and
`rc` itself otherwise. -/
def nparts (split : Bool) (t : CRef G) : Nat := if split ∧ 0 < t.nsons then t.nsons else 1
def part (split : Bool) (t : CRef G) (i : Nat) : CRef G :=
  if split then (if h : i < t.nsons then t.son ⟨i, h⟩ else t) else t

/-- sum of the sizes of the first `i` parts -/
def poff (split : Bool) (t : CRef G) (i : Nat) : Nat := ∑ l ∈ Finset.range i, (part split t l).cl.size

/-- harith.c:1310-1402 `split_sub_amatrix(f, rc, cc, rsplit, csplit)`: all four cases, `poff` being the variables `roff`
and `coff`; the blocks hold copies of the windows. -/
def splitAm (f : VMat K) (t s : CRef G) (rsplit csplit : Bool) : R (HV G K) := do
  let son ← seqFin (nparts csplit s) (fun j => do
    let c ← seqFin (nparts rsplit t) (fun i => do
      let w ← f.sub (part rsplit t i).cl.size (poff rsplit t i) (part csplit s j).cl.size (poff csplit s j)
      pure (full (part rsplit t i) (part csplit s j) w : HV G K))
    cassert (decide (poff rsplit t (nparts rsplit t) = t.cl.size))
    pure c)
  cassert (decide (poff csplit s (nparts csplit s) = s.cl.size))
  pure (super t s (nparts rsplit t) (nparts csplit s) (fun i j => son j i))

/-- harith.c:1404-1524 `split_rkmatrix(r, rc, cc, rsplit, csplit, copy)`. -/
def splitRk (r : VRk K) (t s : CRef G) (rsplit csplit copy : Bool) : R (HV G K) := do
  let son ← seqFin (nparts csplit s) (fun j => do
    let c ← seqFin (nparts rsplit t) (fun i => do
      if copy then
        let w ← r.sub (part rsplit t i).cl.size (poff rsplit t i) (part csplit s j).cl.size (poff csplit s j)
        let w ← w.copyNew
        pure (rk (part rsplit t i) (part csplit s j) w : HV G K)
      else pure (rk (part rsplit t i) (part csplit s j)
        (VRk.new0 (part rsplit t i).cl.size (part csplit s j).cl.size) : HV G K))
    cassert (decide (poff rsplit t (nparts rsplit t) = t.cl.size))
    pure c)
  cassert (decide (poff csplit s (nparts csplit s) = s.cl.size))
  pure (super t s (nparts rsplit t) (nparts csplit s) (fun i j => son j i))

/-- `assert(s->son[i + j * rsons]->r != 0)` and the low-rank matrix. -/
def getRk : HV G K → R (VRk K)
  | rk _ _ r => .ok r
  | _ => .error .assertFail

/-- A son of the block, NULL pointers and indices out of bounds being undefined behaviour. -/
def sonRk {m n : Nat} (son : Fin m → Fin n → HV G K) (i j : Nat) : R (VRk K) :=
  if h : i < m ∧ j < n then getRk (son ⟨i, h.1⟩ ⟨j, h.2⟩) else .error .ub

/-- harith.c:1899-1963 `merge_hmatrix_rkmatrix(s, tm, eps)`. -/
def mergeH (T : TruncOps K) : HV G K → R (VRk K)
  | super t _ rsons csons son =>
    if 1 < rsons then
      if 1 < csons then
        forUp 0 csons (fun j r => do
          let s1 ← sonRk son 0 j
          let r1 ← s1.copyNew
          let r1 ← forUp 1 rsons (fun i r1 => do
            let s1 ← sonRk son i j
            T.merge true s1 r1) r1
          T.merge false r1 r) (VRk.new0 t.cl.size 0)
      else do
        let s1 ← sonRk son 0 0
        let r ← s1.copyNew
        forUp 1 rsons (fun i r => do
          let s1 ← sonRk son i 0
          T.merge true s1 r) r
    else do
      let s1 ← sonRk son 0 0
      let r ← s1.copyNew
      forUp 1 csons (fun j r => do
        let s1 ← sonRk son 0 j
        T.merge false s1 r) r
  | _ => .error .ub

/-- The sons of a block, as left behind by `split_sub_amatrix`, put back into the dense matrix they are windows of. -/
def unsplitAm {m n : Nat} (rsplit csplit : Bool) (t s : CRef G) (son : Fin m → Fin n → HV G K) (f : VMat K) : VMat K :=
  foldFin n (fun j f => foldFin m (fun i f => match son i j with
    | full _ _ w => f.glue (poff rsplit t i) (poff csplit s j) w
    | _ => f) f) f

/-- harith.c:1235-1304 `add_hmatrix(alpha, a, tm, eps, b)`.  For a leaf `b` we have `b->rsons == b->csons == 0`. -/
def addH (T : TruncOps K) (alpha : K) : HV G K → HV G K → R (HV G K)
  | rk t s r, b => do
    cassert (t.same b.rc)
    cassert (s.same b.cc)
    addRkH T alpha r b
  | full t s f, b => do
    cassert (t.same b.rc)
    cassert (s.same b.cc)
    addAmH T alpha false f b
  | super t s rsons csons son, b => do
    cassert (t.same b.rc)
    cassert (s.same b.cc)
    -- for (j…) for (i…) add_hmatrix(alpha, a->son[i + j * rsons], tm, eps, bs->son[i + j * rsons])
    let sons : {m n : Nat} → (Fin m → Fin n → HV G K) → R (Fin m → Fin n → HV G K) := fun {_ _} bson =>
      foldFinM csons (fun j bson => foldFinM rsons (fun i bson =>
        atFlat bson (i + j * rsons) (fun b1 => addH T alpha (son i j) b1)) bson) bson
    match b with
    | super bt bs bm bn bson => do
      cassert (decide (rsons = bm))
      cassert (decide (csons = bn))
      let bson ← sons bson
      pure (super bt bs bm bn bson)
    | rk bt bs r => do
      let s' ← splitRk r bt bs (decide (rsons ≠ 0)) (decide (csons ≠ 0)) false
      match s' with
      | super st ss sm sn sson => do
        let sson ← sons sson
        let rk' ← mergeH T (super st ss sm sn sson)
        let r ← T.addRk 1 rk' r
        pure (rk bt bs r)
      | _ => .error .ub
    | full bt bs f => do
      let s' ← splitAm f bt bs (decide (rsons ≠ 0)) (decide (csons ≠ 0))
      match s' with
      | super _ _ _ _ sson => do
        let sson ← sons sson
        pure (full bt bs (unsplitAm (decide (rsons ≠ 0)) (decide (csons ≠ 0)) bt bs sson f))
      | _ => .error .ub

/-- harith.c:1969-2053 `addmul_rkmatrix_amatrix_amatrix(alpha, xtrans, x, ytrans, y, ztrans, z)`. -/
def addmulRkAm (alpha : K) (xtrans : Bool) (x : VRk K) (ytrans : Bool) (y : VMat K) (ztrans : Bool) (z : VMat K) :
    R (VMat K) := do
  cassert (decide (x.B.cols = x.A.cols))
  if xtrans then do
    cassert (decide (z.orows ztrans = x.B.rows))
    cassert (decide (z.ocols ztrans = y.ocols ytrans))
    cassert (decide (y.orows ytrans = x.A.rows))
    let ay ← VMat.addmul 1 true x.A ytrans y (.zero x.A.cols (y.ocols ytrans))
    if ztrans then VMat.addmul (star alpha) true ay true x.B z
    else VMat.addmul alpha false x.B false ay z
  else do
    cassert (decide (z.orows ztrans = x.A.rows))
    cassert (decide (z.ocols ztrans = y.ocols ytrans))
    cassert (decide (y.orows ytrans = x.B.rows))
    let bY ← VMat.addmul 1 true x.B ytrans y (.zero x.A.cols (y.ocols ytrans))
    if ztrans then VMat.addmul (star alpha) true bY true x.A z
    else VMat.addmul alpha false x.A false bY z

/-- A window of the rows of `op(b)`: harith.c:2092-2097 `btrans ? init_sub_amatrix(bp, bp->rows, 0, size, off)
: init_sub_amatrix(bp, size, off, bp->cols, 0)`. -/
def osub (trans : Bool) (b : VMat K) (size off : Nat) : R (VMat K) :=
  if trans then b.sub b.rows 0 size off else b.sub size off b.cols 0
/-- Put the window of `osub` back. -/
def oglue (trans : Bool) (b : VMat K) (off : Nat) (w : VMat K) : VMat K :=
  if trans then b.glue 0 off w else b.glue off 0 w

/-- harith.c:2060-2122 `addmul_n_hmatrix_amatrix_amatrix(alpha, a, btrans, bp, ctrans, cp)`. -/
def addmulN (alpha : K) (btrans ctrans : Bool) : HV G K → VMat K → VMat K → R (VMat K)
  | rk t s r, b, c => do
    cassert (decide (b.orows btrans = s.cl.size))
    cassert (decide (b.ocols btrans = c.ocols ctrans))
    cassert (decide (c.orows ctrans = t.cl.size))
    addmulRkAm alpha false r btrans b ctrans c
  | full t s f, b, c => do
    cassert (decide (b.orows btrans = s.cl.size))
    cassert (decide (b.ocols btrans = c.ocols ctrans))
    cassert (decide (c.orows ctrans = t.cl.size))
    if ctrans then VMat.addmul (star alpha) (!btrans) b true f c
    else VMat.addmul alpha false f btrans b c
  | super t s rsons csons son, b, c => do
    cassert (decide (b.orows btrans = s.cl.size))
    cassert (decide (b.ocols btrans = c.ocols ctrans))
    cassert (decide (c.orows ctrans = t.cl.size))
    let (c, boff) ← foldFinM csons (fun j (st : VMat K × Nat) =>
      if h : 0 < rsons then do
        let b1 ← osub btrans b (son ⟨0, h⟩ j).csize st.2
        let (c, coff) ← foldFinM rsons (fun i (st' : VMat K × Nat) => do
          let c1 ← osub ctrans st'.1 (son i ⟨0, Nat.lt_of_le_of_lt (Nat.zero_le _) j.2⟩).rsize st'.2
          let c1 ← addmulN alpha btrans ctrans (son i j) b1 c1
          pure (oglue ctrans st'.1 st'.2 c1,
            st'.2 + (son i ⟨0, Nat.lt_of_le_of_lt (Nat.zero_le _) j.2⟩).rsize)) (st.1, 0)
        cassert (decide (coff = t.cl.size))
        pure (c, st.2 + (son ⟨0, h⟩ j).csize)
      else .error .ub) (c, 0)
    cassert (decide (boff = s.cl.size))
    pure c

/-- harith.c:2125-2184 `addmul_t_hmatrix_amatrix_amatrix(alpha, a, btrans, bp, ctrans, cp)`. -/
def addmulT (alpha : K) (btrans ctrans : Bool) : HV G K → VMat K → VMat K → R (VMat K)
  | rk t s r, b, c => do
    cassert (decide (b.orows btrans = t.cl.size))
    cassert (decide (b.ocols btrans = c.ocols ctrans))
    cassert (decide (c.orows ctrans = s.cl.size))
    addmulRkAm alpha true r btrans b ctrans c
  | full t s f, b, c => do
    cassert (decide (b.orows btrans = t.cl.size))
    cassert (decide (b.ocols btrans = c.ocols ctrans))
    cassert (decide (c.orows ctrans = s.cl.size))
    if ctrans then VMat.addmul (star alpha) (!btrans) b false f c
    else VMat.addmul alpha true f btrans b c
  | super t s rsons csons son, b, c => do
    cassert (decide (b.orows btrans = t.cl.size))
    cassert (decide (b.ocols btrans = c.ocols ctrans))
    cassert (decide (c.orows ctrans = s.cl.size))
    let (c, coff) ← foldFinM csons (fun j (st : VMat K × Nat) =>
      if h : 0 < rsons then do
        let c1 ← osub ctrans st.1 (son ⟨0, h⟩ j).csize st.2
        let (c1, boff) ← foldFinM rsons (fun i (st' : VMat K × Nat) => do
          let b1 ← osub btrans b (son i ⟨0, Nat.lt_of_le_of_lt (Nat.zero_le _) j.2⟩).rsize st'.2
          let c1 ← addmulT alpha btrans ctrans (son i j) b1 st'.1
          pure (c1, st'.2 + (son i ⟨0, Nat.lt_of_le_of_lt (Nat.zero_le _) j.2⟩).rsize)) (c1, 0)
        cassert (decide (boff = t.cl.size))
        pure (oglue ctrans st.1 st.2 c1, st.2 + (son ⟨0, h⟩ j).csize)
      else .error .ub) (c, 0)
    cassert (decide (coff = s.cl.size))
    pure c

/-- harith.c:2188-2240 `addmul_hmatrix_amatrix_amatrix(alpha, atrans, a, btrans, bp, ctrans, cp)`.  The assertions are
repeated in the two static functions. -/
def addmulHAA (alpha : K) (atrans : Bool) (a : HV G K) (btrans : Bool) (b : VMat K) (ctrans : Bool) (c : VMat K) :
    R (VMat K) :=
  if atrans then addmulT alpha btrans ctrans a b c else addmulN alpha btrans ctrans a b c

/-!
The four functions `addmul_nn_hmatrix` (harith.c:2246-2513), `addmul_nt_hmatrix` (2515-2782), `addmul_tn_hmatrix`
(2784-3051) and `addmul_tt_hmatrix` (3053-3319) have the same structure; the second is the first one with rows and
columns of `y` exchanged, the third with rows and columns of `x` exchanged, the fourth with both.  They are modelled by
one function with the flags `xt` and `yt`.
-/

/-- row cluster of `op(x)` -/
def orc (trans : Bool) (x : HV G K) : CRef G := if trans then x.cc else x.rc
/-- column cluster of `op(x)` -/
def occ (trans : Bool) (x : HV G K) : CRef G := if trans then x.rc else x.cc

/-- harith.c:2270-2305 (nt: 2539-2574, tn: 2808-2843, tt: 3077-3111), the case `x->f`. -/
def addmulXf (T : TruncOps K) (alpha : K) (xt : Bool) (xf : VMat K) (yt : Bool) (y z : HV G K) : R (HV G K) :=
  match z with
  | full t s zf => do
    let zf ← addmulHAA (star alpha) (!yt) y (!xt) xf true zf
    pure (full t s zf)
  | _ =>
    if xf.ocols xt < xf.orows xt then do
      let A ← xf.copy xt z.rsize (xf.ocols xt)
      let B ← addmulHAA (star alpha) (!yt) y true (.ident (xf.ocols xt) (xf.ocols xt)) false
        (.zero z.csize (xf.ocols xt))
      addRkH T 1 ⟨A, B, xf.ocols xt⟩ z
    else do
      let B ← addmulHAA (star alpha) (!yt) y (!xt) xf false (.zero z.csize (xf.orows xt))
      addRkH T 1 ⟨.ident z.rsize (xf.orows xt), B, xf.orows xt⟩ z

/-- harith.c:2306-2319 (nt: 2575-2588, tn: 2844-2857, tt: 3112-3125), the case `x->r`. -/
def addmulXr (T : TruncOps K) (alpha : K) (xt : Bool) (xr : VRk K) (yt : Bool) (y z : HV G K) : R (HV G K) := do
  let A ← (if xt then xr.B else xr.A).copy false z.rsize xr.k
  let B ← addmulHAA (star alpha) (!yt) y false (if xt then xr.A else xr.B) false (.zero z.csize xr.k)
  addRkH T 1 ⟨A, B, xr.k⟩ z

/-- harith.c:2323-2361 (nt: 2592-2630, tn: 2861-2899, tt: 3129-3167), the case `x->son`, `y->f`. -/
def addmulYf (T : TruncOps K) (alpha : K) (xt : Bool) (x : HV G K) (yt : Bool) (yf : VMat K) (z : HV G K) :
    R (HV G K) :=
  match z with
  | full t s zf => do
    let zf ← addmulHAA alpha xt x yt yf false zf
    pure (full t s zf)
  | _ =>
    if yf.orows yt < yf.ocols yt then do
      let B ← yf.copy (!yt) z.csize (yf.orows yt)
      let A ← addmulHAA alpha xt x false (.ident (yf.orows yt) (yf.orows yt)) false (.zero z.rsize (yf.orows yt))
      addRkH T 1 ⟨A, B, yf.orows yt⟩ z
    else do
      let A ← addmulHAA alpha xt x yt yf false (.zero z.rsize (yf.ocols yt))
      addRkH T 1 ⟨A, .ident z.csize (yf.ocols yt), yf.ocols yt⟩ z

/-- harith.c:2362-2375 (nt: 2631-2644, tn: 2900-2913, tt: 3168-3181), the case `x->son`, `y->r`. -/
def addmulYr (T : TruncOps K) (alpha : K) (xt : Bool) (x : HV G K) (yt : Bool) (yr : VRk K) (z : HV G K) :
    R (HV G K) := do
  let B ← (if yt then yr.A else yr.B).copy false z.csize yr.k
  let A ← addmulHAA alpha xt x false (if yt then yr.B else yr.A) false (.zero z.rsize yr.k)
  addRkH T 1 ⟨A, B, yr.k⟩ z

/-- the dense matrix of a leaf that has been created with one -/
def getF : HV G K → R (VMat K)
  | full _ _ f => .ok f
  | _ => .error .ub

/-- `t->son[i]`, undefined if there is no such son -/
def csonAt (t : CRef G) (i : Nat) : R (CRef G) := if h : i < t.nsons then .ok (t.son ⟨i, h⟩) else .error .ub

/-- harith.c:2384-2511 (nt: 2653-2780, tn: 2922-3049, tt: 3190-3317): `x` and `y` are subdivided.  `call i j k` is the
recursive call for the blocks `op(x)_{ij}` and `op(y)_{jk}`; `rdiv` is `x->son[0]->rc != x->rc`, `cdiv` is
`y->son[0]->cc != y->cc` (with the accessors exchanged for the transposed variants). -/
def addmulSuper (T : TruncOps K) (call : Nat → Nat → Nat → HV G K → R (HV G K)) (rsons msons csons : Nat)
    (rdiv cdiv : Bool) (z : HV G K) : R (HV G K) :=
  match z with
  | full t s zf =>
    if !cdiv then
      if !rdiv then do
        cassert (decide (csons = 1))
        cassert (decide (rsons = 1))
        forUp 0 msons (fun j z => call 0 j 0 z) z
      else do
        cassert (decide (csons = 1))
        let (zf, roff) ← forUp 0 rsons (fun i (st : VMat K × Nat) => do
          let ti ← csonAt t i
          let zf1 ← st.1.sub ti.cl.size st.2 s.cl.size 0
          let z1 ← forUp 0 msons (fun j z1 => call i j 0 z1) (full ti s zf1)
          let zf1 ← getF z1
          pure (st.1.glue st.2 0 zf1, st.2 + ti.cl.size)) (zf, 0)
        cassert (decide (roff = t.cl.size))
        pure (full t s zf)
    else
      if !rdiv then do
        cassert (decide (rsons = 1))
        let (zf, coff) ← forUp 0 csons (fun k (st : VMat K × Nat) => do
          let sk ← csonAt s k
          let zf1 ← st.1.sub t.cl.size 0 sk.cl.size st.2
          let z1 ← forUp 0 msons (fun j z1 => call 0 j k z1) (full t sk zf1)
          let zf1 ← getF z1
          pure (st.1.glue 0 st.2 zf1, st.2 + sk.cl.size)) (zf, 0)
        cassert (decide (coff = s.cl.size))
        pure (full t s zf)
      else do
        let (zf, coff) ← forUp 0 csons (fun k (st : VMat K × Nat) => do
          let (zf, roff) ← forUp 0 rsons (fun i (st' : VMat K × Nat) => do
            let ti ← csonAt t i
            let sk ← csonAt s k
            let zf1 ← st'.1.sub ti.cl.size st'.2 sk.cl.size st.2
            let z1 ← forUp 0 msons (fun j z1 => call i j k z1) (full ti sk zf1)
            let zf1 ← getF z1
            pure (st'.1.glue st'.2 st.2 zf1, st'.2 + ti.cl.size)) (st.1, 0)
          cassert (decide (roff = t.cl.size))
          let sk ← csonAt s k
          pure (zf, st.2 + sk.cl.size)) (zf, 0)
        cassert (decide (coff = s.cl.size))
        pure (full t s zf)
  | rk t s r => do
    let ztmp ← splitRk r t s rdiv cdiv false
    match ztmp with
    | super zt zs zm zn zson => do
      let zson ← forUp 0 csons (fun k zson => forUp 0 rsons (fun i zson => forUp 0 msons (fun j zson =>
        atFlat zson (i + k * rsons) (call i j k)) zson) zson) zson
      let xy ← mergeH T (super zt zs zm zn zson)
      let r ← T.addRk 1 xy r
      pure (rk t s r)
    | _ => .error .ub
  | super t s zm zn zson => do
    let zson ← forUp 0 csons (fun k zson => forUp 0 rsons (fun i zson => forUp 0 msons (fun j zson =>
      atFlat zson (i + k * rsons) (call i j k)) zson) zson) zson
    pure (super t s zm zn zson)

/-- harith.c:2246-2513, 2515-2782, 2784-3051, 3053-3319 `addmul_{nn,nt,tn,tt}_hmatrix(alpha, x, y, tm, eps, z)` and
harith.c:3321-3337 `addmul_hmatrix(alpha, xt, x, yt, y, tm, eps, z)`. -/
def addmul (T : TruncOps K) (alpha : K) (xt yt : Bool) : HV G K → HV G K → HV G K → R (HV G K)
  | full xr xc xf, y, z => do
    cassert (z.rc.same (if xt then xc else xr))
    cassert (z.cc.same (y.occ yt))
    cassert ((if xt then xr else xc).same (y.orc yt))
    addmulXf T alpha xt xf yt y z
  | rk xr xc r, y, z => do
    cassert (z.rc.same (if xt then xc else xr))
    cassert (z.cc.same (y.occ yt))
    cassert ((if xt then xr else xc).same (y.orc yt))
    addmulXr T alpha xt r yt y z
  | super xr xc xm xn xs, y, z => do
    cassert (z.rc.same (if xt then xc else xr))
    cassert (z.cc.same (y.occ yt))
    cassert ((if xt then xr else xc).same (y.orc yt))
    match y with
    | full _ _ yf => addmulYf T alpha xt (super xr xc xm xn xs) yt yf z
    | rk _ _ yr => addmulYr T alpha xt (super xr xc xm xn xs) yt yr z
    | super yr yc ym yn ys => do
      cassert (decide ((if xt then xm else xn) = (if yt then yn else ym)))
      if h0 : (0 < xm ∧ 0 < xn) ∧ 0 < ym ∧ 0 < yn then
        addmulSuper T (fun i j k z1 =>
            if hx : (if xt then j else i) < xm ∧ (if xt then i else j) < xn then
              if hy : (if yt then k else j) < ym ∧ (if yt then j else k) < yn then
                addmul T alpha xt yt (xs ⟨_, hx.1⟩ ⟨_, hx.2⟩) (ys ⟨_, hy.1⟩ ⟨_, hy.2⟩) z1
              else .error .ub
            else .error .ub)
          (if xt then xn else xm) (if xt then xm else xn) (if yt then ym else yn)
          (!((xs ⟨0, h0.1.1⟩ ⟨0, h0.1.2⟩).orc xt).same (if xt then xc else xr))
          (!((ys ⟨0, h0.2.1⟩ ⟨0, h0.2.2⟩).occ yt).same (if yt then yr else yc)) z
      else .error .ub

end HV
end H2
