import Verif.Model.HMatrix
import Verif.Model.Harith
import Verif.Model.Sparse

/-!
# Filling H-matrices (`Library/hmatrix.c`)

`copySparse` works on H-matrices in memory, the other functions on the level of values.
-/

namespace H2
namespace HMat
variable {G : Type} {K : Type} [Field K] [StarRing K]

/-- hmatrix.c:2509-2536: a dense leaf.  The first loop addresses the entries with leading dimension `f->rows`. -/
def fillLeaf (sp : Sparse K) (ridx cidx : Arr Nat) (t s : CRef G) (f : Mat) (m : Mem K) : R (Mem K) := do
  let m ← forUp 0 f.cols (fun j m => forUp 0 f.rows (fun i m => m.write (f.base + (i + j * f.rows)) 0) m) m
  forUp 0 t.cl.size (fun k m => do
    let i ← ridx.get (t.cl.off + k)
    let lo ← sp.row.get i
    let hi ← sp.row.get (i + 1)
    forUp lo hi (fun q m => forUp 0 s.cl.size (fun l m => do
      let c ← sp.col.get q
      let c' ← cidx.get (s.cl.off + l)
      if c = c' then do
        let x ← sp.coeff.get q
        m.write (f.addr k l) x
      else pure m) m) m) m

/-- hmatrix.c:2491-2538 `copy_sparsematrix_hmatrix(sp, hm)` -/
def copySparse (sp : Sparse K) (ridx cidx : Arr Nat) : HMat G → Mem K → R (Mem K)
  | super _ _ _ rsons csons son, m =>
    foldFinM csons (fun j m => foldFinM rsons (fun i m => copySparse sp ridx cidx (son i j) m) m) m
  | rk .., m => pure m
  | full t s _ f, m => fillLeaf sp ridx cidx t s f m

end HMat

namespace HV
variable {G : Type} {K : Type} [Field K] [StarRing K]

/-- hmatrix.c:318-341 `clear_hmatrix(hm)`, with `clear_amatrix` and rkmatrix.c:77-83 `setrank_rkmatrix(hm->r, 0)` -/
def clearAll : HV G K → HV G K
  | rk t s r => rk t s ⟨.zero r.A.rows 0, .zero r.B.rows 0, 0⟩
  | full t s f => full t s (.zero f.rows f.cols)
  | super t s m n son => super t s m n fun i j => clearAll (son i j)

/-- hmatrix.c:402-430 `identity_hmatrix(hm)`, with amatrix.c:377-394 `identity_amatrix` -/
def identityH : HV G K → HV G K
  | rk t s r => rk t s ⟨.zero r.A.rows 0, .zero r.B.rows 0, 0⟩
  | full t s f => full t s (if t.same s then ⟨f.rows, f.cols, fun i j => if i = j then 1 else 0⟩ else .zero f.rows f.cols)
  | super t s m n son => super t s m n fun i j => identityH (son i j)

/-- hmatrix.c:343-370 `clear_upper_hmatrix(hm, strict)`, with amatrix.c:353-375 `clear_upper_amatrix` for matrices with at least one row.  The loop
over the columns is split: first all calls for the diagonal blocks, then the new matrix is put together; a failing call leaves no result in
either order. -/
def clearUpperH (strict : Bool) : HV G K → R (HV G K)
  | rk t s r => pure (rk t s ⟨.zero r.A.rows 0, .zero r.B.rows 0, 0⟩)
  | full t s f => do
    cassert (t.same s)
    pure (full t s ⟨f.rows, f.cols, fun i j => if i < j ∨ (strict = false ∧ i = j) then 0 else f.e i j⟩)
  | super t s m n son => do
    let d ← seqFin (min m n) (fun j => clearUpperH strict (son ⟨j.1, Nat.lt_of_lt_of_le j.2 (Nat.min_le_left _ _)⟩ ⟨j.1, Nat.lt_of_lt_of_le j.2 (Nat.min_le_right _ _)⟩))
    pure (super t s m n fun i j => if i.1 < j.1 then clearAll (son i j) else
      if h : i.1 = j.1 then d ⟨i.1, Nat.lt_min.mpr ⟨i.2, h ▸ j.2⟩⟩ else son i j)

/-- hmatrix.c:372-400 `copy_hmatrix(src, trg)`: the new value of `trg`.  A source leaf and a target leaf of different kinds: the missing
matrix of the target is accessed. -/
def copyH : (src trg : HV G K) → R (HV G K)
  | rk t s r, trg => match trg with
    | rk t' s' _ => do
      cassert (t.same t')
      cassert (s.same s')
      cassert (decide (r.A.rows = t.cl.size) && decide (r.A.cols = r.k))
      cassert (decide (r.B.rows = s.cl.size) && decide (r.B.cols = r.k))
      pure (rk t' s' r)
    | full .. => .error .ub
    | super .. => .error .assertFail
  | full t s f, trg => match trg with
    | full t' s' f' => do
      cassert (t.same t')
      cassert (s.same s')
      cassert (decide (f.rows = f'.rows))
      cassert (decide (f.cols = f'.cols))
      pure (full t' s' f)
    | rk .. => .error .ub
    | super .. => .error .assertFail
  | super t s m n son, trg => match trg with
    | super t' s' m' n' son' =>
      if e : m = m' ∧ n = n' then do
        cassert (t.same t')
        cassert (s.same s')
        let rows ← seqFin n (fun j => seqFin m (fun i => copyH (son i j) (son' (Fin.cast e.1 i) (Fin.cast e.2 j))))
        pure (super t' s' m n fun i j => rows j i)
      else .error .assertFail
    | _ => .error .assertFail

end HV
end H2
