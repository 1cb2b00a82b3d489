import Verif.Model.Rk
import Verif.Model.Block

/-!
# H-matrices (`Library/hmatrix.c`)

Leaves are windows into the flat memory.  `G` is the type of the coordinates of the cluster trees.  The arrays `idx`
of all clusters of a tree are pointers into one index array, handed to the functions that use it (`t->idx[i]` is
`idx[t->off + i]`).
-/

namespace H2

/-- hmatrix.h `struct _hmatrix`: exactly one of `r`, `f`, `son` is not NULL; `son i j` is `son[i + j * rsons]`. -/
inductive HMat (G : Type _) where
  | rk (rc cc : CRef G) (desc : Nat) (r : Rk)
  | full (rc cc : CRef G) (desc : Nat) (f : Mat)
  | super (rc cc : CRef G) (desc rsons csons : Nat) (son : Fin rsons → Fin csons → HMat G)

namespace HMat
variable {G : Type _} {K : Type _} [Field K] [StarRing K]

def rc : HMat G → CRef G | rk t _ _ _ => t | full t _ _ _ => t | super t _ _ _ _ _ => t
def cc : HMat G → CRef G | rk _ s _ _ => s | full _ s _ _ => s | super _ s _ _ _ _ => s
def desc : HMat G → Nat | rk _ _ d _ => d | full _ _ d _ => d | super _ _ d _ _ _ => d
/-- `hm->rc->size` -/
def rsize (h : HMat G) : Nat := h.rc.cl.size
/-- `hm->cc->size` -/
def csize (h : HMat G) : Nat := h.cc.cl.size

/-- hmatrix.c:191-210 `update_hmatrix(hm)`. -/
def update : HMat G → HMat G
  | rk t s _ r => rk t s 1 r
  | full t s _ f => full t s 1 f
  | super t s _ m n son =>
    super t s (foldFin n (fun j d => foldFin m (fun i d => d + (son i j).desc) d) 1) m n son

/-- hmatrix.c:567-612 `fastaddeval_hmatrix_avector(alpha, hm, x, y)`. -/
def fastaddeval (alpha : K) : HMat G → Vec → Vec → Mem K → R (Mem K)
  | rk t s _ r, x, y, m => do
    cassert (decide (x.dim = s.cl.size))
    cassert (decide (y.dim = t.cl.size))
    Rk.addeval alpha r x y m
  | full t s _ f, x, y, m => do
    cassert (decide (x.dim = s.cl.size))
    cassert (decide (y.dim = t.cl.size))
    Dense.mvm alpha false f x y m
  | super t s _ rsons csons son, x, y, m => do
    cassert (decide (x.dim = s.cl.size))
    cassert (decide (y.dim = t.cl.size))
    let (m, xoff) ← foldFinM csons (fun j (st : Mem K × Nat) =>
      if h : 0 < rsons then do
        let x1 ← Dense.initSubVec x (son ⟨0, h⟩ j).csize st.2
        let (m, yoff) ← foldFinM rsons (fun i (st' : Mem K × Nat) => do
          let y1 ← Dense.initSubVec y (son i ⟨0, Nat.lt_of_le_of_lt (Nat.zero_le _) j.2⟩).rsize st'.2
          let m ← fastaddeval alpha (son i j) x1 y1 st'.1
          pure (m, st'.2 + (son i ⟨0, Nat.lt_of_le_of_lt (Nat.zero_le _) j.2⟩).rsize)) (st.1, 0)
        cassert (decide (yoff = t.cl.size))
        pure (m, st.2 + (son ⟨0, h⟩ j).csize)
      else .error .ub) (m, 0)
    cassert (decide (xoff = s.cl.size))
    pure m

/-- hmatrix.c:654-700 `fastaddevaltrans_hmatrix_avector(alpha, hm, x, y)`. -/
def fastaddevaltrans (alpha : K) : HMat G → Vec → Vec → Mem K → R (Mem K)
  | rk t s _ r, x, y, m => do
    cassert (decide (x.dim = t.cl.size))
    cassert (decide (y.dim = s.cl.size))
    Rk.addevaltrans alpha r x y m
  | full t s _ f, x, y, m => do
    cassert (decide (x.dim = t.cl.size))
    cassert (decide (y.dim = s.cl.size))
    Dense.mvm alpha true f x y m
  | super t s _ rsons csons son, x, y, m => do
    cassert (decide (x.dim = t.cl.size))
    cassert (decide (y.dim = s.cl.size))
    let (m, yoff) ← foldFinM csons (fun j (st : Mem K × Nat) =>
      if h : 0 < rsons then do
        let y1 ← Dense.initSubVec y (son ⟨0, h⟩ j).csize st.2
        let (m, xoff) ← foldFinM rsons (fun i (st' : Mem K × Nat) => do
          let x1 ← Dense.initSubVec x (son i ⟨0, Nat.lt_of_le_of_lt (Nat.zero_le _) j.2⟩).rsize st'.2
          let m ← fastaddevaltrans alpha (son i j) x1 y1 st'.1
          pure (m, st'.2 + (son i ⟨0, Nat.lt_of_le_of_lt (Nat.zero_le _) j.2⟩).rsize)) (st.1, 0)
        cassert (decide (xoff = t.cl.size))
        pure (m, st.2 + (son ⟨0, h⟩ j).csize)
      else .error .ub) (m, 0)
    cassert (decide (yoff = s.cl.size))
    pure m

/-- hmatrix.c:624-638: `for (i = 0; i < vp->dim; i++) { ip = t->idx[i]; assert(ip < v->dim); vp->v[i] = v->v[ip]; }` -/
def gather (idx : Arr Nat) (t : CRef G) (v vp : Vec) (m : Mem K) : R (Mem K) :=
  forUp 0 vp.dim (fun i m => do
    let ip ← idx.get (t.cl.off + i)
    cassert (decide (ip < v.dim))
    let x ← m.read (v.addr ip)
    m.write (vp.addr i) x) m

/-- hmatrix.c:643-648: `for (i = 0; i < vp->dim; i++) { ip = t->idx[i]; assert(ip < v->dim); v->v[ip] = vp->v[i]; }` -/
def scatter (idx : Arr Nat) (t : CRef G) (v vp : Vec) (m : Mem K) : R (Mem K) :=
  forUp 0 vp.dim (fun i m => do
    let ip ← idx.get (t.cl.off + i)
    cassert (decide (ip < v.dim))
    let x ← m.read (vp.addr i)
    m.write (v.addr ip) x) m

/-- avector.c:21-35 `init_avector(v, dim)`: the allocator returns the address `p`. -/
def newVec (p dim : Nat) (junk : Nat → K) (m : Mem K) : Vec × Mem K := (⟨p, dim⟩, m.alloc p dim junk)
/-- avector.c:108-120 `uninit_avector(v)` for a vector that owns its entries. -/
def delVec (v : Vec) (m : Mem K) : Mem K := m.free v.base v.dim

/-- The common part of `addeval`, `addevaltrans` and `addevalsymm_hmatrix_avector`: permute `x` and `y`, multiply,
permute `y` back.  `px`, `py` are the addresses chosen by the allocator for the permuted vectors. -/
def permuted (xi yi : Arr Nat) (xt yt : CRef G) (px py : Nat) (junk : Nat → K)
    (fast : Vec → Vec → Mem K → R (Mem K)) (x y : Vec) (m : Mem K) : R (Mem K) := do
  let (xp, m) := newVec px x.dim junk m
  let m ← gather xi xt x xp m
  let (yp, m) := newVec py y.dim junk m
  let m ← gather yi yt y yp m
  let m ← fast xp yp m
  let m ← scatter yi yt y yp m
  pure (delVec xp (delVec yp m))

/-- hmatrix.c:614-652 `addeval_hmatrix_avector(alpha, hm, x, y)`. -/
def addeval (ridx cidx : Arr Nat) (px py : Nat) (junk : Nat → K) (alpha : K) (h : HMat G) (x y : Vec) (m : Mem K) :
    R (Mem K) := do
  cassert (decide (x.dim = h.csize))
  cassert (decide (y.dim = h.rsize))
  permuted cidx ridx h.cc h.rc px py junk (fastaddeval alpha h) x y m

/-- hmatrix.c:702-741 `addevaltrans_hmatrix_avector(alpha, hm, x, y)`. -/
def addevaltrans (ridx cidx : Arr Nat) (px py : Nat) (junk : Nat → K) (alpha : K) (h : HMat G) (x y : Vec)
    (m : Mem K) : R (Mem K) := do
  cassert (decide (x.dim = h.rsize))
  cassert (decide (y.dim = h.csize))
  permuted ridx cidx h.rc h.cc px py junk (fastaddevaltrans alpha h) x y m

/-- hmatrix.c:557-565 `mvm_hmatrix_avector(alpha, atrans, a, x, y)`. -/
def mvm (ridx cidx : Arr Nat) (px py : Nat) (junk : Nat → K) (alpha : K) (atrans : Bool) (h : HMat G) (x y : Vec)
    (m : Mem K) : R (Mem K) :=
  if atrans then addevaltrans ridx cidx px py junk alpha h x y m else addeval ridx cidx px py junk alpha h x y m

/-- hmatrix.c:743-809 `addevalsymm_offdiag(alpha, hm, roff, coff, xp, yp)`. -/
def addevalsymmOffdiag (alpha : K) : HMat G → (roff coff : Nat) → (xp yp : Vec) → Mem K → R (Mem K)
  | full t s _ f, roff, coff, xp, yp, m => do
    let x1 ← Dense.initSubVec xp s.cl.size coff
    let y1 ← Dense.initSubVec yp t.cl.size roff
    let m ← Dense.addeval alpha f x1 y1 m
    let x1 ← Dense.initSubVec xp t.cl.size roff
    let y1 ← Dense.initSubVec yp s.cl.size coff
    Dense.addevaltrans alpha f x1 y1 m
  | rk t s _ r, roff, coff, xp, yp, m => do
    let x1 ← Dense.initSubVec xp s.cl.size coff
    let y1 ← Dense.initSubVec yp t.cl.size roff
    let m ← Rk.addeval alpha r x1 y1 m
    let x1 ← Dense.initSubVec xp t.cl.size roff
    let y1 ← Dense.initSubVec yp s.cl.size coff
    Rk.addevaltrans alpha r x1 y1 m
  | super t s _ rsons csons son, roff, coff, xp, yp, m => do
    let (m, coff1) ← foldFinM csons (fun j (st : Mem K × Nat) =>
      if h : 0 < rsons then do
        let (m, roff1) ← foldFinM rsons (fun i (st' : Mem K × Nat) => do
          let m ← addevalsymmOffdiag alpha (son i j) st'.2 st.2 xp yp st'.1
          pure (m, st'.2 + (son i ⟨0, Nat.lt_of_le_of_lt (Nat.zero_le _) j.2⟩).rsize)) (st.1, roff)
        cassert (decide (roff1 = roff + t.cl.size))
        pure (m, st.2 + (son ⟨0, h⟩ j).csize)
      else .error .ub) (m, coff)
    cassert (decide (coff1 = coff + s.cl.size))
    pure m

/-- hmatrix.c:834-840: the loop of `addevalsymm_diag` for a dense block. -/
def symmDense (alpha : K) (f : Mat) (n : Nat) (x1 y1 : Vec) (m : Mem K) : R (Mem K) :=
  forUp 0 n (fun j m => do
    let a ← m.read (f.addr j j)
    let xj ← m.read (x1.addr j)
    let m ← Dense.incr m (y1.addr j) (alpha * a * xj)
    forUp (j + 1) n (fun i m => do
      let a ← m.read (f.addr i j)
      let xj ← m.read (x1.addr j)
      let m ← Dense.incr m (y1.addr i) (alpha * a * xj)
      let a ← m.read (f.addr i j)
      let xi ← m.read (x1.addr i)
      Dense.incr m (y1.addr j) (alpha * star a * xi)) m) m

/-- hmatrix.c:811-871 `addevalsymm_diag(alpha, hm, off, xp, yp)`.  For a low-rank block `hm->son` is NULL.  The inner
loop `for (i = j + 1; i < sons; i++)` is written as a loop over all `i` that does nothing for `i <= j`. -/
def addevalsymmDiag (alpha : K) : HMat G → (off : Nat) → (xp yp : Vec) → Mem K → R (Mem K)
  | full t s _ f, off, xp, yp, m => do
    cassert (t.same s)
    cassert (decide (t.cl.size = f.rows))
    cassert (decide (s.cl.size = f.cols))
    let x1 ← Dense.initSubVec xp t.cl.size off
    let y1 ← Dense.initSubVec yp t.cl.size off
    symmDense alpha f t.cl.size x1 y1 m
  | rk t s _ _, _, _, _, _ => do
    cassert (t.same s)
    .error .assertFail
  | super t s _ rsons csons son, off, xp, yp, m => do
    cassert (t.same s)
    if e : rsons = csons then do
      let (m, coff) ← foldFinM csons (fun j (st : Mem K × Nat) => do
        let m ← addevalsymmDiag alpha (son (Fin.cast e.symm j) j) st.2 xp yp st.1
        if h : j.1 < t.nsons then do
          let (m, roff) ← foldFinM csons (fun i (st' : Mem K × Nat) =>
            if j.1 < i.1 then do
              let m ← addevalsymmOffdiag alpha (son (Fin.cast e.symm i) j) st'.2 st.2 xp yp st'.1
              pure (m, st'.2 + (son (Fin.cast e.symm i) ⟨0, Nat.lt_of_le_of_lt (Nat.zero_le _) j.2⟩).rsize)
            else pure st') (m, st.2 + (t.son ⟨j.1, h⟩).cl.size)
          cassert (decide (roff = off + t.cl.size))
          pure (m, st.2 + (son (Fin.cast e.symm ⟨0, Nat.lt_of_le_of_lt (Nat.zero_le _) j.2⟩) j).csize)
        else .error .ub) (m, off)
      cassert (decide (coff = off + t.cl.size))
      pure m
    else .error .assertFail

/-- hmatrix.c:873-880 `fastaddevalsymm_hmatrix_avector(alpha, hm, xp, yp)`. -/
def fastaddevalsymm (alpha : K) (h : HMat G) (xp yp : Vec) (m : Mem K) : R (Mem K) := do
  cassert (h.rc.same h.cc)
  addevalsymmDiag alpha h 0 xp yp m

/-- hmatrix.c:882-928 `addevalsymm_hmatrix_avector(alpha, hm, x, y)`. -/
def addevalsymm (idx : Arr Nat) (px py : Nat) (junk : Nat → K) (alpha : K) (h : HMat G) (x y : Vec) (m : Mem K) :
    R (Mem K) := do
  cassert (h.rc.same h.cc)
  cassert (decide (x.dim = h.csize))
  cassert (decide (y.dim = h.rsize))
  permuted idx idx h.rc h.rc px py junk (fastaddevalsymm alpha h) x y m

/-- hmatrix.c:458-474 `scale_hmatrix(alpha, hm)`. -/
def scale (alpha : K) : HMat G → Mem K → R (Mem K)
  | rk _ _ _ r, m => Rk.scale alpha r m
  | full _ _ _ f, m => Dense.scale alpha f m
  | super _ _ _ rsons csons son, m =>
    foldFinM csons (fun j m => foldFinM rsons (fun i m => scale alpha (son i j) m) m) m

/-- hmatrix.c:74-86 `new_rk_hmatrix(rc, cc, k)`; `pA`, `pB` are the addresses chosen by the allocator. -/
def newRk (rc cc : CRef G) (k pA pB : Nat) : HMat G :=
  rk rc cc 1 ⟨⟨pA, rc.cl.size, rc.cl.size, k⟩, ⟨pB, cc.cl.size, cc.cl.size, k⟩, k⟩

/-- hmatrix.c:88-100 `new_full_hmatrix(rc, cc)`. -/
def newFull (rc cc : CRef G) (p : Nat) : HMat G := full rc cc 1 ⟨p, rc.cl.size, rc.cl.size, cc.cl.size⟩

/-- hmatrix.c:480-514 `build_from_block_hmatrix(b, k)`; `adr` gives the addresses chosen by the allocator for the
factors of a leaf (for a block tree the clusters identify the block). -/
def buildFromBlock (adr : CRef G → CRef G → Nat × Nat) (k : Nat) : Block G → HMat G
  | .mk rc cc a _ rsons csons son =>
    if rsons * csons ≠ 0 then
      update (super rc cc 0 rsons csons (fun i j => buildFromBlock adr k (son i j)))
    else if a then update (newRk rc cc k (adr rc cc).1 (adr rc cc).2)
    else update (newFull rc cc (adr rc cc).1)

/-- hmatrix.c:520-551 `build_from_hmatrix_block(G)`. -/
def toBlock : HMat G → Block G
  | rk rc cc _ _ => Block.leaf rc cc true
  | full rc cc _ _ => Block.leaf rc cc false
  | super rc cc _ rsons csons son => Block.build rc cc false rsons csons (fun i j => toBlock (son i j))

end HMat
end H2
