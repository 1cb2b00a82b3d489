import Verif.Model.HMatrix

/-!
# Cluster bases (`Library/clusterbasis.c`): layout and transformations of vectors

The matrices `V` and `E` are windows into the flat memory.  The state of a computation is the memory together with the
counter `active_avector` of avector.c, so that vectors that are never released become visible.
-/

namespace H2

/-- clusterbasis.h `struct _clusterbasis` without the reference counter and the lists of uniform matrices (see
`Model/RefCount.lean`) and without the weight `Z`. -/
inductive CBas (G : Type _) where
  | mk (t : CRef G) (k ktree kbranch : Nat) (V E : Mat) (sons : Nat) (son : Fin sons → CBas G)

/-- memory and `active_avector` -/
structure VSt (K : Type _) where
  mem : Mem K
  act : Nat

namespace VSt
variable {K : Type _}

/-- avector.c:37-54 `init_sub_avector(v, src, dim, off)` including the counter. -/
def openSub (src : Vec) (dim off : Nat) (s : VSt K) : R (Vec × VSt K) := do
  let v ← Dense.initSubVec src dim off
  pure (v, { s with act := s.act + 1 })

/-- avector.c:21-35 `init_avector(v, dim)` including the counter; the allocator returns the address `p`. -/
def openNew (p dim : Nat) (junk : Nat → K) (s : VSt K) : Vec × VSt K :=
  (⟨p, dim⟩, { mem := s.mem.alloc p dim junk, act := s.act + 1 })

/-- avector.c:108-120 `uninit_avector(v)` for a vector that does not own its entries. -/
def uninit (s : VSt K) : R (VSt K) := do
  cassert (decide (0 < s.act))
  pure { s with act := s.act - 1 }

/-- avector.c:108-120 `uninit_avector(v)` for a vector that owns its entries. -/
def uninitOwner (v : Vec) (s : VSt K) : R (VSt K) := do
  cassert (decide (0 < s.act))
  pure { mem := s.mem.free v.base v.dim, act := s.act - 1 }

/-- an operation that creates and releases no vectors -/
def run (f : Mem K → R (Mem K)) (s : VSt K) : R (VSt K) := do
  let m ← f s.mem
  pure { s with mem := m }
end VSt

namespace CBas
open VSt
variable {G : Type _} {K : Type _} [Field K] [StarRing K]

def t : CBas G → CRef G | mk t _ _ _ _ _ _ _ => t
def k : CBas G → Nat | mk _ k _ _ _ _ _ _ => k
def ktree : CBas G → Nat | mk _ _ kt _ _ _ _ _ => kt
def kbranch : CBas G → Nat | mk _ _ _ kb _ _ _ _ => kb
def V : CBas G → Mat | mk _ _ _ _ V _ _ _ => V
def E : CBas G → Mat | mk _ _ _ _ _ E _ _ => E
def sons : CBas G → Nat | mk _ _ _ _ _ _ n _ => n
def son : (cb : CBas G) → Fin cb.sons → CBas G | mk _ _ _ _ _ _ _ s => s
/-- `cb->t->size` -/
def size (cb : CBas G) : Nat := cb.t.cl.size

/-- clusterbasis.c:186-208 `update_clusterbasis(cb)`. -/
def update : CBas G → CBas G
  | mk t k _ _ V E n son =>
    if n = 0 then mk t k (t.cl.size + k) (t.cl.size + k) V E n son
    else mk t k (foldFin n (fun i a => a + (son i).ktree) 0 + k)
      (foldFin n (fun i a => if a < (son i).kbranch then (son i).kbranch else a) 0 + k) V E n son

/-- clusterbasis.c:210-219 `update_tree_clusterbasis(cb)`. -/
def updateTree : CBas G → CBas G
  | mk t k kt kb V E n son => update (mk t k kt kb V E n (fun i => updateTree (son i)))

/-- clusterbasis.c:557-558: `for (i = 0; i < cb->t->size; i++) xp->v[i] = x->v[cb->t->idx[i]];` -/
def pick (idx : Arr Nat) (t : CRef G) (x xp : Vec) (m : Mem K) : R (Mem K) :=
  forUp 0 t.cl.size (fun i m => do
    let ip ← idx.get (t.cl.off + i)
    let z ← m.read (x.addr ip)
    m.write (xp.addr i) z) m

/-- clusterbasis.c:788-789: `for (i = 0; i < cb->t->size; i++) y->v[cb->t->idx[i]] += yp->v[i];` -/
def putback (idx : Arr Nat) (t : CRef G) (y yp : Vec) (m : Mem K) : R (Mem K) :=
  forUp 0 t.cl.size (fun i m => do
    let ip ← idx.get (t.cl.off + i)
    let z ← m.read (yp.addr i)
    Dense.incr m (y.addr ip) z) m

/-- clusterbasis.c:523-573 `forward_clusterbasis_avector(cb, x, xt)` (without OpenMP). -/
def forward (idx : Arr Nat) : CBas G → (x xt : Vec) → VSt K → R (VSt K)
  | mk t k ktree _ V _ n son, x, xt, s => do
    cassert (decide (xt.dim = ktree))
    let (xc, s) ← openSub xt k 0 s
    let s ← run (Dense.clearVec xc) s
    let s ← (if 0 < n then do
        let (s, xtoff) ← foldFinM n (fun i (st : VSt K × Nat) => do
          let (xt1, s) ← openSub xt (son i).ktree st.2 st.1
          let s ← forward idx (son i) x xt1 s
          let s ← run (Dense.mvm 1 true (son i).E xt1 xc) s
          let s ← uninit s
          pure (s, st.2 + (son i).ktree)) (s, k)
        cassert (decide (xtoff = ktree))
        pure s
      else do
        let (xp, s) ← openSub xt t.cl.size k s
        let s ← run (pick idx t x xp) s
        let s ← run (Dense.mvm 1 true V xp xc) s
        uninit s)
    uninit s

/-- clusterbasis.c:748-797 `backward_clusterbasis_avector(cb, yt, y)` (without OpenMP). -/
def backward (idx : Arr Nat) : CBas G → (yt y : Vec) → VSt K → R (VSt K)
  | mk t k ktree _ V _ n son, yt, y, s => do
    cassert (decide (yt.dim = ktree))
    let (yc, s) ← openSub yt k 0 s
    let s ← (if 0 < n then do
        let (s, ytoff) ← foldFinM n (fun i (st : VSt K × Nat) => do
          let (yt1, s) ← openSub yt (son i).ktree st.2 st.1
          let s ← run (Dense.mvm 1 false (son i).E yc yt1) s
          let s ← backward idx (son i) yt1 y s
          let s ← uninit s
          pure (s, st.2 + (son i).ktree)) (s, k)
        cassert (decide (ytoff = ktree))
        pure s
      else do
        let (yp, s) ← openSub yt t.cl.size k s
        let s ← run (Dense.mvm 1 false V yc yp) s
        let s ← run (putback idx t y yp) s
        uninit s)
    uninit s

/-- clusterbasis.c:632-680 `forward_nopermutation_clusterbasis_avector(cb, xp, xt)`. -/
def forwardNoperm : CBas G → (xp xt : Vec) → VSt K → R (VSt K)
  | mk t k ktree _ V _ n son, xp, xt, s => do
    cassert (decide (xp.dim = t.cl.size))
    cassert (decide (xt.dim = ktree))
    let (xc, s) ← openSub xt k 0 s
    let s ← run (Dense.clearVec xc) s
    let s ← (if 0 < n then do
        let (s, xpoff, xtoff) ← foldFinM n (fun i (st : VSt K × Nat × Nat) =>
          if h : i.1 < t.nsons then do
            let (xp1, s) ← openSub xp (t.son ⟨i.1, h⟩).cl.size st.2.1 st.1
            let (xt1, s) ← openSub xt (son i).ktree st.2.2 s
            let s ← forwardNoperm (son i) xp1 xt1 s
            let s ← uninit s
            let s ← uninit s
            let (xt1, s) ← openSub xt (son i).k st.2.2 s
            let s ← run (Dense.addevaltrans 1 (son i).E xt1 xc) s
            let s ← uninit s
            pure (s, st.2.1 + (t.son ⟨i.1, h⟩).cl.size, st.2.2 + (son i).ktree)
          else .error .ub) (s, 0, k)
        cassert (decide (xpoff = t.cl.size))
        cassert (decide (xtoff = ktree))
        pure s
      else do
        let (xt1, s) ← openSub xt t.cl.size k s
        let s ← run (Dense.copyVec xp xt1) s
        let s ← run (Dense.addevaltrans 1 V xt1 xc) s
        uninit s)
    uninit s

/-- clusterbasis.c:854-900 `backward_nopermutation_clusterbasis_avector(cb, yt, yp)`. -/
def backwardNoperm : CBas G → (yt yp : Vec) → VSt K → R (VSt K)
  | mk t k ktree _ V _ n son, yt, yp, s => do
    cassert (decide (yp.dim = t.cl.size))
    cassert (decide (yt.dim = ktree))
    let (yc, s) ← openSub yt k 0 s
    let s ← (if 0 < n then do
        let (s, ypoff, ytoff) ← foldFinM n (fun i (st : VSt K × Nat × Nat) =>
          if h : i.1 < t.nsons then do
            let (yt1, s) ← openSub yt (son i).k st.2.2 st.1
            let s ← run (Dense.addeval 1 (son i).E yc yt1) s
            let s ← uninit s
            let (yp1, s) ← openSub yp (t.son ⟨i.1, h⟩).cl.size st.2.1 s
            let (yt1, s) ← openSub yt (son i).ktree st.2.2 s
            let s ← backwardNoperm (son i) yt1 yp1 s
            let s ← uninit s
            let s ← uninit s
            pure (s, st.2.1 + (t.son ⟨i.1, h⟩).cl.size, st.2.2 + (son i).ktree)
          else .error .ub) (s, 0, k)
        cassert (decide (ypoff = t.cl.size))
        cassert (decide (ytoff = ktree))
        pure s
      else do
        let (yt1, s) ← openSub yt t.cl.size k s
        let s ← run (Dense.addeval 1 V yc yt1) s
        let s ← run (Dense.addVec 1 yt1 yp) s
        uninit s)
    uninit s

/-- clusterbasis.c:719-723, the leaf loop of `forward_notransfer`:
`assert(idx[i] < x->dim); xp->v[i] = x->v[idx[i]]; xt1->v[i] = xp->v[i];` -/
def pick2 (idx : Arr Nat) (t : CRef G) (x xp xt1 : Vec) (m : Mem K) : R (Mem K) :=
  forUp 0 t.cl.size (fun i m => do
    let ip ← idx.get (t.cl.off + i)
    cassert (decide (ip < x.dim))
    let z ← m.read (x.addr ip)
    let m ← m.write (xp.addr i) z
    let z ← m.read (xp.addr i)
    m.write (xt1.addr i) z) m

/-- clusterbasis.c:682-732 `forward_notransfer(cb, x, xt, xp)`.  The vector `xt1` of the leaf branch is not released. -/
def forwardNotransferRec (idx : Arr Nat) : CBas G → (x xt xp : Vec) → VSt K → R (VSt K)
  | mk t k ktree _ V _ n son, x, xt, xp, s => do
    cassert (decide (xp.dim = t.cl.size))
    cassert (decide (xt.dim = ktree))
    let (xc, s) ← openSub xt k 0 s
    let s ← run (Dense.clearVec xc) s
    let s ← (if 0 < n then do
        let (s, xtoff, xpoff) ← foldFinM n (fun i (st : VSt K × Nat × Nat) => do
          let (xt1, s) ← openSub xt (son i).ktree st.2.1 st.1
          let (xp1, s) ← openSub xp (son i).size st.2.2 s
          let s ← forwardNotransferRec idx (son i) x xt1 xp1 s
          let s ← uninit s
          let s ← uninit s
          pure (s, st.2.1 + (son i).ktree, st.2.2 + (son i).size)) (s, k, 0)
        cassert (decide (xtoff = ktree))
        cassert (decide (xpoff = t.cl.size))
        pure s
      else do
        let (xt1, s) ← openSub xt t.cl.size k s
        run (pick2 idx t x xp xt1) s)
    let s ← run (Dense.mvm 1 true V xp xc) s
    uninit s

/-- clusterbasis.c:734-746 `forward_notransfer_clusterbasis_avector(cb, x, xt)`; `p` is the address chosen by the
allocator for the temporary vector. -/
def forwardNotransfer (idx : Arr Nat) (p : Nat) (junk : Nat → K) (cb : CBas G) (x xt : Vec) (s : VSt K) : R (VSt K) := do
  let (xp, s) := openNew p cb.size junk s
  let s ← forwardNotransferRec idx cb x xt xp s
  uninitOwner xp s

/-- clusterbasis.c:943-947, the leaf loop of `backward_notransfer`:
`assert(idx[i] < y->dim); y->v[idx[i]] += yp->v[i] + yt1->v[i];` -/
def putback2 (idx : Arr Nat) (t : CRef G) (y yp yt1 : Vec) (m : Mem K) : R (Mem K) :=
  forUp 0 t.cl.size (fun i m => do
    let ip ← idx.get (t.cl.off + i)
    cassert (decide (ip < y.dim))
    let z ← m.read (yp.addr i)
    let w ← m.read (yt1.addr i)
    Dense.incr m (y.addr ip) (z + w)) m

/-- clusterbasis.c:902-950 `backward_notransfer(cb, yt, y, yp)`.  The vector `yt1` of the leaf branch is not released. -/
def backwardNotransferRec (idx : Arr Nat) : CBas G → (yt y yp : Vec) → VSt K → R (VSt K)
  | mk t k ktree _ V _ n son, yt, y, yp, s => do
    cassert (decide (yp.dim = t.cl.size))
    cassert (decide (yt.dim = ktree))
    let (yc, s) ← openSub yt k 0 s
    let s ← run (Dense.mvm 1 false V yc yp) s
    let s ← (if 0 < n then do
        let (s, ytoff, ypoff) ← foldFinM n (fun i (st : VSt K × Nat × Nat) => do
          let (yt1, s) ← openSub yt (son i).ktree st.2.1 st.1
          let (yp1, s) ← openSub yp (son i).size st.2.2 s
          let s ← backwardNotransferRec idx (son i) yt1 y yp1 s
          let s ← uninit s
          let s ← uninit s
          pure (s, st.2.1 + (son i).ktree, st.2.2 + (son i).size)) (s, k, 0)
        cassert (decide (ytoff = ktree))
        cassert (decide (ypoff = t.cl.size))
        pure s
      else do
        let (yt1, s) ← openSub yt t.cl.size k s
        run (putback2 idx t y yp yt1) s)
    uninit s

/-- clusterbasis.c:952-965 `backward_notransfer_clusterbasis_avector(cb, yt, y)`. -/
def backwardNotransfer (idx : Arr Nat) (p : Nat) (junk : Nat → K) (cb : CBas G) (yt y : Vec) (s : VSt K) : R (VSt K) := do
  let (yp, s) := openNew p cb.size junk s
  let s ← run (Dense.clearVec yp) s
  let s ← backwardNotransferRec idx cb yt y yp s
  uninitOwner yp s

end CBas
end H2
