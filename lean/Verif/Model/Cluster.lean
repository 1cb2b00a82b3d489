import Verif.Core.Exec

/-!
# Cluster trees (`Library/cluster.h`, `Library/cluster.c`)

The struct `cluster` (cluster.h:40-73).  `idx` is a pointer into the index array shared by the whole tree; we
record its offset `off`.  The sons array is a list.  Simplification: `son == NULL` iff `sons == 0`
(true for everything `new_cluster` and the adaptation routines produce; `setsons_cluster(t, 0)` is the
only way to break it).
-/

namespace H2

/-- cluster.h:40-73, the fields of a cluster other than the sons. -/
structure CInfo (K : Type _) where
  /-- offset of `idx` in the index array -/
  off : Nat
  size : Nat
  dim : Nat
  bmin : Nat → K
  bmax : Nat → K
  desc : Nat
  type : Nat

/-- cluster.h:40-73 `struct _cluster`. -/
inductive Cluster (K : Type _) where
  | mk (info : CInfo K) (sons : List (Cluster K))

namespace Cluster
variable {K : Type _}

def info : Cluster K → CInfo K | mk i _ => i
def sons : Cluster K → List (Cluster K) | mk _ s => s
def off (t : Cluster K) : Nat := t.info.off
def size (t : Cluster K) : Nat := t.info.size
def desc (t : Cluster K) : Nat := t.info.desc

/-- Sum of the `desc` fields of a list of sons (the loop of `update_cluster`). -/
def descSum (l : List (Cluster K)) : Nat := l.foldl (fun d s => d + s.desc) 0

/-- cluster.c:22-46 `new_cluster(size, idx, sons, dim)` together with the sons stored afterwards.  The box
and `desc` are uninitialised in C; the model takes the box as an argument and puts 0 for `desc`. -/
def new (off size dim : Nat) (bmin bmax : Nat → K) (sons : List (Cluster K)) : Cluster K :=
  mk { off, size, dim, bmin, bmax, desc := 0, type := 0 } sons

/-- cluster.c:63-73 `update_cluster(t)`: `desc = 1 + Σ son->desc`. -/
def update : Cluster K → Cluster K
  | mk i s => mk { i with desc := s.foldl (fun d c => d + c.desc) 1 } s

/-! ## Statistics -/

mutual
/-- cluster.c:598-614 `getdepth_cluster(t)`. -/
def getdepth : Cluster K → Nat
  | mk _ [] => 0
  | mk _ (s :: ss) => getdepthL (s :: ss) 0 + 1
/-- the loop of `getdepth_cluster`: `l = max(getdepth(son[i]), l)`. -/
def getdepthL : List (Cluster K) → Nat → Nat
  | [], l => l
  | s :: ss, l => getdepthL ss (max (getdepth s) l)
end

mutual
/-- cluster.c:616-633 `getmindepth_cluster(t)`. -/
def getmindepth : Cluster K → Nat
  | mk _ [] => 0
  | mk _ (s :: ss) => getmindepthL ss (getmindepth s) + 1
/-- the loop of `getmindepth_cluster`, `i ≥ 1`. -/
def getmindepthL : List (Cluster K) → Nat → Nat
  | [], l => l
  | s :: ss, l => getmindepthL ss (min (getmindepth s) l)
end

/-! ## Structure adaptation -/

/-- cluster.c:647-657, the branch of `extend_cluster` for a cluster without sons: a chain of `depth` single
sons sharing size, indices and box. -/
def extendLeaf (i : CInfo K) : Nat → Cluster K
  | 0 => update (mk i [])
  | d + 1 => update (mk i [extendLeaf { i with desc := 0, type := 0 } d])

mutual
/-- cluster.c:639-659 `extend_cluster(t, depth)`. -/
def extend : Cluster K → Nat → Cluster K
  | mk i s, 0 => update (mk i s)
  | mk i [], d + 1 => extendLeaf i (d + 1)
  | mk i (s :: ss), d + 1 => update (mk i (extendL (s :: ss) d))
def extendL : List (Cluster K) → Nat → List (Cluster K)
  | [], _ => []
  | s :: ss, d => extend s d :: extendL ss d
end

mutual
/-- cluster.c:661-678 `cut_cluster(t, depth)`. -/
def cut : Cluster K → Nat → Cluster K
  | mk i _, 0 => update (mk i [])
  | mk i s, d + 1 => update (mk i (cutL s d))
def cutL : List (Cluster K) → Nat → List (Cluster K)
  | [], _ => []
  | s :: ss, d => cut s d :: cutL ss d
end

mutual
/-- cluster.c:680-696 `balance_cluster(t, depth)`. -/
def balance : Cluster K → Nat → Cluster K
  | mk i [], 0 => update (mk i [])
  | mk i (s :: ss), 0 => update (cut (mk i (s :: ss)) 0)
  | mk i [], d + 1 => update (extend (mk i []) (d + 1))
  | mk i (s :: ss), d + 1 => update (mk i (balanceL (s :: ss) d))
def balanceL : List (Cluster K) → Nat → List (Cluster K)
  | [], _ => []
  | s :: ss, d => balance s d :: balanceL ss d
end

mutual
/-- cluster.c:698-723 `coarsen_cluster(t, minsize)`: if some son is too small all sons are deleted,
otherwise recurse. -/
def coarsen (minsize : Nat) : Cluster K → Cluster K
  | mk i s =>
    if s.any (fun c => decide (c.size < minsize)) then update (mk i [])
    else update (mk i (coarsenL minsize s))
def coarsenL (minsize : Nat) : List (Cluster K) → List (Cluster K)
  | [] => []
  | s :: ss => coarsen minsize s :: coarsenL minsize ss
end

/-! ## Iterators and enumeration -/

/-- A callback invocation: `pre(t, tname)` or `post(t, tname)`. -/
inductive Event (K : Type _) where
  | pre (t : Cluster K) (tname : Nat)
  | post (t : Cluster K) (tname : Nat)

mutual
/-- cluster.c:824-846 `iterate_cluster(t, tname, pre, post, data)`, as the trace of callback invocations
(both callbacks given; a NULL callback merely leaves out its events). -/
def iterate : Cluster K → Nat → R (List (Event K))
  | mk i s, tname => do
    let (ev, tname1) ← iterateL s (tname + 1)
    cassert (decide (tname1 = tname + i.desc))
    pure (.pre (mk i s) tname :: ev ++ [.post (mk i s) tname])
/-- the loop over the sons; returns events and the final `tname1`. -/
def iterateL : List (Cluster K) → Nat → R (List (Event K) × Nat)
  | [], n => pure ([], n)
  | s :: ss, n => do
    let e ← iterate s n
    let (es, n') ← iterateL ss (n + s.desc)
    pure (e ++ es, n')
end

mutual
/-- cluster.c:894-909 `enumerate(t, tname, tn)`; `cap` is the number of entries of the array `tn`, a write
behind its end is undefined behaviour. -/
def enumerate (cap : Nat) : Cluster K → Nat → (Nat → Option (Cluster K)) →
    R (Nat → Option (Cluster K))
  | mk i s, tname, tn => do
    if cap ≤ tname then throw .ub
    let (tn', tname1) ← enumerateL cap s (tname + 1)
      (fun k => if k = tname then some (mk i s) else tn k)
    cassert (decide (tname1 = tname + i.desc))
    pure tn'
def enumerateL (cap : Nat) : List (Cluster K) → Nat → (Nat → Option (Cluster K)) →
    R ((Nat → Option (Cluster K)) × Nat)
  | [], n, tn => pure (tn, n)
  | s :: ss, n, tn => do
    let tn' ← enumerate cap s n tn
    enumerateL cap ss (n + s.desc) tn'
end

/-- cluster.c:911-921 `enumerate_cluster(t)`: an uninitialised (`none`) array of `t->desc` entries is
filled. -/
def enumerateCluster (t : Cluster K) : R (Nat → Option (Cluster K)) :=
  enumerate t.desc t 0 (fun _ => none)

end Cluster

/-- All interleavings of a list of traces: each trace keeps its own order. -/
inductive Shuffle {α : Type _} : List (List α) → List α → Prop where
  | done {ls : List (List α)} : (∀ l ∈ ls, l = []) → Shuffle ls []
  | step {pre post : List (List α)} {a : α} {l r : List α} :
      Shuffle (pre ++ l :: post) r → Shuffle (pre ++ (a :: l) :: post) (a :: r)

namespace Cluster
variable {K : Type _}

mutual
/-- cluster.c:848-888 `iterate_parallel_cluster(t, tname, pardepth, …)`: `ParTrace t tname pardepth r` says
that the callback trace `r` may be observed.  For `pardepth > 0` the sons run concurrently (every interleaving),
otherwise one after the other.  The assertion on `desc` (only checked if there are sons) is a premise. -/
inductive ParTrace : Cluster K → Nat → Nat → List (Event K) → Prop where
  | leaf {i : CInfo K} {tname pd : Nat} :
      ParTrace (mk i []) tname pd [.pre (mk i []) tname, .post (mk i []) tname]
  | par {i : CInfo K} {s : Cluster K} {ss : List (Cluster K)} {tname pd : Nat}
      {trs : List (List (Event K))} {r : List (Event K)} :
      descSum (s :: ss) + 1 = i.desc →
      ParTraces (s :: ss) (tname + 1) pd trs → Shuffle trs r →
      ParTrace (mk i (s :: ss)) tname (pd + 1)
        (.pre (mk i (s :: ss)) tname :: r ++ [.post (mk i (s :: ss)) tname])
  | seq {i : CInfo K} {s : Cluster K} {ss : List (Cluster K)} {tname : Nat}
      {trs : List (List (Event K))} :
      descSum (s :: ss) + 1 = i.desc →
      ParTraces (s :: ss) (tname + 1) 0 trs →
      ParTrace (mk i (s :: ss)) tname 0
        (.pre (mk i (s :: ss)) tname :: trs.flatten ++ [.post (mk i (s :: ss)) tname])
/-- one trace per son, son `i` being called with the number `tname1[i]`. -/
inductive ParTraces : List (Cluster K) → Nat → Nat → List (List (Event K)) → Prop where
  | nil {n pd : Nat} : ParTraces [] n pd []
  | cons {s : Cluster K} {ss : List (Cluster K)} {n pd : Nat} {tr : List (Event K)}
      {trs : List (List (Event K))} :
      ParTrace s n pd tr → ParTraces ss (n + s.desc) pd trs → ParTraces (s :: ss) n pd (tr :: trs)
end

end Cluster
end H2
