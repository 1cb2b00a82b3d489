import Verif.Model.Cluster
import Mathlib.Algebra.Order.Field.Basic

/-!
# Geometric cluster construction (`cluster.c:79-592`, `clustergeometry.c:72-138`)

`real` is a linearly ordered field `K` (exact arithmetic).  The shared index array is a function
`idx : Nat → Nat` of positions; a call works on the positions `off … off+size-1` (the C pointer `idx` of the
call is `base + off`).  Boxes are functions of the coordinate, so loops over `j < dim` that treat the coordinates
independently become pointwise definitions.
-/

namespace H2.CB
variable {K : Type _} [Field K] [LinearOrder K]

/-- clustergeometry.h `struct _clustergeometry`, the immutable part: points, supports and weights. -/
structure Geom (K : Type _) where
  dim : Nat
  x : Nat → Nat → K
  smin : Nat → Nat → K
  smax : Nat → Nat → K
  w : Nat → K

/-- What a builder modifies: the index array and the scratch box `hmin`, `hmax` of the geometry. -/
structure St (K : Type _) where
  idx : Nat → Nat
  hmin : Nat → K
  hmax : Nat → K

/-- running minimum `for (i = 1; i < size; i++) if (f(i) < b) b = f(i)`, started with `f(0)`. -/
def runMin (f : Nat → K) (size : Nat) : K := forT 1 size (fun i b => if f i < b then f i else b) (f 0)
/-- running maximum `for (i = 1; i < size; i++) if (f(i) > b) b = f(i)`, started with `f(0)`. -/
def runMax (f : Nat → K) (size : Nat) : K := forT 1 size (fun i b => if b < f i then f i else b) (f 0)

/-- clustergeometry.c:72-94 `update_point_bbox_clustergeometry(cf, size, idx)`. -/
def pointBbox (g : Geom K) (st : St K) (off size : Nat) : St K :=
  { st with
    hmin := fun j => runMin (fun i => g.x (st.idx (off + i)) j) size
    hmax := fun j => runMax (fun i => g.x (st.idx (off + i)) j) size }

/-- A leaf: `new_cluster(size, idx, 0, dim)`, clustergeometry.c:96-118 `update_support_bbox_cluster(cf, t)`,
`update_cluster(t)`. -/
def leafCluster (g : Geom K) (idx : Nat → Nat) (off size : Nat) : Cluster K :=
  (Cluster.new off size g.dim
    (fun j => runMin (fun i => g.smin (idx (off + i)) j) size)
    (fun j => runMax (fun i => g.smax (idx (off + i)) j) size) []).update

/-- clustergeometry.c:120-138 `update_bbox_cluster(t)` for the sons `ss`; asserts that there are sons. -/
def sonsBox (ss : List (Cluster K)) : R ((Nat → K) × (Nat → K)) :=
  match ss with
  | [] => .error .assertFail
  | s :: ss => .ok
    (fun j => ss.foldl (fun b c => if b < c.info.bmin j then b else c.info.bmin j) (s.info.bmin j),
     fun j => ss.foldl (fun b c => if b < c.info.bmax j then c.info.bmax j else b) (s.info.bmax j))

/-- `new_cluster(size, idx, #ss, dim)` with sons `ss`, `update_bbox_cluster(t)`, `update_cluster(t)`. -/
def fatherCluster (g : Geom K) (off size : Nat) (ss : List (Cluster K)) : R (Cluster K) := do
  let (lo, hi) ← sonsBox ss
  pure (Cluster.new off size g.dim lo hi ss).update

/-- `j = idx[i]; idx[i] = idx[k]; idx[k] = j`. -/
def swapIdx (a : Nat → Nat) (i k : Nat) : Nat → Nat :=
  fun n => if n = k then a i else if n = i then a k else a n

/-- The partition loop of all four builders (cluster.c:113-122, 200-209, 303-312, 501-521): entries satisfying
`p` are swapped to the front; returns index array, `size0`, `size1`. -/
def splitLoop (p : Nat → Bool) (off size : Nat) (idx : Nat → Nat) : (Nat → Nat) × Nat × Nat :=
  forT 0 size (fun i s =>
    if p (s.1 (off + i)) then (swapIdx s.1 (off + i) (off + s.2.1), s.2.1 + 1, s.2.2)
    else (s.1, s.2.1, s.2.2 + 1)) (idx, 0, 0)

/-- cluster.c:96-106, direction of maximal extent: returns `(direction, a)`. -/
def maxDir (dim : Nat) (hmin hmax : Nat → K) : Nat × K :=
  forT 1 dim (fun j s => if s.2 < hmax j - hmin j then (j, hmax j - hmin j) else s)
    (0, hmax 0 - hmin 0)

/-- cluster.c:79-167 `build_adaptive_cluster(cf, size, idx, clf)`.  With `dim == 0` the access to
`hmax[0]` is out of bounds. -/
def buildAdaptive (g : Geom K) (clf : Nat) : Nat → St K → Nat → Nat → R (St K × Cluster K)
  | 0, _, _, _ => .error .fuel
  | f + 1, st, off, size => do
    cassert (decide (0 < size))
    if clf < size then
      let st := pointBbox g st off size
      if g.dim = 0 then throw .ub
      let da := maxDir g.dim st.hmin st.hmax
      if 0 < da.2 then
        let m := (st.hmax da.1 + st.hmin da.1) / 2
        let sp := splitLoop (fun i => decide (g.x i da.1 < m)) off size st.idx
        let st := { st with idx := sp.1 }
        if 0 < sp.2.1 then
          if 0 < sp.2.2 then
            let (st, s0) ← buildAdaptive g clf f st off sp.2.1
            let (st, s1) ← buildAdaptive g clf f st (off + sp.2.1) sp.2.2
            let t ← fatherCluster g off size [s0, s1]
            pure (st, t)
          else
            cassert (decide (sp.2.1 = size))
            let t ← fatherCluster g off size []
            pure (st, t)
        else
          cassert (decide (0 < sp.2.2))
          cassert (decide (sp.2.2 = size))
          let t ← fatherCluster g off size []
          pure (st, t)
      else
        cassert (decide (da.2 = 0))
        pure (st, leafCluster g st.idx off size)
    else pure (st, leafCluster g st.idx off size)

/-- `cf->hmin[d] = v` -/
def setAt (h : Nat → K) (d : Nat) (v : K) : Nat → K := fun j => if j = d then v else h j

/-- cluster.c:169-281 `build_regular_cluster(cf, size, idx, clf, direction)`. -/
def buildRegular (g : Geom K) (clf : Nat) : Nat → St K → Nat → Nat → Nat → R (St K × Cluster K)
  | 0, _, _, _, _ => .error .fuel
  | f + 1, st, off, size, dir => do
    cassert (decide (0 < size))
    if clf < size then
      let st := pointBbox g st off size
      let newd := if dir + 1 < g.dim then dir + 1 else 0
      if g.dim ≤ dir then throw .ub
      if 0 < st.hmax dir - st.hmin dir then
        let m := (st.hmax dir + st.hmin dir) / 2
        let sp := splitLoop (fun i => decide (g.x i dir < m)) off size st.idx
        let st := { st with idx := sp.1 }
        if 0 < sp.2.1 then
          if 0 < sp.2.2 then
            let a := st.hmin dir
            let b := st.hmax dir
            let (st, s0) ← buildRegular g clf f { st with hmax := setAt st.hmax dir m } off sp.2.1 newd
            let st := { st with hmax := setAt st.hmax dir b }
            let (st, s1) ← buildRegular g clf f { st with hmin := setAt st.hmin dir m }
              (off + sp.2.1) sp.2.2 newd
            let st := { st with hmin := setAt st.hmin dir a }
            let t ← fatherCluster g off size [s0, s1]
            pure (st, t)
          else
            let b := st.hmax dir
            let (st, s0) ← buildRegular g clf f { st with hmax := setAt st.hmax dir m } off size newd
            let t ← fatherCluster g off size [s0]
            pure ({ st with hmax := setAt st.hmax dir b }, t)
        else
          cassert (decide (0 < sp.2.2))
          let a := st.hmin dir
          let (st, s0) ← buildRegular g clf f { st with hmin := setAt st.hmin dir m } off size newd
          let t ← fatherCluster g off size [s0]
          pure ({ st with hmin := setAt st.hmin dir a }, t)
      else
        cassert (decide (st.hmax dir - st.hmin dir = 0))
        let (st, s0) ← buildRegular g clf f st off size newd
        let t ← fatherCluster g off size [s0]
        pure (st, t)
    else pure (st, leafCluster g st.idx off size)

/-- A leaf of the auxiliary tree of `build_simsub_cluster`: segment and box. -/
structure HelpLeaf (K : Type _) where
  off : Nat
  size : Nat
  bmin : Nat → K
  bmax : Nat → K

/-- cluster.c:284-373 `build_help_cluster(cf, idx, size, clf, direction, leaves)` with
`direction = dim - k`.  Only the leaves of the auxiliary tree, from left to right, are kept: its inner clusters are
merely traversed and freed by `leaves_into_sons`. -/
def buildHelp (g : Geom K) : Nat → St K → Nat → Nat → R (St K × List (HelpLeaf K))
  | 0, st, off, size => .ok (st, [⟨off, size, st.hmin, st.hmax⟩])
  | k + 1, st, off, size => do
    let dir := g.dim - (k + 1)
    if 0 < st.hmax dir - st.hmin dir then
      let m := (st.hmax dir + st.hmin dir) / 2
      let sp := splitLoop (fun i => decide (g.x i dir < m)) off size st.idx
      let st := { st with idx := sp.1 }
      if 0 < sp.2.1 then
        if 0 < sp.2.2 then
          let a := st.hmin dir
          let b := st.hmax dir
          let (st, l0) ← buildHelp g k { st with hmax := setAt st.hmax dir m } off sp.2.1
          let st := { st with hmax := setAt st.hmax dir b }
          let (st, l1) ← buildHelp g k { st with hmin := setAt st.hmin dir m } (off + sp.2.1) sp.2.2
          pure ({ st with hmin := setAt st.hmin dir a }, l0 ++ l1)
        else
          let b := st.hmax dir
          let (st, l0) ← buildHelp g k { st with hmax := setAt st.hmax dir m } off size
          pure ({ st with hmax := setAt st.hmax dir b }, l0)
      else
        cassert (decide (0 < sp.2.2))
        let a := st.hmin dir
        let (st, l0) ← buildHelp g k { st with hmin := setAt st.hmin dir m } off size
        pure ({ st with hmin := setAt st.hmin dir a }, l0)
    else
      cassert (decide (st.hmax dir - st.hmin dir = 0))
      buildHelp g k st off size

/-- cluster.c:376-398 `leaves_into_sons(cf, clf, s, t, leaves)`: every auxiliary leaf becomes a son, built by a
recursive call `rec` that starts with the leaf's box. -/
def leavesIntoSons (rec : St K → Nat → Nat → R (St K × Cluster K)) :
    List (HelpLeaf K) → St K → R (St K × List (Cluster K))
  | [], st => .ok (st, [])
  | l :: ls, st => do
    let (st, s) ← rec { st with hmin := l.bmin, hmax := l.bmax } l.off l.size
    let (st, ss) ← leavesIntoSons rec ls st
    pure (st, s :: ss)

/-- cluster.c:400-429 `build_simsub_cluster(cf, size, idx, clf)`. -/
def buildSimsub (g : Geom K) (clf : Nat) : Nat → St K → Nat → Nat → R (St K × Cluster K)
  | 0, _, _, _ => .error .fuel
  | f + 1, st, off, size => do
    cassert (decide (0 < size))
    if clf < size then
      let (st, ls) ← buildHelp g g.dim st off size
      let (st, ss) ← leavesIntoSons (buildSimsub g clf f) ls st
      let t ← fatherCluster g off size ss
      pure (st, t)
    else pure (st, leafCluster g st.idx off size)

/-- cluster.c:454-473, total weight and centre of mass of the segment. -/
def center (g : Geom K) (idx : Nat → Nat) (off size : Nat) : Nat → K :=
  let w := 1 / forT 0 size (fun i w => w + g.w (idx (off + i))) 0
  fun j => (forT 0 size (fun i s => s + g.w (idx (off + i)) * g.x (idx (off + i)) j) 0) * w

/-- cluster.c:479-492, weighted covariance matrix. -/
def covariance (g : Geom K) (idx : Nat → Nat) (off size : Nat) : Nat → Nat → K :=
  let c := center g idx off size
  fun j k => forT 0 size (fun i s => s + g.w (idx (off + i)) *
    (g.x (idx (off + i)) j - c j) * (g.x (idx (off + i)) k - c k)) 0

/-- cluster.c:431-567 `build_pca_cluster(cf, size, idx, clf)`.  `eig C` stands for the eigenvector belonging to the
largest eigenvalue computed by `eig_amatrix` (a LAPACK or QR iteration result): an arbitrary function. -/
def buildPca (g : Geom K) (eig : (Nat → Nat → K) → Nat → K) (clf : Nat) :
    Nat → St K → Nat → Nat → R (St K × Cluster K)
  | 0, _, _, _ => .error .fuel
  | f + 1, st, off, size => do
    cassert (decide (0 < size))
    if clf < size then
      let c := center g st.idx off size
      let v := eig (covariance g st.idx off size)
      let sp := splitLoop (fun i => decide (0 ≤ forT 0 g.dim (fun j w => w + (g.x i j - c j) * v j) 0))
        off size st.idx
      cassert (decide (sp.2.1 + sp.2.2 = size))
      let st := { st with idx := sp.1 }
      if 0 < sp.2.1 then
        if 0 < sp.2.2 then
          let (st, s0) ← buildPca g eig clf f st off sp.2.1
          let (st, s1) ← buildPca g eig clf f st (off + sp.2.1) sp.2.2
          let t ← fatherCluster g off size [s0, s1]
          pure (st, t)
        else
          let (st, s0) ← buildPca g eig clf f st off sp.2.1
          let t ← fatherCluster g off size [s0]
          pure (st, t)
      else
        cassert (decide (0 < sp.2.2))
        let (st, s0) ← buildPca g eig clf f st off sp.2.2
        let t ← fatherCluster g off size [s0]
        pure (st, t)
    else pure (st, leafCluster g st.idx off size)

/-- cluster.h `clustermode`. -/
inductive Mode where
  | adaptive
  | regular
  | pca
  | simsub
deriving DecidableEq

/-- cluster.c:569-592 `build_cluster(cf, size, idx, clf, mode)`, with a recursion budget `f`.  (The point box computed
for H2_REGULAR and H2_SIMSUB asserts `size > 0`, as do all the builders.) -/
def buildCluster (g : Geom K) (eig : (Nat → Nat → K) → Nat → K) (f : Nat) (st : St K) (off size clf : Nat) :
    Mode → R (St K × Cluster K)
  | .adaptive => buildAdaptive g clf f st off size
  | .regular => do
    cassert (decide (0 < size))
    buildRegular g clf f (pointBbox g st off size) off size 0
  | .pca => buildPca g eig clf f st off size
  | .simsub => do
    cassert (decide (0 < size))
    buildSimsub g clf f (pointBbox g st off size) off size

end H2.CB
