import Verif.Model.ClusterBuild
import Verif.Model.Sparse
import Verif.Model.Block

/-!
# Domain decomposition clustering (`ddcluster.c:9-645`)

As in Model/ClusterBuild.lean the shared index array is a function of positions, a call works on the positions `off … off+size-1`. The recursion is bounded by the fuel `f`.
-/

namespace H2.CB
variable {K : Type} [Field K] [LinearOrder K] {F : Type}

/-- `c->type = n` -/
def withType (n : Nat) : Cluster K → Cluster K
  | .mk i s => .mk { i with type := n } s

/-- `c = new_cluster(size, idx, #ss, cg->dim)` with sons `ss`, `update_bbox_cluster(c)`, `c->type = ty`, `update_cluster(c)` -/
def fatherT (g : Geom K) (ty off size : Nat) (ss : List (Cluster K)) : R (Cluster K) := do
  let t ← fatherCluster g off size ss
  pure (withType ty t)

/-- `c = new_cluster(size, idx, 0, cg->dim)`, `update_support_bbox_cluster(cg, c)` (which asserts `size > 0`), `c->type = ty`, `update_cluster(c)` -/
def leafT (g : Geom K) (ty : Nat) (idx : Nat → Nat) (off size : Nat) : R (Cluster K) := do
  cassert (decide (0 < size))
  pure (withType ty (leafCluster g idx off size))

/-- ddcluster.c:24-30, 156-161: the next direction; `dim - 1` wraps for `dim = 0` -/
def nextDir (dim dir : Nat) : Nat := if dir < (dim + (2 ^ 32 - 1)) % 2 ^ 32 then dir + 1 else 0

/-- ddcluster.c:9-132 `build_regular_interface_cluster(cg, size, idx, clf, dim, direction, levelint)`; `levelint % 0` is undefined -/
def buildRegularInterface (g : Geom K) (clf dim : Nat) : Nat → St K → Nat → Nat → Nat → Nat → R (St K × Cluster K)
  | 0, _, _, _, _, _ => .error .fuel
  | f + 1, st, off, size, dir, lev => do
    let newd := nextDir dim dir
    if clf < size then
      if dim = 0 then throw .ub
      else if lev % dim ≠ 0 then
        if g.dim ≤ dir then throw .ub
        else if 0 < st.hmax dir - st.hmin dir then
          let m := (st.hmax dir + st.hmin dir) / 2
          let sp := splitLoop (fun i => decide (g.x i dir < m)) off size st.idx
          let st := { st with idx := sp.1 }
          if 0 < sp.2.1 then
            if 0 < sp.2.2 then
              let a := st.hmin dir
              let b := st.hmax dir
              let r ← buildRegularInterface g clf dim f { st with hmax := setAt st.hmax dir m } off sp.2.1 newd (lev + 1)
              let st := { r.1 with hmax := setAt r.1.hmax dir b }
              let q ← buildRegularInterface g clf dim f { st with hmin := setAt st.hmin dir m } (off + sp.2.1) sp.2.2 newd (lev + 1)
              let t ← fatherT g 2 off size [r.2, q.2]
              pure ({ q.1 with hmin := setAt q.1.hmin dir a }, t)
            else
              let b := st.hmax dir
              let r ← buildRegularInterface g clf dim f { st with hmax := setAt st.hmax dir m } off size newd (lev + 1)
              let t ← fatherT g 2 off size [r.2]
              pure ({ r.1 with hmax := setAt r.1.hmax dir b }, t)
          else
            cassert (decide (0 < sp.2.2))
            let a := st.hmin dir
            let r ← buildRegularInterface g clf dim f { st with hmin := setAt st.hmin dir m } off size newd (lev + 1)
            let t ← fatherT g 2 off size [r.2]
            pure ({ r.1 with hmin := setAt r.1.hmin dir a }, t)
        else
          cassert (decide (st.hmax dir - st.hmin dir = 0))
          let r ← buildRegularInterface g clf dim f st off size newd (lev + 1)
          let t ← fatherT g 2 off size [r.2]
          pure (r.1, t)
      else
        let r ← buildRegularInterface g clf dim f st off size newd (lev + 1)
        let t ← fatherT g 2 off size [r.2]
        pure (r.1, t)
    else
      let t ← leafT g 2 st.idx off size
      pure (st, t)

/-- ddcluster.c:387-490 `build_adaptive_interface_cluster(cg, size, idx, clf, dim, levelint)`; `levelint % 0` is undefined -/
def buildAdaptiveInterface (g : Geom K) (clf dim : Nat) : Nat → St K → Nat → Nat → Nat → R (St K × Cluster K)
  | 0, _, _, _, _ => .error .fuel
  | f + 1, st, off, size, lev => do
    if clf < size then
      if dim = 0 then throw .ub
      else if lev % dim ≠ 0 then
        let st := pointBbox g st off size
        let da := maxDir g.dim st.hmin st.hmax
        if g.dim = 0 then throw .ub
        else if 0 < da.2 then
          let m := (st.hmax da.1 + st.hmin da.1) / 2
          let sp := splitLoop (fun i => decide (g.x i da.1 < m)) off size st.idx
          let st := { st with idx := sp.1 }
          if 0 < sp.2.1 then
            if 0 < sp.2.2 then
              let r ← buildAdaptiveInterface g clf dim f st off sp.2.1 (lev + 1)
              let q ← buildAdaptiveInterface g clf dim f r.1 (off + sp.2.1) sp.2.2 (lev + 1)
              let t ← fatherT g 2 off size [r.2, q.2]
              pure (q.1, t)
            else
              let r ← buildAdaptiveInterface g clf dim f st off size (lev + 1)
              let t ← fatherT g 2 off size [r.2]
              pure (r.1, t)
          else
            cassert (decide (0 < sp.2.2))
            let r ← buildAdaptiveInterface g clf dim f st off size (lev + 1)
            let t ← fatherT g 2 off size [r.2]
            pure (r.1, t)
        else
          cassert (decide (da.2 = 0))
          let t ← leafT g 2 st.idx off size
          pure (st, t)
      else
        let r ← buildAdaptiveInterface g clf dim f st off size (lev + 1)
        let t ← fatherT g 2 off size [r.2]
        pure (r.1, t)
    else
      let t ← leafT g 2 st.idx off size
      pure (st, t)

/-- ddcluster.c:181-182, 208-209, 540-541, 563-564: `for (i = 0; i < size0; i++) flag[idx[i]] = v` -/
def setFlags (v : Nat) (idx : Nat → Nat) (off n : Nat) (flag : Arr Nat) : R (Arr Nat) :=
  forUp 0 n (fun i (fl : Arr Nat) => fl.set (idx (off + i)) v) flag

/-- ddcluster.c:187-201, 547-558, the loop over the entries of one row: is there a column with flag 1? The first argument is the number of remaining entries. -/
def touches (sp : Sparse F) (flag : Arr Nat) : Nat → Nat → R Bool
  | 0, _ => .ok false
  | n + 1, j => do
    let c ← sp.col.get j
    let v ← flag.get c
    if v = 1 then pure true else touches sp flag n (j + 1)

/-- ddcluster.c:183-206, 544-561: indices of the second part that are connected to the first part are moved to the end. The first argument is `size0 + size1 - i`; returns the index array, the final `i = size0 + size1`
and `size2`. -/
def sepLoop (sp : Sparse F) (flag : Arr Nat) (off size : Nat) : Nat → Nat → Nat → (Nat → Nat) → R ((Nat → Nat) × Nat × Nat)
  | 0, i, s2, idx => .ok (idx, i, s2)
  | n + 1, i, s2, idx => do
    let lo ← sp.row.get (idx (off + i))
    let hi ← sp.row.get (idx (off + i) + 1)
    let b ← touches sp flag (hi - lo) lo
    if b then sepLoop sp flag off size n i (s2 + 1) (swapIdx idx (off + i) (off + (size - s2 - 1)))
    else sepLoop sp flag off size n (i + 1) s2 idx

/-- ddcluster.c:181-209, 540-564: the separator; returns the index array, `size1`, `size2` and the flags -/
def separate (sp : Sparse F) (flag : Arr Nat) (off size size0 size1 : Nat) (idx : Nat → Nat) : R ((Nat → Nat) × Nat × Nat × Arr Nat) := do
  let flag ← setFlags 1 idx off size0 flag
  let r ← sepLoop sp flag off size size1 size0 0 idx
  let flag ← setFlags 0 r.1 off size0 flag
  pure (r.1, r.2.1 - size0, r.2.2, flag)

/-- ddcluster.c:240-248: the maximal extent of the supports; the loop starts with the position `size1` -/
def diamMax (g : Geom K) (idx : Nat → Nat) (off size size1 : Nat) : K :=
  forT size1 size (fun j d => forT 0 g.dim (fun i d => if d < g.smax (idx (off + j)) i - g.smin (idx (off + j)) i then g.smax (idx (off + j)) i - g.smin (idx (off + j)) i else d) d) 0

/-- ddcluster.c:136-359 `build_regular_dd_cluster(cg, size, idx, clf, sp, dim, direction, flag)` -/
def buildRegularDd (g : Geom K) (clf dim : Nat) (sp : Sparse F) : Nat → St K → Arr Nat → Nat → Nat → Nat → R (St K × Arr Nat × Cluster K)
  | 0, _, _, _, _, _ => .error .fuel
  | f + 1, st, flag, off, size, dir => do
    if clf < size then
      let newd := nextDir dim dir
      if g.dim ≤ dir then throw .ub
      else if 0 < st.hmax dir - st.hmin dir then
        let m := (st.hmax dir + st.hmin dir) / 2
        let s := splitLoop (fun i => decide (g.x i dir < m)) off size st.idx
        let size0 := s.2.1
        let p ← separate sp flag off size size0 s.2.2 s.1
        let st := { st with idx := p.1 }
        let size1 := p.2.1
        let size2 := p.2.2.1
        let flag := p.2.2.2
        if 0 < size0 then
          if 0 < size1 then
            let a := st.hmin dir
            let b := st.hmax dir
            let r ← buildRegularDd g clf dim sp f { st with hmax := setAt st.hmax dir m } flag off size0 newd
            let st := { r.1 with hmax := setAt r.1.hmax dir b }
            let q ← buildRegularDd g clf dim sp f { st with hmin := setAt st.hmin dir m } r.2.1 (off + size0) size1 newd
            if 0 < size2 then
              let h := diamMax g q.1.idx off size size1
              let st := { q.1 with hmin := setAt q.1.hmin dir ((a + b) / 2 - h), hmax := setAt q.1.hmax dir ((a + b) / 2 + h) }
              let u ← buildRegularInterface g clf dim f st (off + size0 + size1) size2 newd 1
              let t ← fatherT g 1 off size [r.2.2, q.2.2, u.2]
              pure ({ u.1 with hmin := setAt u.1.hmin dir a, hmax := setAt u.1.hmax dir b }, q.2.1, t)
            else
              let t ← fatherT g 1 off size [r.2.2, q.2.2]
              pure ({ q.1 with hmin := setAt q.1.hmin dir a, hmax := setAt q.1.hmax dir b }, q.2.1, t)
          else if 0 < size2 then throw .assertFail
          else
            let b := st.hmax dir
            let r ← buildRegularDd g clf dim sp f { st with hmax := setAt st.hmax dir m } flag off size0 newd
            let t ← fatherT g 1 off size [r.2.2]
            pure ({ r.1 with hmax := setAt r.1.hmax dir b }, r.2.1, t)
        else if 0 < size1 then
          cassert (decide (size2 = 0))
          let a := st.hmin dir
          let r ← buildRegularDd g clf dim sp f { st with hmin := setAt st.hmin dir m } flag (off + size0) size1 newd
          let t ← fatherT g 1 off size [r.2.2]
          pure ({ r.1 with hmin := setAt r.1.hmin dir a }, r.2.1, t)
        else throw .assertFail
      else
        let r ← buildRegularDd g clf dim sp f st flag off size newd
        let t ← fatherT g 1 off size [r.2.2]
        pure (r.1, r.2.1, t)
    else
      let t ← leafT g 1 st.idx off size
      pure (st, flag, t)

/-- ddcluster.c:494-645 `build_adaptive_dd_cluster(cg, size, idx, clf, sp, dim, flag)` -/
def buildAdaptiveDd (g : Geom K) (clf dim : Nat) (sp : Sparse F) : Nat → St K → Arr Nat → Nat → Nat → R (St K × Arr Nat × Cluster K)
  | 0, _, _, _, _ => .error .fuel
  | f + 1, st, flag, off, size => do
    if clf < size then
      let st := pointBbox g st off size
      let da := maxDir g.dim st.hmin st.hmax
      if g.dim = 0 then throw .ub
      else if 0 < da.2 then
        let m := (st.hmax da.1 + st.hmin da.1) / 2
        let s := splitLoop (fun i => decide (g.x i da.1 < m)) off size st.idx
        let size0 := s.2.1
        let p ← separate sp flag off size size0 s.2.2 s.1
        let st := { st with idx := p.1 }
        let size1 := p.2.1
        let size2 := p.2.2.1
        let flag := p.2.2.2
        if 0 < size0 then
          if 0 < size1 then
            let r ← buildAdaptiveDd g clf dim sp f st flag off size0
            let q ← buildAdaptiveDd g clf dim sp f r.1 r.2.1 (off + size0) size1
            if 0 < size2 then
              let u ← buildAdaptiveInterface g clf dim f q.1 (off + size0 + size1) size2 1
              let t ← fatherT g 1 off size [r.2.2, q.2.2, u.2]
              pure (u.1, q.2.1, t)
            else
              let t ← fatherT g 1 off size [r.2.2, q.2.2]
              pure (q.1, q.2.1, t)
          else throw .assertFail
        else throw .assertFail
      else
        let t ← leafT g 1 st.idx off size
        pure (st, flag, t)
    else
      let t ← leafT g 1 st.idx off size
      pure (st, flag, t)

/-- ddcluster.c:362-385 `admissible_dd_cluster(s, t, data)`; `adm` is `admissible_2_min_cluster` -/
def admissibleDd (adm : Cluster K → Cluster K → Bool) (s t : CRef K) : Bool :=
  adm s.cl t.cl || (decide (s.cl.info.type = 1) && decide (s.cl.info.type = t.cl.info.type) && !s.same t)

/-- block.c:162-204 `build_nonstrict_block(rc, cc, eta, admis)` with an admissibility condition that compares pointers -/
def nonstrictP (admis : CRef K → CRef K → Bool) (rc cc : CRef K) : Block K :=
  if admis rc cc then Block.leaf rc cc true
  else if rc.nsons * cc.nsons = 0 then Block.leaf rc cc false
  else Block.build rc cc false rc.nsons cc.nsons (fun i j => nonstrictP admis (rc.son i) (cc.son j))
termination_by sizeOf rc.cl
decreasing_by exact CRef.sizeOf_son _ _

/-- block.c:257-321 `build_strict_block(rc, cc, eta, admis)` with an admissibility condition that compares pointers -/
def strictP (admis : CRef K → CRef K → Bool) (rc cc : CRef K) : Block K :=
  if admis rc cc then Block.leaf rc cc true
  else if rc.nsons = 0 then
    if cc.nsons = 0 then Block.leaf rc cc false
    else Block.build rc cc false 1 cc.nsons (fun _ j => strictP admis rc (cc.son j))
  else
    if cc.nsons = 0 then Block.build rc cc false rc.nsons 1 (fun i _ => strictP admis (rc.son i) cc)
    else Block.build rc cc false rc.nsons cc.nsons (fun i j => strictP admis (rc.son i) (cc.son j))
termination_by sizeOf rc.cl + sizeOf cc.cl
decreasing_by
  · have := CRef.sizeOf_son cc j; omega
  · have := CRef.sizeOf_son rc i; omega
  · have := CRef.sizeOf_son cc j; have := CRef.sizeOf_son rc i; omega

end H2.CB
