import Verif.Core.Arr
import Mathlib.Algebra.Field.Basic

/-!
# Two-dimensional triangular meshes (`Library/tri2d.c`)

Coordinates live in an arbitrary field `K` (exact arithmetic).  The two-dimensional C arrays `x[i][k]`, `e[i][k]`,
`t[i][k]` are modelled by their C memory layout: `x[i][k]` is entry `2*i+k`, `e[i][k]` is entry `2*i+k`, `t[i][k]` is
entry `3*i+k` of one allocated array, and every access outside the allocated array is undefined behaviour (`Err.ub`).
Counters are natural numbers: wrap-around of the 32-bit counters (more than 2³² edges) is not modelled.
-/

namespace H2.Tri2d

/-- `struct _tri2d`, tri2d.h:56-77. -/
structure Mesh (K : Type) where
  vertices : Nat
  edges : Nat
  triangles : Nat
  x : Arr K
  e : Arr Nat
  t : Arr Nat
  xb : Arr Nat
  eb : Arr Nat

/-- `struct _tri2dref`, tri2d.h:203-217. -/
structure Ref where
  xf : Arr Nat
  xt : Arr Nat
  ef : Arr Nat
  et : Arr Nat
  tf : Arr Nat

variable {K : Type}

/-- `new_tri2d`, tri2d.c:16-35.  The memory returned by the allocator holds arbitrary values (`jx`, `jn`). -/
def newTri2d (jx : Nat → K) (jn : Nat → Nat) (vertices edges triangles : Nat) : Mesh K where
  vertices := vertices
  edges := edges
  triangles := triangles
  x := ⟨2 * vertices, jx⟩
  e := ⟨2 * edges, jn⟩
  t := ⟨3 * triangles, jn⟩
  xb := ⟨vertices, jn⟩
  eb := ⟨edges, jn⟩

/-! ## check_tri2d -/

/-- the search loops `for (l = 0; l < j && y != v[l]; l++);` of `check_tri2d`, tri2d.c:579 and 585: `n` is `j - l`. -/
def search (v : Arr Nat) (y : Nat) : Nat → Nat → R Nat
  | 0, l => .ok l
  | n + 1, l => do
    let w ← v.get l
    if y ≠ w then search v y n (l + 1) else .ok l

/-- `if (l == j) { v[j] = y; j++; }` after the search, tri2d.c:579-583 and 585-589; the state is `(v, j)`. -/
def collect (y : Nat) (s : Arr Nat × Nat) : R (Arr Nat × Nat) := do
  let l ← search s.1 y s.2 0
  if l = s.2 then do
    let v ← s.1.set s.2 y
    pure (v, s.2 + 1)
  else pure s

/-- First loop of `check_tri2d`, tri2d.c:543-552 (the messages are not modelled, only the number of errors). -/
def checkEdges (m : Mesh K) : R Nat :=
  forUp 0 m.edges (fun i errors => do
    let a ← m.e.get (2 * i)
    let errors := if a ≥ m.vertices then errors + 1 else errors
    let b ← m.e.get (2 * i + 1)
    let errors := if b ≥ m.vertices then errors + 1 else errors
    pure errors) 0

/-- Second loop of `check_tri2d`, tri2d.c:555-568. -/
def checkBoundary (m : Mesh K) (errors : Nat) : R Nat :=
  forUp 0 m.edges (fun i errors => do
    let b ← m.eb.get i
    if b = 1 then do
      let a ← m.e.get (2 * i)
      let xa ← m.xb.get a
      let errors := if xa = 0 then errors + 1 else errors
      let c ← m.e.get (2 * i + 1)
      let xc ← m.xb.get c
      let errors := if xc = 0 then errors + 1 else errors
      pure errors
    else pure errors) errors

/-- Inner loop over the three edges of triangle `i`, tri2d.c:572-591; the state is `(errors, v, j)`. -/
def checkTriEdges (m : Mesh K) (i : Nat) (s : Nat × Arr Nat × Nat) : R (Nat × Arr Nat × Nat) :=
  forUp 0 3 (fun k s => do
    let f ← m.t.get (3 * i + k)
    if f ≥ m.edges then pure (s.1 + 1, s.2)
    else do
      let y ← m.e.get (2 * f)
      let p ← collect y s.2
      let y ← m.e.get (2 * f + 1)
      let p ← collect y p
      pure (s.1, p)) s

/-- Third loop of `check_tri2d`, tri2d.c:570-599; the state is `(errors, v)`: the local array `v[6]` keeps its contents from
one triangle to the next.  The `while (j-- > 0)` loop only prints. -/
def checkTriangles (m : Mesh K) (v : Arr Nat) (errors : Nat) : R (Nat × Arr Nat) :=
  forUp 0 m.triangles (fun i s => do
    let r ← checkTriEdges m i (s.1, s.2, 0)
    pure (if r.2.2 ≠ 3 then r.1 + 1 else r.1, r.2.1)) (errors, v)

/-- `en[f]++` -/
def bump (en : Arr Nat) (f : Nat) : R (Arr Nat) := do
  let c ← en.get f
  en.set f (c + 1)

/-- Fourth part of `check_tri2d`, tri2d.c:602-610: number of triangles at each edge. -/
def countTriangles (m : Mesh K) (jn : Nat → Nat) : R (Arr Nat) := do
  let en : Arr Nat := ⟨m.edges, jn⟩
  let en ← forUp 0 m.edges (fun i en => en.set i 0) en
  forUp 0 m.triangles (fun i en => do
    let f ← m.t.get (3 * i)
    let en ← bump en f
    let f ← m.t.get (3 * i + 1)
    let en ← bump en f
    let f ← m.t.get (3 * i + 2)
    bump en f) en

/-- Last loop of `check_tri2d`, tri2d.c:611-620. -/
def checkNeighbours (m : Mesh K) (en : Arr Nat) (errors : Nat) : R Nat :=
  forUp 0 m.edges (fun i errors => do
    let b ← m.eb.get i
    let c ← en.get i
    let errors := if b = 0 ∧ c ≠ 2 then errors + 1 else errors
    let errors := if b = 1 ∧ c ≠ 1 then errors + 1 else errors
    pure errors) errors

/-- `check_tri2d`, tri2d.c:525-624: the number of errors printed in the last line. -/
def checkTri2d (jn : Nat → Nat) (m : Mesh K) : R Nat := do
  let errors ← checkEdges m
  let errors ← checkBoundary m errors
  let s ← checkTriangles m ⟨6, jn⟩ errors
  let en ← countTriangles m jn
  checkNeighbours m en s.1

/-! ## getvertices_tri2d -/

/-- `common_vertex`, tri2d.c:632-640. -/
def commonVertex (e : Arr Nat) (e1 e2 : Nat) : R Nat := do
  let a0 ← e.get (2 * e1)
  let b0 ← e.get (2 * e2)
  let b1 ← e.get (2 * e2 + 1)
  if a0 = b0 ∨ a0 = b1 then pure 0
  else do
    let a1 ← e.get (2 * e1 + 1)
    cassert (decide (a1 = b0 ∨ a1 = b1))
    pure 1

/-- `common_vertex_global`, tri2d.c:642-646. -/
def commonVertexGlobal (e : Arr Nat) (e1 e2 : Nat) : R Nat := do
  let k ← commonVertex e e1 e2
  e.get (2 * e1 + k)

/-- `getvertices_tri2d`, tri2d.c:650-659: the vertices `(v[0], v[1], v[2])`. -/
def getVertices (m : Mesh K) (tn : Nat) : R (Nat × Nat × Nat) := do
  let t0 ← m.t.get (3 * tn)
  let t1 ← m.t.get (3 * tn + 1)
  let t2 ← m.t.get (3 * tn + 2)
  let v2 ← commonVertexGlobal m.e t0 t1
  let v0 ← commonVertexGlobal m.e t1 t2
  let v1 ← commonVertexGlobal m.e t2 t0
  pure (v0, v1, v2)

/-! ## refine_tri2d -/

/-- do edges `e1` and `e2` have a common vertex?  The conditions of `intersecting_edges`, tri2d.c:941, 948, 955, 962. -/
def meets (e : Arr Nat) (e1 e2 : Nat) : R Bool := do
  let a0 ← e.get (2 * e1)
  let a1 ← e.get (2 * e1 + 1)
  let b0 ← e.get (2 * e2)
  let b1 ← e.get (2 * e2 + 1)
  pure (decide (a0 = b0 ∨ a0 = b1 ∨ a1 = b0 ∨ a1 = b1))

/-- `intersecting_edges`, tri2d.c:937-966: the two results `(*e1s, *e2s)`. -/
def intersectingEdges (e : Arr Nat) (e1 e2 : Nat) : R (Nat × Nat) := do
  if (← meets e e1 e2) then pure (e1, e2)
  else if (← meets e e1 (e2 + 1)) then pure (e1, e2 + 1)
  else if (← meets e (e1 + 1) e2) then pure (e1 + 1, e2)
  else do
    let b ← meets e (e1 + 1) (e2 + 1)
    cassert b
    pure (e1 + 1, e2 + 1)

/-- `if (t2r) a[i] = y;` -/
def refSet (t2r : Bool) (a : Arr Nat) (i y : Nat) : R (Arr Nat) := if t2r then a.set i y else .ok a

/-- state of the first two loops of `refine_tri2d`: `i`, `r->x`, `r->xb`, `xf`, `xt` -/
structure VState (K : Type) where
  i : Nat
  x : Arr K
  xb : Arr Nat
  xf : Arr Nat
  xt : Arr Nat

/-- first loop of `refine_tri2d`, tri2d.c:996-1006: copy the vertices -/
def copyVertices (t2r : Bool) (m : Mesh K) (s : VState K) : R (VState K) :=
  forUp 0 m.vertices (fun j s => do
    let a ← m.x.get (2 * j)
    let x ← s.x.set (2 * s.i) a
    let a ← m.x.get (2 * j + 1)
    let x ← x.set (2 * s.i + 1) a
    let b ← m.xb.get j
    let xb ← s.xb.set s.i b
    let xf ← refSet t2r s.xf s.i j
    let xt ← refSet t2r s.xt s.i 0
    pure ⟨s.i + 1, x, xb, xf, xt⟩) s

/-- second loop of `refine_tri2d`, tri2d.c:1010-1019: midpoints of the edges -/
def midVertices [Field K] (t2r : Bool) (m : Mesh K) (s : VState K) : R (VState K) :=
  forUp 0 m.edges (fun j s => do
    let p ← m.e.get (2 * j)
    let q ← m.e.get (2 * j + 1)
    let a ← m.x.get (2 * p)
    let b ← m.x.get (2 * q)
    let x ← s.x.set (2 * s.i) (1 / 2 * (a + b))
    let a ← m.x.get (2 * p + 1)
    let b ← m.x.get (2 * q + 1)
    let x ← x.set (2 * s.i + 1) (1 / 2 * (a + b))
    let b ← m.eb.get j
    let xb ← s.xb.set s.i b
    let xf ← refSet t2r s.xf s.i j
    let xt ← refSet t2r s.xt s.i 1
    pure ⟨s.i + 1, x, xb, xf, xt⟩) s

/-- state of the third and fourth loop of `refine_tri2d`: `i`, `r->e`, `r->eb`, `ef`, `et` -/
structure EState where
  i : Nat
  e : Arr Nat
  eb : Arr Nat
  ef : Arr Nat
  et : Arr Nat

/-- write one new edge and its attributes, the repeated statement group of tri2d.c:1025-1032, 1034-1041, 1047-1054,
1056-1063, 1065-1072 -/
def putEdge (t2r : Bool) (a b flag father type : Nat) (s : EState) : R EState := do
  let e ← s.e.set (2 * s.i) a
  let e ← e.set (2 * s.i + 1) b
  let eb ← s.eb.set s.i flag
  let ef ← refSet t2r s.ef s.i father
  let et ← refSet t2r s.et s.i type
  pure ⟨s.i + 1, e, eb, ef, et⟩

/-- third loop of `refine_tri2d`, tri2d.c:1024-1042: split the edges; `ev` is `edge_vertices` -/
def splitEdges (t2r : Bool) (m : Mesh K) (ev : Nat) (s : EState) : R EState :=
  forUp 0 m.edges (fun j s => do
    let a ← m.e.get (2 * j)
    let b ← m.eb.get j
    let s ← putEdge t2r a (ev + j) b j 1 s
    let a ← m.e.get (2 * j + 1)
    let b ← m.eb.get j
    putEdge t2r (ev + j) a b j 1 s) s

/-- fourth loop of `refine_tri2d`, tri2d.c:1046-1073: edges inside the triangles -/
def innerEdges (t2r : Bool) (m : Mesh K) (ev : Nat) (s : EState) : R EState :=
  forUp 0 m.triangles (fun j s => do
    let t0 ← m.t.get (3 * j)
    let t1 ← m.t.get (3 * j + 1)
    let t2 ← m.t.get (3 * j + 2)
    let s ← putEdge t2r (ev + t1) (ev + t2) 0 j 2 s
    let s ← putEdge t2r (ev + t2) (ev + t0) 0 j 2 s
    putEdge t2r (ev + t0) (ev + t1) 0 j 2 s) s

/-- state of the last loop of `refine_tri2d`: `i`, `r->t`, `tf` -/
structure TState where
  i : Nat
  t : Arr Nat
  tf : Arr Nat

/-- last loop of `refine_tri2d`, tri2d.c:1077-1109: split the triangles; `te` is `triangle_edges`, `re` is `r->e` -/
def splitTriangles (t2r : Bool) (m : Mesh K) (re : Arr Nat) (te : Nat) (s : TState) : R TState :=
  forUp 0 m.triangles (fun j s => do
    let t0 ← m.t.get (3 * j)
    let t1 ← m.t.get (3 * j + 1)
    let t2 ← m.t.get (3 * j + 2)
    -- corner of edges 1 and 2
    let p ← intersectingEdges re (2 * t1) (2 * t2)
    let t ← s.t.set (3 * s.i + 1) p.1
    let t ← t.set (3 * s.i + 2) p.2
    let t ← t.set (3 * s.i) (te + 3 * j)
    let tf ← refSet t2r s.tf s.i j
    let i := s.i + 1
    -- corner of edges 0 and 2
    let p ← intersectingEdges re (2 * t0) (2 * t2)
    let t ← t.set (3 * i) p.1
    let t ← t.set (3 * i + 2) p.2
    let t ← t.set (3 * i + 1) (te + 3 * j + 1)
    let tf ← refSet t2r tf i j
    let i := i + 1
    -- corner of edges 0 and 1
    let p ← intersectingEdges re (2 * t0) (2 * t1)
    let t ← t.set (3 * i) p.1
    let t ← t.set (3 * i + 1) p.2
    let t ← t.set (3 * i + 2) (te + 3 * j + 2)
    let tf ← refSet t2r tf i j
    let i := i + 1
    -- inner triangle
    let t ← t.set (3 * i) (te + 3 * j)
    let t ← t.set (3 * i + 1) (te + 3 * j + 1)
    let t ← t.set (3 * i + 2) (te + 3 * j + 2)
    let tf ← refSet t2r tf i j
    pure ⟨i + 1, t, tf⟩) s

/-- `refine_tri2d`, tri2d.c:968-1112.  `t2r` says whether the caller asked for the father relation; without it the
returned `Ref` holds the empty arrays of the (unused) NULL pointers. -/
def refineTri2d [Field K] (jx : Nat → K) (jn : Nat → Nat) (t2r : Bool) (m : Mesh K) : R (Mesh K × Ref) := do
  let r := newTri2d jx jn (m.vertices + m.edges) (2 * m.edges + 3 * m.triangles) (4 * m.triangles)
  let alloc : Nat → Arr Nat := fun n => if t2r then ⟨n, jn⟩ else ⟨0, jn⟩
  let xf := alloc r.vertices
  let xt := alloc r.vertices
  let ef := alloc r.edges
  let et := alloc r.edges
  let tf := alloc r.triangles
  let s ← copyVertices t2r m ⟨0, r.x, r.xb, xf, xt⟩
  let ev := s.i
  let s ← midVertices t2r m s
  cassert (decide (s.i = r.vertices))
  let q ← splitEdges t2r m ev ⟨0, r.e, r.eb, ef, et⟩
  let te := q.i
  let q ← innerEdges t2r m ev q
  let w ← splitTriangles t2r m q.e te ⟨0, r.t, tf⟩
  pure (⟨r.vertices, r.edges, r.triangles, s.x, q.e, w.t, s.xb, q.eb⟩, ⟨s.xf, s.xt, q.ef, q.et, w.tf⟩)

/-- `n` successive calls of `refine_tri2d`, as in the test and example programs (Tests/test_ddcluster.c:56,
Tests/test_tri2drt0.c:253, Examples/example_fem_p1_harith.c:172). -/
def refineTimes [Field K] (jx : Nat → K) (jn : Nat → Nat) : Nat → Mesh K → R (Mesh K)
  | 0, m => .ok m
  | n + 1, m => do
    let r ← refineTri2d jx jn false m
    refineTimes jx jn n r.1

/-! ## The meshes of the library -/

/-- memory holding the listed values (the constructors below assign every entry) -/
def arrOf {α : Type} (d : α) (l : List α) : Arr α := ⟨l.length, fun i => l.getD i d⟩

/-- `new_unitsquare_tri2d`, tri2d.c:48-92 -/
def newUnitsquare [Field K] : Mesh K where
  vertices := 4
  edges := 5
  triangles := 2
  x := arrOf 0 [-1, -1, 1, -1, -1, 1, 1, 1]
  xb := arrOf 0 [1, 1, 1, 1]
  e := arrOf 0 [0, 1, 0, 2, 1, 2, 1, 3, 2, 3]
  eb := arrOf 0 [1, 1, 0, 1, 1]
  t := arrOf 0 [0, 1, 2, 2, 3, 4]

/-- `new_unitcircle_tri2d`, tri2d.c:94-153 -/
def newUnitcircle [Field K] : Mesh K where
  vertices := 5
  edges := 8
  triangles := 4
  x := arrOf 0 [0, 0, -1, 0, 0, 1, 1, 0, 0, -1]
  xb := arrOf 0 [0, 1, 1, 1, 1]
  e := arrOf 0 [1, 2, 2, 3, 3, 4, 4, 1, 1, 0, 2, 0, 3, 0, 4, 0]
  eb := arrOf 0 [1, 1, 1, 1, 0, 0, 0, 0]
  t := arrOf 0 [0, 5, 4, 5, 1, 6, 7, 6, 2, 3, 4, 7]

/-- `new_lshape_tri2d`, tri2d.c:155-237 -/
def newLshape [Field K] : Mesh K where
  vertices := 8
  edges := 13
  triangles := 6
  x := arrOf 0 [-1, -1, 0, -1, 1, -1, -1, 0, 0, 0, 1, 0, -1, 1, 0, 1]
  xb := arrOf 0 [1, 1, 1, 1, 1, 1, 1, 1]
  e := arrOf 0 [0, 1, 1, 2, 0, 3, 1, 3, 1, 4, 2, 4, 2, 5, 3, 4, 4, 5, 3, 6, 4, 6, 4, 7, 6, 7]
  eb := arrOf 0 [1, 1, 1, 0, 0, 0, 1, 0, 1, 1, 0, 1, 1]
  t := arrOf 0 [3, 0, 2, 3, 4, 7, 5, 4, 1, 5, 8, 6, 10, 9, 7, 10, 12, 11]

/-- `new_ushape_tri2d`, tri2d.c:239-481 -/
def newUshape [Field K] : Mesh K where
  vertices := 23
  edges := 46
  triangles := 24
  x := arrOf 0 [-1, -1, -(1/2), -1, 0, -1, 1/2, -1, 1, -1, -1, -(1/2), -(1/2), -(1/2), 0, -(1/2), 1/2, -(1/2), 1,
    -(1/2), -1, 0, -(1/2), 0, 0, 0, 1/2, 0, 1, 0, -1, 1/2, -(1/2), 1/2, 1/2, 1/2, 1, 1/2, -1, 1, -(1/2), 1, 1/2, 1, 1,
    1]
  xb := arrOf 0 [1, 1, 1, 1, 1, 1, 0, 0, 0, 1, 1, 1, 1, 1, 1, 1, 1, 1, 1, 1, 1, 1, 1]
  e := arrOf 0 [0, 1, 1, 2, 2, 3, 3, 4, 5, 0, 5, 1, 6, 1, 6, 2, 7, 2, 7, 3, 8, 3, 8, 4, 9, 4, 5, 6, 6, 7, 7, 8, 8, 9,
    10, 5, 10, 6, 11, 6, 11, 7, 12, 7, 12, 8, 13, 8, 13, 9, 14, 9, 10, 11, 11, 12, 12, 13, 13, 14, 15, 10, 15, 11, 16,
    11, 17, 13, 17, 14, 18, 14, 15, 16, 17, 18, 19, 15, 19, 16, 20, 16, 21, 17, 21, 18, 22, 18, 19, 20, 21, 22]
  eb := arrOf 0 [1, 1, 1, 1, 1, 0, 0, 0, 0, 0, 0, 0, 1, 0, 0, 0, 0, 1, 0, 0, 0, 0, 0, 0, 0, 1, 0, 1, 1, 0, 1, 0, 1, 1,
    0, 1, 0, 0, 1, 0, 1, 1, 0, 1, 1, 1]
  t := arrOf 0 [0, 4, 5, 5, 6, 13, 6, 1, 7, 7, 8, 14, 8, 2, 9, 9, 10, 15, 10, 3, 11, 11, 12, 16, 17, 13, 18, 18, 19,
    26, 19, 14, 20, 20, 21, 27, 21, 15, 22, 22, 23, 28, 23, 16, 24, 24, 25, 29, 30, 26, 31, 31, 32, 36, 33, 29, 34,
    34, 35, 37, 38, 36, 39, 39, 40, 44, 41, 37, 42, 42, 43, 45]

end H2.Tri2d

namespace H2.Tri2d
variable {K : Type}

/-! ## fixnormals_tri2d -/

/-- body of the loops of `fixnormals_tri2d`, tri2d.c:496-522; the state is the edge array `e`. -/
def fixEdge [Field K] [LinearOrder K] (m : Mesh K) (k i : Nat) (e : Arr Nat) : R (Arr Nat) := do
  let ei ← m.t.get (3 * k + i)
  let b ← m.eb.get ei
  if b ≠ 0 then do
    let p ← e.get (2 * ei)
    let q ← e.get (2 * ei + 1)
    let n0 := (← m.x.get (2 * q + 1)) - (← m.x.get (2 * p + 1))
    let n1 := (← m.x.get (2 * p)) - (← m.x.get (2 * q))
    let ej ← m.t.get (3 * k + (i + 1) % 3)
    let a ← e.get (2 * ej)
    let c ← e.get (2 * ej + 1)
    let xi ← (if a = p ∨ a = q then do
        cassert (decide (c ≠ p ∧ c ≠ q))
        pure ((← m.x.get (2 * c)) - (← m.x.get (2 * a)), (← m.x.get (2 * c + 1)) - (← m.x.get (2 * a + 1)))
      else do
        pure ((← m.x.get (2 * a)) - (← m.x.get (2 * c)), (← m.x.get (2 * a + 1)) - (← m.x.get (2 * c + 1))))
    if xi.1 * n0 + xi.2 * n1 > 0 then do
      let v ← e.get (2 * ei)
      let w ← e.get (2 * ei + 1)
      let e ← e.set (2 * ei) w
      e.set (2 * ei + 1) v
    else pure e
  else pure e

/-- `fixnormals_tri2d`, tri2d.c:483-523. -/
def fixNormals [Field K] [LinearOrder K] (m : Mesh K) : R (Mesh K) := do
  let e ← forUp 0 m.triangles (fun k e => forUp 0 3 (fun i e => fixEdge m k i e) e) m.e
  pure { m with e := e }

/-! ## tri2dbuilder -/

/-- `struct _edgeentry`, tri2d.c:1160-1168; the entry with name `p` is entry `p` of `Builder.ent` (names are given in the order of
allocation), so names serve as pointers.  `next` is modelled by the lists in `Builder.elist`. -/
structure Entry where
  v0 : Nat
  v1 : Nat
  neighbours : Nat

/-- `struct _tri2dbuilder`, tri2d.c:1149-1158, with the linked lists as lists: `elist[i]` is the chain of the edge entries starting in
vertex `i`, `tlist` the chain of the triangle entries `(name, e[0], e[1], e[2])`, tri2d.c:1170-1176. -/
structure Builder (K : Type) where
  vertices : Nat
  edges : Nat
  triangles : Nat
  x : Arr K
  elist : Arr (List Nat)
  ent : Arr Entry
  tlist : List (Nat × Nat × Nat × Nat)

/-- `new_tri2dbuilder`, tri2d.c:1216-1235.  The coordinates are filled in by the caller through `getx_tri2dbuilder`, tri2d.c:1280-1283;
the model takes them as an argument. -/
def newBuilder (je : Nat → Entry) (vertices : Nat) (x : Nat → K) : Builder K where
  vertices := vertices
  edges := 0
  triangles := 0
  x := ⟨2 * vertices, x⟩
  elist := ⟨vertices, fun _ => []⟩
  ent := ⟨0, je⟩
  tlist := []

/-- the search loop of `find_edgeentry`, tri2d.c:1301-1304 -/
def findIn (ent : Arr Entry) (v1 : Nat) : List Nat → R (Option Nat)
  | [] => .ok none
  | p :: ps => do
    let e ← ent.get p
    if e.v1 = v1 then pure (some p) else findIn ent v1 ps

/-- `find_edgeentry`, tri2d.c:1285-1314, with `new_edgeentry`, tri2d.c:1181-1194 -/
def findEdge (b : Builder K) (v0 v1 : Nat) : R (Nat × Builder K) := do
  cassert (decide (v0 < b.vertices))
  cassert (decide (v1 < b.vertices))
  let (v0, v1) := if v0 > v1 then (v1, v0) else (v0, v1)
  let chain ← b.elist.get v0
  match ← findIn b.ent v1 chain with
  | some p => pure (p, b)
  | none => do
    let ent : Arr Entry := ⟨b.ent.n + 1, fun k => if k = b.edges then ⟨v0, v1, 0⟩ else b.ent.v k⟩
    let elist ← b.elist.set v0 (b.edges :: chain)
    pure (b.edges, { b with ent := ent, elist := elist, edges := b.edges + 1 })

/-- `e->neighbours++`, tri2d.c:1209-1211 -/
def bumpEntry (ent : Arr Entry) (p : Nat) : R (Arr Entry) := do
  let e ← ent.get p
  ent.set p { e with neighbours := e.neighbours + 1 }

/-- `addtriangle_tri2dbuilder`, tri2d.c:1316-1327, with `new_trientry`, tri2d.c:1196-1214 -/
def addTriangle (b : Builder K) (v0 v1 v2 : Nat) : R (Builder K) := do
  let (e01, b) ← findEdge b v0 v1
  let (e12, b) ← findEdge b v1 v2
  let (e20, b) ← findEdge b v2 v0
  let ent ← bumpEntry b.ent e12
  let ent ← bumpEntry ent e20
  let ent ← bumpEntry ent e01
  pure { b with ent := ent, tlist := (b.triangles, e12, e20, e01) :: b.tlist, triangles := b.triangles + 1 }

/-- the calls of `addtriangle_tri2dbuilder` made by the user, in this order -/
def addTriangles (b : Builder K) : List (Nat × Nat × Nat) → R (Builder K)
  | [] => .ok b
  | t :: ts => do
    let b ← addTriangle b t.1 t.2.1 t.2.2
    addTriangles b ts

/-- loop "Copy triangles" of `buildmesh_tri2dbuilder`, tri2d.c:1345-1349 -/
def copyTriangles : List (Nat × Nat × Nat × Nat) → Arr Nat → R (Arr Nat)
  | [], t => .ok t
  | y :: ys, t => do
    let t ← t.set (3 * y.1) y.2.1
    let t ← t.set (3 * y.1 + 1) y.2.2.1
    let t ← t.set (3 * y.1 + 2) y.2.2.2
    copyTriangles ys t

/-- the arrays written by the loop "Copy edges" -/
structure CState where
  e : Arr Nat
  eb : Arr Nat
  xb : Arr Nat

/-- inner loop "Copy edges" of `buildmesh_tri2dbuilder`, tri2d.c:1353-1367, along one chain -/
def copyChain (ent : Arr Entry) : List Nat → CState → R CState
  | [], s => .ok s
  | p :: ps, s => do
    let y ← ent.get p
    let e ← s.e.set (2 * p) y.v0
    let e ← e.set (2 * p + 1) y.v1
    cassert (decide (y.neighbours = 1 ∨ y.neighbours = 2))
    let eb ← s.eb.set p (if y.neighbours = 1 then 1 else 0)
    let xb ← (if y.neighbours = 1 then do
        let xb ← s.xb.set y.v0 1
        xb.set y.v1 1
      else pure s.xb)
    copyChain ent ps ⟨e, eb, xb⟩

/-- `buildmesh_tri2dbuilder`, tri2d.c:1329-1378 -/
def buildMesh [Field K] [LinearOrder K] (jx : Nat → K) (jn : Nat → Nat) (b : Builder K) : R (Mesh K) := do
  let gr := newTri2d jx jn b.vertices b.edges b.triangles
  let xb ← forUp 0 b.vertices (fun i xb => xb.set i 0) gr.xb
  let t ← copyTriangles b.tlist gr.t
  let s ← forUp 0 b.vertices (fun i s => do
    let chain ← b.elist.get i
    copyChain b.ent chain s) (⟨gr.e, gr.eb, xb⟩ : CState)
  let x ← forUp 0 b.vertices (fun i x => do
    let x ← x.set (2 * i) (← b.x.get (2 * i))
    x.set (2 * i + 1) (← b.x.get (2 * i + 1))) gr.x
  fixNormals ⟨b.vertices, b.edges, b.triangles, x, s.e, t, s.xb, s.eb⟩

end H2.Tri2d
