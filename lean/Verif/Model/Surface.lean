import Verif.Core.Arr
import Verif.Model.Krylov
import Mathlib.Analysis.SpecialFunctions.Sqrt

/-!
# Triangulated surfaces (`Library/surface3d.c`)

Exact real arithmetic, division by zero is the outcome `Err.nan`.  The two-dimensional C arrays are modelled by their memory layout: `x[i][k]`,
`t[i][k]`, `s[i][k]`, `n[i][k]` are entries `3*i+k` and `e[i][k]` is entry `2*i+k` of one allocated array; every access outside the allocated
array is undefined behaviour (`Err.ub`).  Counters are natural numbers: wrap-around of 32-bit counters is not modelled.
-/

namespace H2.Surf
open Krylov

/-- surface3d.h:45-71 `struct _surface3d` -/
structure Surf where
  vertices : Nat
  edges : Nat
  triangles : Nat
  x : Arr ℝ
  e : Arr Nat
  t : Arr Nat
  s : Arr Nat
  n : Arr ℝ
  g : Arr ℝ
  hmin : ℝ
  hmax : ℝ

/-- surface3d.c:27-48 `new_surface3d(vertices, edges, triangles)`; new memory holds arbitrary values (`jx`, `jn`).  Every array has room for `pad` more
entries than requested: zero according to the C standard, more if the allocator rounds up the size of blocks. -/
def newSurf (pad : Nat) (jx : Nat → ℝ) (jn : Nat → Nat) (vertices edges triangles : Nat) : Surf where
  vertices := vertices
  edges := edges
  triangles := triangles
  x := ⟨3 * vertices + pad, jx⟩
  e := ⟨2 * edges + pad, jn⟩
  t := ⟨3 * triangles + pad, jn⟩
  s := ⟨3 * triangles + pad, jn⟩
  n := ⟨3 * triangles + pad, jx⟩
  g := ⟨triangles + pad, jx⟩
  hmin := 10 ^ 30
  hmax := 0

/-- read `a[i][0]`, `a[i][1]`, `a[i][2]` -/
def get3 {α : Type} (a : Arr α) (i : Nat) : R (α × α × α) := do
  let p ← a.get (3 * i)
  let q ← a.get (3 * i + 1)
  let r ← a.get (3 * i + 2)
  pure (p, q, r)

/-- write `a[i][0]`, `a[i][1]`, `a[i][2]` -/
def set3 {α : Type} (a : Arr α) (i : Nat) (p q r : α) : R (Arr α) := do
  let a ← a.set (3 * i) p
  let a ← a.set (3 * i + 1) q
  a.set (3 * i + 2) r

/-- basic.h:454-456 `REAL_MIN3(x, y, z)` -/
noncomputable def min3 (x y z : ℝ) : ℝ := if x < y then (if z < x then z else x) else (if z < y then z else y)

/-- basic.h:445-447 `REAL_MIN(a, b)` -/
noncomputable def rmin (a b : ℝ) : ℝ := if a < b then a else b

/-- basic.h:426-428 `REAL_MAX(a, b)` -/
noncomputable def rmax (a b : ℝ) : ℝ := if a < b then b else a

/-- state of the loop in `prepare_surface3d`: normal vectors, Gram determinants, minimal and maximal height -/
structure PrepSt where
  n : Arr ℝ
  g : Arr ℝ
  hmin : ℝ
  hmax : ℝ

/-- surface3d.c:66-102: body of the loop in `prepare_surface3d` -/
noncomputable def prepareTri (m : Surf) (i : Nat) (st : PrepSt) : R PrepSt := do
  let (t0, t1, t2) ← get3 m.t i
  let (p0, p1, p2) ← get3 m.x t0
  let (q0, q1, q2) ← get3 m.x t1
  let (r0, r1, r2) ← get3 m.x t2
  let dx0 := q0 - p0
  let dx1 := q1 - p1
  let dx2 := q2 - p2
  let dy0 := r0 - p0
  let dy1 := r1 - p1
  let dy2 := r2 - p2
  let dz0 := r0 - q0
  let dz1 := r1 - q1
  let dz2 := r2 - q2
  let n0 := dx1 * dy2 - dx2 * dy1
  let n1 := dx2 * dy0 - dx0 * dy2
  let n2 := dx0 * dy1 - dx1 * dy0
  let norm := √(n0 ^ 2 + n1 ^ 2 + n2 ^ 2)
  let g ← st.g.set i norm
  let n0 ← cdiv n0 norm
  let n1 ← cdiv n1 norm
  let n2 ← cdiv n2 norm
  let n ← set3 st.n i n0 n1 n2
  let a := √(dx0 ^ 2 + dx1 ^ 2 + dx2 ^ 2)
  let b := √(dy0 ^ 2 + dy1 ^ 2 + dy2 ^ 2)
  let c := √(dz0 ^ 2 + dz1 ^ 2 + dz2 ^ 2)
  let height := 2 * min3 a b c
  let a := a * a
  let b := b * b
  let c := c * c
  let height ← cdiv (√(2 * (a * b + b * c + a * c) - (a * a + b * b + c * c))) height
  pure ⟨n, g, rmin st.hmin height, rmax st.hmax height⟩

/-- surface3d.c:50-107 `prepare_surface3d(gr)` -/
noncomputable def prepare (m : Surf) : R Surf := do
  let st ← forUp 0 m.triangles (prepareTri m) ⟨m.n, m.g, 10 ^ 30, 0⟩
  pure { m with n := st.n, g := st.g, hmin := st.hmin, hmax := st.hmax }

/-- surface3d.c:276-281: first loops of `check_surface3d` (the messages are not modelled) -/
def checkEdges (m : Surf) : R Nat :=
  forUp 0 m.edges (fun i p => forUp 0 2 (fun j p => do
    let a ← m.e.get (2 * i + j)
    pure (if a ≥ m.vertices then p + 1 else p)) p) 0

/-- surface3d.c:284-309: body of the second loops of `check_surface3d` -/
def checkSlot (m : Surf) (i j p : Nat) : R Nat := do
  let a ← m.t.get (3 * i + j)
  let p := if a ≥ m.vertices then p + 1 else p
  let f ← m.s.get (3 * i + j)
  if f ≥ m.edges then pure (p + 1)
  else do
    let e0 ← m.e.get (2 * f)
    let t1 ← m.t.get (3 * i + (j + 1) % 3)
    if e0 = t1 then do
      let e1 ← m.e.get (2 * f + 1)
      let t2 ← m.t.get (3 * i + (j + 2) % 3)
      pure (if e1 ≠ t2 then p + 1 else p)
    else do
      let t2 ← m.t.get (3 * i + (j + 2) % 3)
      if e0 ≠ t2 then pure (p + 1)
      else do
        let e1 ← m.e.get (2 * f + 1)
        pure (if e1 ≠ t1 then p + 1 else p)

/-- surface3d.c:263-312 `check_surface3d(gr)` -/
def check (m : Surf) : R Nat := do
  let p ← checkEdges m
  forUp 0 m.triangles (fun i p => forUp 0 3 (fun j p => checkSlot m i j p) p) p

/-- surface3d.c:314-340 `isclosed_surface3d(gr)` -/
def isclosed (jn : Nat → Nat) (m : Surf) : R Bool := do
  let visits ← forUp 0 m.edges (fun i (v : Arr Nat) => v.set i 0) ⟨m.edges, jn⟩
  let visits ← forUp 0 m.triangles (fun i v => forUp 0 3 (fun j (v : Arr Nat) => do
    let f ← m.s.get (3 * i + j)
    let c ← v.get f
    v.set f (c + 1)) v) visits
  let problems ← forUp 0 m.edges (fun i p => do
    let c ← visits.get i
    pure (if c ≠ 2 then p + 1 else p)) 0
  pure (problems == 0)

/-- surface3d.c:358-371: body of the loops in `isoriented_surface3d` -/
def orientSlot (m : Surf) (i j : Nat) (st : Arr Nat × Arr Int) : R (Arr Nat × Arr Int) := do
  let k ← m.s.get (3 * i + j)
  let c ← st.1.get k
  let visits ← st.1.set k (c + 1)
  let e0 ← m.e.get (2 * k)
  let t1 ← m.t.get (3 * i + (j + 1) % 3)
  if e0 = t1 then do
    let e1 ← m.e.get (2 * k + 1)
    let t2 ← m.t.get (3 * i + (j + 2) % 3)
    cassert (e1 = t2)
    let d ← st.2.get k
    let sv ← st.2.set k (d + 1)
    pure (visits, sv)
  else do
    let t2 ← m.t.get (3 * i + (j + 2) % 3)
    cassert (e0 = t2)
    let e1 ← m.e.get (2 * k + 1)
    cassert (e1 = t1)
    let d ← st.2.get k
    let sv ← st.2.set k (d - 1)
    pure (visits, sv)

/-- surface3d.c:342-383 `isoriented_surface3d(gr)` -/
def isoriented (jn : Nat → Nat) (ji : Nat → Int) (m : Surf) : R Bool := do
  let st ← forUp 0 m.edges (fun i (st : Arr Nat × Arr Int) => do
    let sv ← st.2.set i 0
    let v ← st.1.set i 0
    pure (v, sv)) ((⟨m.edges, jn⟩ : Arr Nat), (⟨m.edges, ji⟩ : Arr Int))
  let st ← forUp 0 m.triangles (fun i st => forUp 0 3 (fun j st => orientSlot m i j st) st) st
  let problems ← forUp 0 m.edges (fun i p => do
    let c ← st.1.get i
    if c > 1 then do
      let d ← st.2.get i
      pure (if d < -1 ∨ d > 1 then p + 1 else p)
    else pure p) 0
  pure (problems == 0)

/-- surface3d.c:394-401: the extent of the surface in coordinate `j` -/
noncomputable def extent (m : Surf) (j : Nat) : R (ℝ × ℝ) :=
  forUp 0 m.vertices (fun i (s : ℝ × ℝ) => do
    let y ← m.x.get (3 * i + j)
    pure (if y < s.1 then y else s.1, if y > s.2 then y else s.2)) (10 ^ 30, -10 ^ 30)

/-- surface3d.c:385-422 `scale_surface3d(gr, a, b)`; `a` and `b` have three entries -/
noncomputable def scale (m : Surf) (a b : Nat → ℝ) : R Surf := do
  let b0 ← extent m 0
  let b1 ← extent m 1
  let b2 ← extent m 2
  let d0 ← cdiv (b0.2 - b0.1) (b 0 - a 0)
  let d1 ← cdiv (b1.2 - b1.1) (b 1 - a 1)
  let d2 ← cdiv (b2.2 - b2.1) (b 2 - a 2)
  let d := if d0 > d1 then (if d0 > d2 then 0 else 2) else (if d1 > d2 then 1 else 2)
  let bd := if d = 0 then b0 else if d = 1 then b1 else b2
  let beta ← cdiv (b d - a d) (bd.2 - bd.1)
  let alpha := a d - beta * bd.1
  let x ← forUp 0 3 (fun j x => forUp 0 m.vertices (fun i (x : Arr ℝ) => do
    let y ← x.get (3 * i + j)
    x.set (3 * i + j) (alpha + beta * y)) x) m.x
  prepare { m with x := x }

/-- surface3d.c:424-438 `translate_surface3d(gr, t)` -/
noncomputable def translate (m : Surf) (t0 t1 t2 : ℝ) : R Surf := do
  let x ← forUp 0 m.vertices (fun i (x : Arr ℝ) => do
    let (y0, y1, y2) ← get3 x i
    set3 x i (y0 + t0) (y1 + t1) (y2 + t2)) m.x
  prepare { m with x := x }

/-- surface3d.c:440-501 `merge_surface3d(gr1, gr2)`; the code copies three entries `e[i][0]`, `e[i][1]`, `e[i][2]` per edge although every edge has two. -/
def merge (pad : Nat) (jx : Nat → ℝ) (jn : Nat → Nat) (m1 m2 : Surf) : R Surf := do
  let r := newSurf pad jx jn (m1.vertices + m2.vertices) (m1.edges + m2.edges) (m1.triangles + m2.triangles)
  let x ← forUp 0 m1.vertices (fun i (x : Arr ℝ) => do
    let (a, b, c) ← get3 m1.x i
    set3 x i a b c) r.x
  let x ← forUp 0 m2.vertices (fun i (x : Arr ℝ) => do
    let (a, b, c) ← get3 m2.x i
    set3 x (i + m1.vertices) a b c) x
  let e ← forUp 0 m1.edges (fun i (e : Arr Nat) => do
    let a ← m1.e.get (2 * i)
    let e ← e.set (2 * i) a
    let b ← m1.e.get (2 * i + 1)
    let e ← e.set (2 * i + 1) b
    let c ← m1.e.get (2 * i + 2)
    e.set (2 * i + 2) c) r.e
  let e ← forUp 0 m2.edges (fun i (e : Arr Nat) => do
    let a ← m2.e.get (2 * i)
    let e ← e.set (2 * (i + m1.edges)) (a + m1.vertices)
    let b ← m2.e.get (2 * i + 1)
    let e ← e.set (2 * (i + m1.edges) + 1) (b + m1.vertices)
    let c ← m2.e.get (2 * i + 2)
    e.set (2 * (i + m1.edges) + 2) (c + m1.vertices)) e
  let st ← forUp 0 m1.triangles (fun i (st : Arr Nat × Arr Nat × Arr ℝ × Arr ℝ) => do
    let (a, b, c) ← get3 m1.t i
    let t ← set3 st.1 i a b c
    let (a, b, c) ← get3 m1.s i
    let s ← set3 st.2.1 i a b c
    let (a, b, c) ← get3 m1.n i
    let n ← set3 st.2.2.1 i a b c
    let a ← m1.g.get i
    let g ← st.2.2.2.set i a
    pure (t, s, n, g)) (r.t, r.s, r.n, r.g)
  let st ← forUp 0 m2.triangles (fun i (st : Arr Nat × Arr Nat × Arr ℝ × Arr ℝ) => do
    let (a, b, c) ← get3 m2.t i
    let t ← set3 st.1 (i + m1.triangles) (a + m1.vertices) (b + m1.vertices) (c + m1.vertices)
    let (a, b, c) ← get3 m2.s i
    let s ← set3 st.2.1 (i + m1.triangles) (a + m1.edges) (b + m1.edges) (c + m1.edges)
    let (a, b, c) ← get3 m2.n i
    let n ← set3 st.2.2.1 (i + m1.triangles) a b c
    let a ← m2.g.get i
    let g ← st.2.2.2.set (i + m1.triangles) a
    pure (t, s, n, g)) st
  pure { r with x := x, e := e, t := st.1, s := st.2.1, n := st.2.2.1, g := st.2.2.2 }

end H2.Surf
