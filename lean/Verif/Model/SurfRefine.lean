import Verif.Model.Surface

/-!
# Red refinement of triangulated surfaces (`Library/surface3d.c`)
-/

namespace H2.Surf
open Krylov

/-- state of the main loop of `refine_red_surface3d`: the arrays `gr->e`, `gr->s`, `gr->t` and the counters `e` and `s` -/
structure RedSt where
  ea : Arr Nat
  sa : Arr Nat
  ta : Arr Nat
  e : Nat
  s : Nat

/-- surface3d.c:1508-1513: copy the vertices -/
def redCopy (m : Surf) (x : Arr ℝ) : R (Arr ℝ) :=
  forUp 0 m.vertices (fun v (x : Arr ℝ) => forUp 0 3 (fun j (x : Arr ℝ) => do
    let y ← m.x.get (3 * v + j)
    x.set (3 * v + j) y) x) x

/-- surface3d.c:1514-1524: vertices in the midpoints of edges, and the halves of edges; the state is `gr->x`, `gr->e`, and the counter `v` -/
noncomputable def redEdge (m : Surf) (e : Nat) (st : Arr ℝ × Arr Nat × Nat) : R (Arr ℝ × Arr Nat × Nat) := do
  let v := st.2.2
  let x ← forUp 0 3 (fun j (x : Arr ℝ) => do
    let a ← m.e.get (2 * e)
    let p ← m.x.get (3 * a + j)
    let b ← m.e.get (2 * e + 1)
    let q ← m.x.get (3 * b + j)
    x.set (3 * v + j) (1 / 2 * (p + q))) st.1
  let a ← m.e.get (2 * e)
  let ea ← st.2.1.set (2 * (2 * e)) a
  let ea ← ea.set (2 * (2 * e) + 1) v
  let ea ← ea.set (2 * (2 * e + 1)) v
  let b ← m.e.get (2 * e + 1)
  let ea ← ea.set (2 * (2 * e + 1) + 1) b
  pure (x, ea, v + 1)

/-- surface3d.c:1540-1546 and the three following branches: store the edges of the triangle `s` and read its corners `gr->e[gr->s[s][1]][k1]`, `gr->e[gr->s[s][2]][1]`,
`gr->e[gr->s[s][0]][k0]` -/
def redStore (st : RedSt) (s0 s1 k0 k1 : Nat) : R RedSt := do
  let sa ← set3 st.sa st.s s0 s1 (st.e - 1)
  let p ← st.ea.get (2 * s1 + k1)
  let q ← st.ea.get (2 * (st.e - 1) + 1)
  let r ← st.ea.get (2 * s0 + k0)
  let ta ← set3 st.ta st.s p q r
  pure { st with sa := sa, ta := ta }

/-- surface3d.c:1530-1577: the triangle in the corner opposite to the new edge `j` of triangle `t` -/
def redCorner (m : Surf) (t j : Nat) (st : RedSt) : R RedSt := do
  let f1 ← m.s.get (3 * t + (j + 1) % 3)
  let f0 ← m.s.get (3 * t + j)
  let p ← st.ea.get (2 * (2 * f1 + 1))
  let ea ← st.ea.set (2 * st.e) p
  let q ← ea.get (2 * (2 * f0 + 1))
  let ea ← ea.set (2 * st.e + 1) q
  let st := { st with ea := ea, e := st.e + 1 }
  let a1 ← m.e.get (2 * f1 + 1)
  let b1 ← m.e.get (2 * f0 + 1)
  let a0 ← m.e.get (2 * f1)
  let b0 ← m.e.get (2 * f0)
  let st ← (
    if a1 = b1 then redStore st (2 * f0 + 1) (2 * f1 + 1) 1 0
    else if a0 = b1 then redStore st (2 * f0 + 1) (2 * f1) 1 1
    else if a1 = b0 then redStore st (2 * f0) (2 * f1 + 1) 0 0
    else if a0 = b0 then redStore st (2 * f0) (2 * f1) 0 1
    else throw .abort)
  pure { st with s := st.s + 1 }

/-- surface3d.c:1529-1584: refine triangle `t` -/
def redTri (m : Surf) (t : Nat) (st : RedSt) : R RedSt := do
  let st ← forUp 0 3 (fun j st => redCorner m t j st) st
  let st ← forUp 0 3 (fun i (st : RedSt) => do
    let sa ← st.sa.set (3 * st.s + i) (st.e - 3 + i)
    let p ← st.ea.get (2 * (st.e - 3 + (i + 1) % 3))
    let ta ← st.ta.set (3 * st.s + i) p
    pure { st with sa := sa, ta := ta }) st
  pure { st with s := st.s + 1 }

/-- surface3d.c:1488-1593 `refine_red_surface3d(in)` -/
noncomputable def refineRed (pad : Nat) (jx : Nat → ℝ) (jn : Nat → Nat) (m : Surf) : R Surf := do
  let r := newSurf pad jx jn (m.vertices + m.edges) (2 * m.edges + 3 * m.triangles) (4 * m.triangles)
  let x ← redCopy m r.x
  let st1 ← forUp 0 m.edges (redEdge m) (x, r.e, m.vertices)
  let st ← forUp 0 m.triangles (redTri m) ⟨st1.2.1, r.s, r.t, 2 * m.edges, 0⟩
  cassert (st.s = 4 * m.triangles)
  cassert (st.e = 2 * m.edges + 3 * m.triangles)
  cassert (st1.2.2 = m.vertices + m.edges)
  prepare { r with x := st1.1, e := st.ea, s := st.sa, t := st.ta }

end H2.Surf
