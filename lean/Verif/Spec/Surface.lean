import Verif.Model.Surface
import Mathlib.LinearAlgebra.CrossProduct

/-! # What a consistent surface mesh is (C79, C80) -/

namespace H2.Spec
open H2.Surf

/-- corner `k ∈ {0,1,2}` of triangle `i`: `t[i][k]` -/
def corner (m : Surf) (i k : Nat) : Nat := m.t.v (3 * i + k)
/-- edge `k ∈ {0,1,2}` of triangle `i`: `s[i][k]` -/
def sedge (m : Surf) (i k : Nat) : Nat := m.s.v (3 * i + k)
/-- end point `k ∈ {0,1}` of edge `f`: `e[f][k]` -/
def sendp (m : Surf) (f k : Nat) : Nat := m.e.v (2 * f + k)
/-- coordinates of vertex `v` -/
def spt (m : Surf) (v : Nat) : Fin 3 → ℝ := ![m.x.v (3 * v), m.x.v (3 * v + 1), m.x.v (3 * v + 2)]
/-- stored normal vector of triangle `i` -/
def snormal (m : Surf) (i : Nat) : Fin 3 → ℝ := ![m.n.v (3 * i), m.n.v (3 * i + 1), m.n.v (3 * i + 2)]

/-- the arrays have at least the sizes announced by the three counters -/
structure SurfSized (m : Surf) : Prop where
  x : 3 * m.vertices ≤ m.x.n
  e : 2 * m.edges ≤ m.e.n
  t : 3 * m.triangles ≤ m.t.n
  s : 3 * m.triangles ≤ m.s.n
  n : 3 * m.triangles ≤ m.n.n
  g : m.triangles ≤ m.g.n

/-- the edge `k` of triangle `i` runs from the corner after `k` to the next one -/
def Forward (m : Surf) (i k : Nat) : Prop :=
  sendp m (sedge m i k) 0 = corner m i ((k + 1) % 3) ∧ sendp m (sedge m i k) 1 = corner m i ((k + 2) % 3)

/-- the edge `k` of triangle `i` runs in the opposite direction -/
def Backward (m : Surf) (i k : Nat) : Prop :=
  sendp m (sedge m i k) 0 = corner m i ((k + 2) % 3) ∧ sendp m (sedge m i k) 1 = corner m i ((k + 1) % 3)

/-- consistent surface mesh: all indices are in bounds, and edge `k` of a triangle joins the two corners other than `k` -/
structure SurfOk (m : Surf) : Prop extends SurfSized m where
  ends : ∀ f < m.edges, ∀ k < 2, sendp m f k < m.vertices
  corners : ∀ i < m.triangles, ∀ k < 3, corner m i k < m.vertices
  edges : ∀ i < m.triangles, ∀ k < 3, sedge m i k < m.edges
  match' : ∀ i < m.triangles, ∀ k < 3, Forward m i k ∨ Backward m i k

/-- the corners of every triangle are different -/
def Proper (m : Surf) : Prop := ∀ i < m.triangles, corner m i 0 ≠ corner m i 1 ∧ corner m i 1 ≠ corner m i 2 ∧ corner m i 2 ≠ corner m i 0

/-- number of occurrences of edge `f` in triangles -/
def occurs (m : Surf) (f : Nat) : Nat := ∑ i ∈ Finset.range m.triangles, ∑ k ∈ Finset.range 3, if sedge m i k = f then 1 else 0

open Classical in
/-- number of triangles that run through edge `f` from its first to its second end point -/
noncomputable def forwards (m : Surf) (f : Nat) : Nat :=
  ∑ i ∈ Finset.range m.triangles, ∑ k ∈ Finset.range 3, if sedge m i k = f ∧ Forward m i k then 1 else 0

open Classical in
/-- number of triangles that run through edge `f` in the opposite direction -/
noncomputable def backwards (m : Surf) (f : Nat) : Nat :=
  ∑ i ∈ Finset.range m.triangles, ∑ k ∈ Finset.range 3, if sedge m i k = f ∧ Backward m i k then 1 else 0

/-- closed surface: every edge belongs to exactly two triangles -/
def Closed (m : Surf) : Prop := ∀ f < m.edges, occurs m f = 2

/-- closed and consistently oriented surface: every edge is passed exactly once in each direction -/
def ClosedOriented (m : Surf) : Prop := ∀ f < m.edges, forwards m f = 1 ∧ backwards m f = 1

/-- the cross product of two sides of triangle `i`; its direction is the orientation, its length is twice the area -/
noncomputable def crossTri (m : Surf) (i : Nat) : Fin 3 → ℝ :=
  crossProduct (spt m (corner m i 1) - spt m (corner m i 0)) (spt m (corner m i 2) - spt m (corner m i 0))

/-- Euclidean length -/
noncomputable def len3 (p : Fin 3 → ℝ) : ℝ := √(p ⬝ᵥ p)

/-- the largest height of triangle `i`: twice the area divided by the length of the shortest side -/
noncomputable def height (m : Surf) (i : Nat) : ℝ :=
  len3 (crossTri m i) / min (len3 (spt m (corner m i 1) - spt m (corner m i 0)))
    (min (len3 (spt m (corner m i 2) - spt m (corner m i 0))) (len3 (spt m (corner m i 2) - spt m (corner m i 1))))

/-- The normal vectors, Gram determinants, and mesh widths belong to the triangles. -/
structure Prepared (m : Surf) : Prop where
  unit : ∀ i < m.triangles, snormal m i ⬝ᵥ snormal m i = 1
  gram : ∀ i < m.triangles, 0 < m.g.v i ∧ m.g.v i • snormal m i = crossTri m i
  lower : ∀ i < m.triangles, m.hmin ≤ height m i
  upper : ∀ i < m.triangles, height m i ≤ m.hmax
  bound : m.hmin ≤ 10 ^ 30 ∧ 0 ≤ m.hmax
  hmin : m.hmin = 10 ^ 30 ∨ ∃ i < m.triangles, m.hmin = height m i
  hmax : m.hmax = 0 ∨ ∃ i < m.triangles, m.hmax = height m i

/-- no triangle is degenerate -/
def NonDegenerateSurf (m : Surf) : Prop := ∀ i < m.triangles, crossTri m i ≠ 0

/-- The two surfaces consist of the same edges and triangles. -/
def SameTopology (m r : Surf) : Prop :=
  r.vertices = m.vertices ∧ r.edges = m.edges ∧ r.triangles = m.triangles ∧ r.e = m.e ∧ r.t = m.t ∧ r.s = m.s

/-- `r` consists of a copy of `m1`, followed by a copy of `m2` -/
structure DisjointUnion (m1 m2 r : Surf) : Prop where
  vertices : r.vertices = m1.vertices + m2.vertices
  edges : r.edges = m1.edges + m2.edges
  triangles : r.triangles = m1.triangles + m2.triangles
  pt1 : ∀ v < m1.vertices, spt r v = spt m1 v
  pt2 : ∀ v < m2.vertices, spt r (m1.vertices + v) = spt m2 v
  end1 : ∀ f < m1.edges, ∀ k < 2, sendp r f k = sendp m1 f k
  end2 : ∀ f < m2.edges, ∀ k < 2, sendp r (m1.edges + f) k = m1.vertices + sendp m2 f k
  corner1 : ∀ i < m1.triangles, ∀ k < 3, corner r i k = corner m1 i k
  corner2 : ∀ i < m2.triangles, ∀ k < 3, corner r (m1.triangles + i) k = m1.vertices + corner m2 i k
  edge1 : ∀ i < m1.triangles, ∀ k < 3, sedge r i k = sedge m1 i k
  edge2 : ∀ i < m2.triangles, ∀ k < 3, sedge r (m1.triangles + i) k = m1.edges + sedge m2 i k
  normal1 : ∀ i < m1.triangles, snormal r i = snormal m1 i ∧ r.g.v i = m1.g.v i
  normal2 : ∀ i < m2.triangles, snormal r (m1.triangles + i) = snormal m2 i ∧ r.g.v (m1.triangles + i) = m2.g.v i

end H2.Spec
