import Verif.Model.Tri2d
import Mathlib.Algebra.Order.Field.Basic
import Mathlib.Data.Finset.Prod

/-!
# What a consistent triangular mesh is

Written in terms of the numbers stored in the mesh only: end points of edges, edges of triangles, boundary flags, coordinates.
-/

namespace H2.Spec
open H2.Tri2d
variable {K : Type}

/-- end point `k ∈ {0,1}` of edge `i`: `e[i][k]` -/
def endp (m : Mesh K) (i k : Nat) : Nat := m.e.v (2 * i + k)
/-- edge `k ∈ {0,1,2}` of triangle `i`: `t[i][k]` -/
def side (m : Mesh K) (i k : Nat) : Nat := m.t.v (3 * i + k)
/-- coordinates of vertex `i` -/
def pt (m : Mesh K) (i : Nat) : K × K := (m.x.v (2 * i), m.x.v (2 * i + 1))

/-- the five arrays have the sizes announced by the three counters -/
structure Sized (m : Mesh K) : Prop where
  x : m.x.n = 2 * m.vertices
  e : m.e.n = 2 * m.edges
  t : m.t.n = 3 * m.triangles
  xb : m.xb.n = m.vertices
  eb : m.eb.n = m.edges

/-- edge `f` joins the vertices `a` and `b`, in one of the two directions -/
def Joins (m : Mesh K) (f a b : Nat) : Prop :=
  (endp m f 0 = a ∧ endp m f 1 = b) ∨ (endp m f 0 = b ∧ endp m f 1 = a)

/-- triangle `i` has the three different corners `a`, `b`, `c`, and its edges 0, 1, 2 are the sides opposite to `a`, `b`, `c` -/
structure Corners (m : Mesh K) (i a b c : Nat) : Prop where
  ab : a ≠ b
  bc : b ≠ c
  ca : c ≠ a
  s0 : Joins m (side m i 0) b c
  s1 : Joins m (side m i 1) c a
  s2 : Joins m (side m i 2) a b

/-- number of occurrences of edge `f` in triangles -/
def incidences (m : Mesh K) (f : Nat) : Nat :=
  ((Finset.range m.triangles ×ˢ Finset.range 3).filter (fun p => side m p.1 p.2 = f)).card

/-- every number stored in the mesh refers to something that exists -/
structure Legal (m : Mesh K) : Prop extends Sized m where
  ends : ∀ i < m.edges, ∀ k < 2, endp m i k < m.vertices
  sides : ∀ i < m.triangles, ∀ k < 3, side m i k < m.edges

/-- inner edges (flag 0) belong to two triangles, boundary edges (flag 1) to one, and the latter have boundary vertices -/
structure BoundaryOk (m : Mesh K) : Prop where
  inner : ∀ i < m.edges, m.eb.v i = 0 → incidences m i = 2
  outer : ∀ i < m.edges, m.eb.v i = 1 → incidences m i = 1
  flags : ∀ i < m.edges, m.eb.v i = 1 → m.xb.v (endp m i 0) ≠ 0 ∧ m.xb.v (endp m i 1) ≠ 0

/-- consistent triangulation -/
structure ConsistentMesh (m : Mesh K) : Prop extends Legal m, BoundaryOk m where
  tri : ∀ i < m.triangles, ∃ a b c, Corners m i a b c

/-- what `check_tri2d` tests: like `ConsistentMesh`, but of a triangle only that its edges have three end points altogether -/
structure Checked (m : Mesh K) : Prop extends Legal m, BoundaryOk m where
  three : ∀ i < m.triangles, (((Finset.range 3).biUnion fun k => {endp m (side m i k) 0, endp m (side m i k) 1}) : Finset Nat).card = 3

/-- no two edges join the same two vertices, no edge joins a vertex with itself, the edges of a triangle are different -/
structure Simple (m : Mesh K) : Prop where
  proper : ∀ f < m.edges, endp m f 0 ≠ endp m f 1
  once : ∀ f < m.edges, ∀ g < m.edges, Joins m f (endp m g 0) (endp m g 1) → f = g
  sides : ∀ i < m.triangles, side m i 0 ≠ side m i 1 ∧ side m i 1 ≠ side m i 2 ∧ side m i 2 ≠ side m i 0

/-- two different triangles have at most one common edge -/
def OneShared (m : Mesh K) : Prop :=
  ∀ i < m.triangles, ∀ j < m.triangles, i ≠ j →
    ∀ k < 3, ∀ l < 3, ∀ k' < 3, ∀ l' < 3, side m i k = side m j l → side m i k' = side m j l' → side m i k = side m i k'

/-- the midpoint of two points -/
def mid [Field K] (p q : K × K) : K × K := ((p.1 + q.1) / 2, (p.2 + q.2) / 2)

/-- `r` is the regular refinement of `m`: the vertices of `m` are kept, the midpoint of edge `j` is the new vertex
`vertices + j`, edge `j` is replaced by the edges `2j`, `2j+1` that join it to the end points, each triangle is replaced by
three triangles in the corners and one in the middle, and the boundary flags are inherited -/
structure Refinement [Field K] (m r : Mesh K) : Prop where
  vertices : r.vertices = m.vertices + m.edges
  edges : r.edges = 2 * m.edges + 3 * m.triangles
  triangles : r.triangles = 4 * m.triangles
  old : ∀ j < m.vertices, pt r j = pt m j ∧ r.xb.v j = m.xb.v j
  new : ∀ j < m.edges, pt r (m.vertices + j) = mid (pt m (endp m j 0)) (pt m (endp m j 1)) ∧ r.xb.v (m.vertices + j) = m.eb.v j
  half0 : ∀ j < m.edges, endp r (2 * j) 0 = endp m j 0 ∧ endp r (2 * j) 1 = m.vertices + j ∧ r.eb.v (2 * j) = m.eb.v j
  half1 : ∀ j < m.edges, endp r (2 * j + 1) 0 = m.vertices + j ∧ endp r (2 * j + 1) 1 = endp m j 1 ∧ r.eb.v (2 * j + 1) = m.eb.v j
  inside : ∀ f, 2 * m.edges ≤ f → f < r.edges → r.eb.v f = 0
  split : ∀ i < m.triangles, ∀ a b c, Corners m i a b c →
    Corners r (4 * i) a (m.vertices + side m i 2) (m.vertices + side m i 1) ∧
    Corners r (4 * i + 1) (m.vertices + side m i 2) b (m.vertices + side m i 0) ∧
    Corners r (4 * i + 2) (m.vertices + side m i 1) (m.vertices + side m i 0) c ∧
    Corners r (4 * i + 3) (m.vertices + side m i 0) (m.vertices + side m i 1) (m.vertices + side m i 2)

/-- father relation returned by the refinement: type 0/1/2 of the father is vertex/edge/triangle -/
structure Fathers (m r : Mesh K) (f : Ref) : Prop where
  old : ∀ j < m.vertices, f.xt.v j = 0 ∧ f.xf.v j = j
  new : ∀ j < m.edges, f.xt.v (m.vertices + j) = 1 ∧ f.xf.v (m.vertices + j) = j
  half : ∀ j < m.edges, ∀ k < 2, f.et.v (2 * j + k) = 1 ∧ f.ef.v (2 * j + k) = j
  inside : ∀ i < m.triangles, ∀ k < 3, f.et.v (2 * m.edges + 3 * i + k) = 2 ∧ f.ef.v (2 * m.edges + 3 * i + k) = i
  tri : ∀ i < m.triangles, ∀ k < 4, f.tf.v (4 * i + k) = i
  sizes : f.xf.n = r.vertices ∧ f.xt.n = r.vertices ∧ f.ef.n = r.edges ∧ f.et.n = r.edges ∧ f.tf.n = r.triangles

/-- twice the signed area of the triangle `p q r` (positive: counter-clockwise) -/
def area2 [Field K] (p q r : K × K) : K := (q.1 - p.1) * (r.2 - p.2) - (q.2 - p.2) * (r.1 - p.1)

/-- `z` is in the closed triangle `p q r` -/
def InTri [Field K] [LinearOrder K] (p q r z : K × K) : Prop :=
  ∃ u v w : K, 0 ≤ u ∧ 0 ≤ v ∧ 0 ≤ w ∧ u + v + w = 1 ∧
    z.1 = u * p.1 + v * q.1 + w * r.1 ∧ z.2 = u * p.2 + v * q.2 + w * r.2

/-- `z` is in the interior of the triangle `p q r` -/
def InInterior [Field K] [LinearOrder K] (p q r z : K × K) : Prop :=
  ∃ u v w : K, 0 < u ∧ 0 < v ∧ 0 < w ∧ u + v + w = 1 ∧
    z.1 = u * p.1 + v * q.1 + w * r.1 ∧ z.2 = u * p.2 + v * q.2 + w * r.2

end H2.Spec

namespace H2.Spec
open H2.Tri2d
variable {K : Type}

/-- every boundary edge runs counter-clockwise around the triangle it belongs to: the opposite corner is on its left (or on its line) -/
def Oriented [Field K] [LinearOrder K] (m : Mesh K) : Prop :=
  ∀ i < m.triangles, ∀ a b c, Corners m i a b c →
    (m.eb.v (side m i 0) = 1 → 0 ≤ area2 (pt m (endp m (side m i 0) 0)) (pt m (endp m (side m i 0) 1)) (pt m a)) ∧
    (m.eb.v (side m i 1) = 1 → 0 ≤ area2 (pt m (endp m (side m i 1) 0)) (pt m (endp m (side m i 1) 1)) (pt m b)) ∧
    (m.eb.v (side m i 2) = 1 → 0 ≤ area2 (pt m (endp m (side m i 2) 0)) (pt m (endp m (side m i 2) 1)) (pt m c))

/-- `r` is `m` up to the direction of edges with a boundary flag -/
structure SameUpToDirection (m r : Mesh K) : Prop where
  same : r.vertices = m.vertices ∧ r.edges = m.edges ∧ r.triangles = m.triangles ∧ r.x = m.x ∧ r.t = m.t ∧ r.xb = m.xb ∧ r.eb = m.eb
  dir : ∀ f < m.edges, (endp r f 0 = endp m f 0 ∧ endp r f 1 = endp m f 1) ∨
    (m.eb.v f ≠ 0 ∧ endp r f 0 = endp m f 1 ∧ endp r f 1 = endp m f 0)

/-- the triangle `t` has the vertices `u` and `v` -/
def HasEdge (t : Nat × Nat × Nat) (u v : Nat) : Prop := (u = t.1 ∨ u = t.2.1 ∨ u = t.2.2) ∧ (v = t.1 ∨ v = t.2.1 ∨ v = t.2.2)

instance (t : Nat × Nat × Nat) (u v : Nat) : Decidable (HasEdge t u v) := by unfold HasEdge; infer_instance

/-- a list of triangles given by three different vertices each -/
def Triples (vertices : Nat) (ts : List (Nat × Nat × Nat)) : Prop :=
  ∀ t ∈ ts, t.1 < vertices ∧ t.2.1 < vertices ∧ t.2.2 < vertices ∧ t.1 ≠ t.2.1 ∧ t.2.1 ≠ t.2.2 ∧ t.2.2 ≠ t.1

/-- no two different vertices occur together in more than two triangles -/
def AtMostTwo (ts : List (Nat × Nat × Nat)) : Prop := ∀ u v, u ≠ v → ts.countP (fun t => decide (HasEdge t u v)) ≤ 2

end H2.Spec

namespace H2.Spec
open H2.Tri2d
variable {K : Type}

/-- `r` is the mesh with the given vertices and triangles: triangle `i` has the given corners in the given order, an edge is flagged iff only one
triangle has it, a vertex is flagged iff it belongs to a flagged edge -/
structure Built (vertices : Nat) (x : Nat → K) (ts : List (Nat × Nat × Nat)) (r : Mesh K) : Prop where
  nv : r.vertices = vertices
  nt : r.triangles = ts.length
  points : ∀ v < vertices, pt r v = (x (2 * v), x (2 * v + 1))
  corners : ∀ i (h : i < ts.length), Corners r i ts[i].1 ts[i].2.1 ts[i].2.2
  edgeFlag1 : ∀ f < r.edges, r.eb.v f = 1 ↔ ts.countP (fun t => decide (HasEdge t (endp r f 0) (endp r f 1))) = 1
  edgeFlag0 : ∀ f < r.edges, r.eb.v f = 0 ↔ ts.countP (fun t => decide (HasEdge t (endp r f 0) (endp r f 1))) = 2
  vertexFlag1 : ∀ v < vertices, r.xb.v v = 1 ↔ ∃ u, u ≠ v ∧ ts.countP (fun t => decide (HasEdge t u v)) = 1
  vertexFlag0 : ∀ v < vertices, r.xb.v v = 0 ↔ ¬ ∃ u, u ≠ v ∧ ts.countP (fun t => decide (HasEdge t u v)) = 1

end H2.Spec
