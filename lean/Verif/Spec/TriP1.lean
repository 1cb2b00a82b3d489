import Verif.Model.TriP1
import Verif.Spec.Sparse
import Verif.Spec.Tri2d
import Mathlib.MeasureTheory.Integral.IntervalIntegral.Basic
import Mathlib.Logic.Relation

/-! Specifications for piecewise linear finite elements (C77): nodal basis functions, gradients, integrals over triangles. -/

namespace H2.Spec
open H2.Tri2d

/-- the values of the nodal basis function of the vertex `v` in the vertices -/
def hat (v w : Nat) : ℝ := if w = v then 1 else 0

/-- the corners of the triangles -/
def CornersAll (m : Mesh ℝ) (c : Nat → Nat × Nat × Nat) : Prop := ∀ d < m.triangles, Corners m d (c d).1 (c d).2.1 (c d).2.2

/-- `v` is a corner of the triangle `d` -/
def IsCorner (m : Mesh ℝ) (d v : Nat) : Prop := ∃ k < 3, ∃ l < 2, endp m (side m d k) l = v

/-- `v` and `w` are corners of the same triangle -/
def Neighbours (m : Mesh ℝ) (v w : Nat) : Prop := ∃ d < m.triangles, IsCorner m d v ∧ IsCorner m d w

/-- the vertices that are not on the boundary -/
def innerV (m : Mesh ℝ) : Set Nat := {v | v < m.vertices ∧ m.xb.v v = 0}
/-- the vertices on the boundary -/
def fixedV (m : Mesh ℝ) : Set Nat := {v | v < m.vertices ∧ m.xb.v v ≠ 0}

/-- The inner vertices are the degrees of freedom, inner vertices and fixed vertices are numbered consecutively. -/
structure Numbered (m : Mesh ℝ) (dc : P1.Disc) : Prop where
  mesh : dc.t2 = m
  nd : dc.isDof.n = m.vertices
  ni : dc.idx.n = m.vertices
  isDof : ∀ v < m.vertices, (dc.isDof.v v = true ↔ m.xb.v v = 0)
  dofs : Set.BijOn dc.idx.v (innerV m) (Set.Iio dc.ndof)
  fixs : Set.BijOn dc.idx.v (fixedV m) (Set.Iio dc.nfix)

/-- `g` is the gradient of the affine function with the values `u0`, `u1`, `u2` in `p`, `q`, `r` -/
def IsGrad (p q r : ℝ × ℝ) (u0 u1 u2 : ℝ) (g : ℝ × ℝ) : Prop :=
  g.1 * (q.1 - p.1) + g.2 * (q.2 - p.2) = u1 - u0 ∧ g.1 * (r.1 - p.1) + g.2 * (r.2 - p.2) = u2 - u0

/-- the triangles of a mesh as points -/
def tp0 (m : Mesh ℝ) (c : Nat → Nat × Nat × Nat) (d : Nat) : ℝ × ℝ := pt m (c d).1
def tp1 (m : Mesh ℝ) (c : Nat → Nat × Nat × Nat) (d : Nat) : ℝ × ℝ := pt m (c d).2.1
def tp2 (m : Mesh ℝ) (c : Nat → Nat × Nat × Nat) (d : Nat) : ℝ × ℝ := pt m (c d).2.2

/-- the area of the triangle `d` -/
noncomputable def triArea (m : Mesh ℝ) (c : Nat → Nat × Nat × Nat) (d : Nat) : ℝ := |area2 (tp0 m c d) (tp1 m c d) (tp2 m c d)| / 2

/-- no triangle has area zero -/
def NonDegenerate (m : Mesh ℝ) (c : Nat → Nat × Nat × Nat) : Prop := ∀ d < m.triangles, area2 (tp0 m c d) (tp1 m c d) (tp2 m c d) ≠ 0

/-- `g d` is the gradient, in the triangle `d`, of the continuous piecewise linear function with the values `u` in the vertices -/
def GradOf (m : Mesh ℝ) (c : Nat → Nat × Nat × Nat) (u : Nat → ℝ) (g : Nat → ℝ × ℝ) : Prop :=
  ∀ d < m.triangles, IsGrad (tp0 m c d) (tp1 m c d) (tp2 m c d) (u (c d).1) (u (c d).2.1) (u (c d).2.2) (g d)

/-- the integral of the product of two gradients -/
noncomputable def gradInt (m : Mesh ℝ) (c : Nat → Nat × Nat × Nat) (g h : Nat → ℝ × ℝ) : ℝ :=
  ∑ d ∈ Finset.range m.triangles, triArea m c d * ((g d).1 * (h d).1 + (g d).2 * (h d).2)

/-- the point of the triangle `p q r` with the coordinates `(s, t)` in the reference triangle -/
def refPt (p q r : ℝ × ℝ) (s t : ℝ) : ℝ × ℝ := (p.1 + s * (q.1 - p.1) + t * (r.1 - p.1), p.2 + s * (q.2 - p.2) + t * (r.2 - p.2))

/-- the value of the piecewise linear function with the values `u` in the vertices, in the triangle `d` -/
def linAt (c : Nat → Nat × Nat × Nat) (u : Nat → ℝ) (d : Nat) (s t : ℝ) : ℝ := (1 - s - t) * u (c d).1 + s * u (c d).2.1 + t * u (c d).2.2

/-- the integral over all triangles, by transformation to the reference triangle `{(s, t) : s, t ≥ 0, s + t ≤ 1}` -/
noncomputable def meshInt (m : Mesh ℝ) (c : Nat → Nat × Nat × Nat) (F : Nat → ℝ → ℝ → ℝ) : ℝ :=
  ∑ d ∈ Finset.range m.triangles, |area2 (tp0 m c d) (tp1 m c d) (tp2 m c d)| * ∫ s in (0 : ℝ)..1, ∫ t in (0 : ℝ)..(1 - s), F d s t

/-- the edge midpoint quadrature rule in all triangles -/
noncomputable def midInt (m : Mesh ℝ) (c : Nat → Nat × Nat × Nat) (F : Nat → ℝ → ℝ → ℝ) : ℝ :=
  ∑ d ∈ Finset.range m.triangles, triArea m c d / 3 * (F d (1 / 2) 0 + F d 0 (1 / 2) + F d (1 / 2) (1 / 2))

/-- the values in the vertices that correspond to a vector for the degrees of freedom and one for the fixed vertices (null pointer: zero) -/
def valuesOf (dc : P1.Disc) (b bf : Option (Arr ℝ)) (v : Nat) : ℝ :=
  match (if dc.isDof.v v then b else bf) with
  | none => 0
  | some a => a.v (dc.idx.v v)

/-- the sparse matrix `A` has a row for each degree of freedom and a position for each of its neighbours in `ws` -/
structure PatternFor (m : Mesh ℝ) (dc : P1.Disc) (ws : Set Nat) (A : Sparse ℝ) : Prop where
  csr : CSR A
  rows : A.rows = dc.ndof
  pos : ∀ v ∈ innerV m, ∀ w ∈ ws, Neighbours m v w → HasPos A (dc.idx.v v) (dc.idx.v w)

/-- `B` has the same positions as `A`, and `form v w` has been added for the degree of freedom `v` and the vertex `w ∈ ws` -/
structure FormAdded (m : Mesh ℝ) (dc : P1.Disc) (ws : Set Nat) (form : Nat → Nat → ℝ) (A B : Sparse ℝ) : Prop where
  csr : CSR B
  rows : B.rows = A.rows
  cols : B.cols = A.cols
  pos : ∀ i j, HasPos B i j ↔ HasPos A i j
  entries : ∀ v ∈ innerV m, ∀ w ∈ ws, entry B (dc.idx.v v) (dc.idx.v w) = entry A (dc.idx.v v) (dc.idx.v w) + form v w

/-- the function with the values `x` in the degrees of freedom and zero in the fixed vertices -/
def dofFun (dc : P1.Disc) (x : Nat → ℝ) (v : Nat) : ℝ := if dc.isDof.v v then x (dc.idx.v v) else 0

/-- one step to a corner of the same triangle -/
def Linked (m : Mesh ℝ) : Nat → Nat → Prop := Relation.ReflTransGen (Neighbours m)

/-- the value of a piecewise linear function in the vertices of the regular refinement: the old vertices and the midpoints of the edges -/
noncomputable def prolonged (m : Mesh ℝ) (u : Nat → ℝ) (v : Nat) : ℝ :=
  if v < m.vertices then u v else (u (endp m (v - m.vertices) 0) + u (endp m (v - m.vertices) 1)) / 2

/-- the entries of a product `Pᵀ A P` -/
noncomputable def tripleProduct (n : Nat) (P A : Sparse ℝ) (i j : Nat) : ℝ :=
  ∑ k ∈ Finset.range n, ∑ l ∈ Finset.range n, entry P k i * entry P l j * entry A k l

end H2.Spec
