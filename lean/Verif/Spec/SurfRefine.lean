import Verif.Spec.Surface
import Verif.Model.SurfRefine

/-! # Red refinement of surfaces (C80) -/

namespace H2.Spec
open H2.Surf

/-- the half of edge `f` that contains the vertex `c`: halves of `f` are the edges `2f` (with the first end point) and `2f+1` (with the second) -/
def half (m : Surf) (f c : Nat) : Nat := if sendp m f 1 = c then 2 * f + 1 else 2 * f

/-- `r` is the red refinement of `m`: the midpoint of edge `f` is the new vertex `vertices + f`, every edge is split into two, every triangle `i` into the corner triangles
`4i`, `4i+1`, `4i+2` and the inner triangle `4i+3`. -/
structure RedRefined (m r : Surf) : Prop where
  vertices : r.vertices = m.vertices + m.edges
  edges : r.edges = 2 * m.edges + 3 * m.triangles
  triangles : r.triangles = 4 * m.triangles
  old : ∀ v < m.vertices, spt r v = spt m v
  mids : ∀ f < m.edges, spt r (m.vertices + f) = (1 / 2 : ℝ) • (spt m (sendp m f 0) + spt m (sendp m f 1))
  half0 : ∀ f < m.edges, sendp r (2 * f) 0 = sendp m f 0 ∧ sendp r (2 * f) 1 = m.vertices + f
  half1 : ∀ f < m.edges, sendp r (2 * f + 1) 0 = m.vertices + f ∧ sendp r (2 * f + 1) 1 = sendp m f 1
  inner : ∀ i < m.triangles, ∀ j < 3, sendp r (2 * m.edges + (3 * i + j)) 0 = m.vertices + sedge m i ((j + 1) % 3) ∧
    sendp r (2 * m.edges + (3 * i + j)) 1 = m.vertices + sedge m i j
  cornerTri : ∀ i < m.triangles, ∀ j < 3, corner r (4 * i + j) 0 = m.vertices + sedge m i ((j + 1) % 3) ∧ corner r (4 * i + j) 1 = m.vertices + sedge m i j ∧
    corner r (4 * i + j) 2 = corner m i ((j + 2) % 3)
  cornerEdge : ∀ i < m.triangles, ∀ j < 3, sedge r (4 * i + j) 0 = half m (sedge m i j) (corner m i ((j + 2) % 3)) ∧
    sedge r (4 * i + j) 1 = half m (sedge m i ((j + 1) % 3)) (corner m i ((j + 2) % 3)) ∧ sedge r (4 * i + j) 2 = 2 * m.edges + (3 * i + j)
  midTri : ∀ i < m.triangles, ∀ k < 3, corner r (4 * i + 3) k = m.vertices + sedge m i ((k + 2) % 3) ∧ sedge r (4 * i + 3) k = 2 * m.edges + (3 * i + k)

/-- a user calling `refine_red_surface3d` a number of times -/
noncomputable def refineTimes (pad : Nat) (jx : Nat → ℝ) (jn : Nat → Nat) : Nat → Surf → R Surf
  | 0, m => pure m
  | n + 1, m => do refineTimes pad jx jn n (← refineRed pad jx jn m)

end H2.Spec
