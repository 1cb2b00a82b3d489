import Verif.Proof.Tri2dBuild2
import Verif.Props.Tri2d

/-!
# Construction of triangular meshes: `tri2dbuilder`, `fixnormals_tri2d` (property C55)
-/

namespace H2.Props
open H2.Tri2d H2.Spec

variable {K : Type} [Field K] [LinearOrder K] [IsStrictOrderedRing K]

/-- C55: adding any list of triangles (three different existing vertices each) to a new builder and calling `buildmesh_tri2dbuilder` succeeds if no two
vertices are in more than two triangles; the result is a consistent mesh without double edges that has exactly the given vertices and triangles, with the
corners in the given order, exact boundary flags, and boundary edges oriented counter-clockwise. -/
theorem C55_build (jx : Nat → K) (jn : Nat → Nat) (je : Nat → Entry) (vertices : Nat) (x : Nat → K) {ts : List (Nat × Nat × Nat)}
    (ht : Triples vertices ts) (h2 : AtMostTwo ts) :
    ∃ r, (addTriangles (newBuilder je vertices x) ts >>= buildMesh jx jn) = .ok r ∧
      ConsistentMesh r ∧ Simple r ∧ Oriented r ∧ Built vertices x ts r ∧ checkTri2d jn r = .ok 0 ∧
      ∀ i (h : i < ts.length), getVertices r i = .ok ts[i] := by
  rcases build_result jx jn je vertices x ht with ⟨-, h⟩ | ⟨r, e, h1, h3, h4, h5⟩
  · exact absurd h2 h
  · refine ⟨r, e, h1, h3, h4, h5, C51_consistent_checked jn h1, fun i hi => ?_⟩
    exact (C51_getvertices h1 (by rw [h5.nt]; exact hi) _ _ _).mpr (h5.corners i hi)

/-- C55: if two vertices are in more than two triangles, an assertion fails in `buildmesh_tri2dbuilder` (and nothing worse happens). -/
theorem C55_build_rejects (jx : Nat → K) (jn : Nat → Nat) (je : Nat → Entry) (vertices : Nat) (x : Nat → K) {ts : List (Nat × Nat × Nat)}
    (ht : Triples vertices ts) (h2 : ¬ AtMostTwo ts) :
    (∃ b, addTriangles (newBuilder je vertices x) ts = .ok b ∧ buildMesh jx jn b = .error .assertFail) := by
  obtain ⟨b, e, ⟨g, h⟩, hv, hx⟩ := addTriangles_tot ts [] _ _ (newBuilder_inv je vertices x) ht
  refine ⟨b, e, ?_⟩
  have hB := build_result jx jn je vertices x ht
  rw [e, ok_bind] at hB
  rcases hB with ⟨h', -⟩ | ⟨r, e', h1, -, -, h5⟩
  · exact h'
  · -- the result would be a mesh with an edge in more than two triangles
    exfalso
    rw [List.nil_append] at h
    have hv' : b.vertices = vertices := hv
    have ht' : Triples b.vertices ts := by rw [hv']; exact ht
    rcases buildMesh_raw jx jn h (by rw [hx, hv']; rfl) (fun _ => AtMostTwo ts) (fun m hm =>
      Tot.mono (fixNormals_tot (hm.consistent h ht')) (fun _ _ => (atMostTwo_iff h ht').mpr hm.two)) with ⟨h', -⟩ | ⟨r', e'', h'⟩
    · rw [e'] at h'; cases h'
    · exact h2 h'

/-- C55: `fixnormals_tri2d` on a consistent mesh only reverses boundary edges; afterwards each of them has its triangle on its left. -/
theorem C55_fixnormals {m : Mesh K} (hm : ConsistentMesh m) :
    ∃ r, fixNormals m = .ok r ∧ ConsistentMesh r ∧ Oriented r ∧ SameUpToDirection m r := fixNormals_tot hm

/-- C55: refinement keeps the orientation of the boundary. -/
theorem C55_refine_oriented (jx : Nat → K) (jn : Nat → Nat) (t2r : Bool) {m : Mesh K} (hm : ConsistentMesh m) (ho : Oriented m) :
    ∃ r f, refineTri2d jx jn t2r m = .ok (r, f) ∧ ConsistentMesh r ∧ Oriented r := by
  obtain ⟨⟨r, f⟩, e, hS, hR, -⟩ := refineTri2d_tot jx jn t2r hm
  exact ⟨r, f, e, hS.consistent hm, oriented_refine hS hR hm ho⟩

/-! ## Non-vacuity -/

/-- two triangles forming a square -/
def squareTriangles : List (Nat × Nat × Nat) := [(0, 1, 2), (3, 2, 1)]

theorem square_triples : Triples 4 squareTriangles := by unfold Triples squareTriangles; decide

theorem count_le_length {ts : List (Nat × Nat × Nat)} (h : ts.length ≤ 2) : AtMostTwo ts := fun _ _ _ => List.countP_le_length.trans h

example (jx : Nat → ℚ) (jn : Nat → Nat) (je : Nat → Entry) (x : Nat → ℚ) :
    ∃ r, (addTriangles (newBuilder je 4 x) squareTriangles >>= buildMesh jx jn) = .ok r ∧ ConsistentMesh r ∧ r.triangles = 2 ∧
      getVertices r 1 = .ok (3, 2, 1) := by
  obtain ⟨r, e, h1, -, -, h5, -, h7⟩ := C55_build jx jn je 4 x square_triples (count_le_length (by decide))
  exact ⟨r, e, h1, h5.nt, h7 1 (by decide)⟩

/-- three triangles at one edge -/
def bookTriangles : List (Nat × Nat × Nat) := [(0, 1, 2), (0, 1, 3), (1, 0, 4)]

example : Triples 5 bookTriangles ∧ ¬ AtMostTwo bookTriangles := by
  refine ⟨by unfold Triples bookTriangles; decide, fun h => ?_⟩
  have := h 0 1 (by decide)
  revert this; decide

end H2.Props
