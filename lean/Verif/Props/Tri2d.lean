import Verif.Proof.Tri2dCheck

/-!
# Triangular meshes: `refine_tri2d`, `check_tri2d`, `getvertices_tri2d` (property C51)
-/

namespace H2.Props
open H2.Tri2d H2.Spec

variable {K : Type} [Field K]

/-- C51: `check_tri2d` reports 0 errors iff all numbers are in range, each triangle's edges have three end points, inner edges
have two triangles, boundary edges have one triangle and boundary vertices.  (On a mesh with numbers out of range it reports errors
or reads out of bounds.) -/
theorem C51_check (jn : Nat → Nat) {m : Mesh K} (hs : Sized m) : checkTri2d jn m = .ok 0 ↔ Checked m := check_iff hs jn

/-- C51: the library's check accepts every consistent mesh. -/
theorem C51_consistent_checked (jn : Nat → Nat) {m : Mesh K} (hm : ConsistentMesh m) : checkTri2d jn m = .ok 0 :=
  (check_iff hm.toSized jn).mpr (checked_of_consistent hm)

/-- C51: a mesh without double or degenerate edges that the library's check accepts is consistent. -/
theorem C51_checked_consistent (jn : Nat → Nat) {m : Mesh K} (hs : Sized m) (hsm : Simple m) (h : checkTri2d jn m = .ok 0) : ConsistentMesh m :=
  consistent_of_checked ((check_iff hs jn).mp h) hsm

/-- three edges in a row: 0–1, 1–2, and a loop at vertex 2; one triangle made of them -/
def degenerate : Mesh ℚ where
  vertices := 3
  edges := 3
  triangles := 1
  x := arrOf 0 [0, 0, 1, 0, 0, 1]
  xb := arrOf 0 [1, 1, 1]
  e := arrOf 0 [0, 1, 1, 2, 2, 2]
  eb := arrOf 0 [1, 1, 1]
  t := arrOf 0 [0, 1, 2]

/-- C51 (defect of the check): `check_tri2d` accepts a mesh whose only "triangle" consists of a path and a loop, and refining that mesh
violates an assertion. -/
theorem C51_check_incomplete : ∃ m : Mesh ℚ, (∀ jn, checkTri2d jn m = .ok 0) ∧ ¬ ConsistentMesh m ∧
    ∀ jx jn t2r, refineTri2d jx jn t2r m = .error .assertFail := by
  refine ⟨degenerate, fun jn => rfl, fun h => ?_, fun jx jn t2r => ?_⟩
  · obtain ⟨a, b, c, hC⟩ := h.tri 0 (by decide)
    have h2 := hC.s2
    have h3 := hC.ab
    rcases h2 with ⟨p, q⟩ | ⟨p, q⟩
    · exact h3 (p.symm.trans q)
    · exact h3 (q.symm.trans p)
  · cases t2r <;> rfl

/-- C51: `refine_tri2d` of a consistent mesh succeeds, returns the regular refinement — old vertices kept, a new vertex in the midpoint
of each edge, each edge replaced by its halves, each triangle by four, flags inherited, `nv+ne` vertices, `2ne+3nt` edges, `4nt` triangles —
and the result is again consistent. -/
theorem C51_refine (jx : Nat → K) (jn : Nat → Nat) (t2r : Bool) {m : Mesh K} (hm : ConsistentMesh m) :
    ∃ r f, refineTri2d jx jn t2r m = .ok (r, f) ∧ Refinement m r ∧ ConsistentMesh r ∧ (t2r = true → Fathers m r f) := by
  obtain ⟨⟨r, f⟩, e, hS, hR, hF⟩ := refineTri2d_tot jx jn t2r hm
  exact ⟨r, f, e, hR, hS.consistent hm, hF⟩

/-- C51: any number of refinements: the result exists, is consistent, is accepted by the library's check, and has `4ⁿ nt` triangles. -/
theorem C51_refine_times (jx : Nat → K) (jn : Nat → Nat) (n : Nat) {m : Mesh K} (hm : ConsistentMesh m) :
    ∃ r, refineTimes jx jn n m = .ok r ∧ ConsistentMesh r ∧ checkTri2d jn r = .ok 0 ∧ r.triangles = 4 ^ n * m.triangles ∧
      (r.vertices : ℤ) - r.edges + r.triangles = m.vertices - m.edges + m.triangles := by
  induction n generalizing m with
  | zero => exact ⟨m, rfl, hm, C51_consistent_checked jn hm, by simp, rfl⟩
  | succ n ih =>
    obtain ⟨r, f, e, hR, hc, -⟩ := C51_refine jx jn false hm
    obtain ⟨r', e', hc', hk, ht, hx⟩ := ih hc
    refine ⟨r', ?_, hc', hk, ?_, ?_⟩
    · show (refineTri2d jx jn false m >>= fun r => refineTimes jx jn n r.1) = _
      rw [e]; exact e'
    · rw [ht, hR.triangles, pow_succ, mul_assoc]
    · rw [hx, hR.vertices, hR.edges, hR.triangles]; push_cast; ring

/-- C51: the corners of a triangle as returned by `getvertices_tri2d` are opposite to its edges 0, 1, 2. -/
theorem C51_getvertices {m : Mesh K} (hm : ConsistentMesh m) {i : Nat} (hi : i < m.triangles) (a b c : Nat) :
    getVertices m i = .ok (a, b, c) ↔ Corners m i a b c := by
  constructor
  · intro h
    obtain ⟨a', b', c', hC⟩ := hm.tri i hi
    rw [getVertices_eq hm.toLegal hi hC] at h
    have h' := Except.ok.inj h
    rw [Prod.mk.injEq, Prod.mk.injEq] at h'
    obtain ⟨rfl, rfl, rfl⟩ := h'
    exact hC
  · exact getVertices_eq hm.toLegal hi

/-- C51: the four triangles that replace a triangle have a quarter of its signed area (so the same orientation), they cover exactly the
closed triangle, and, if the triangle is not degenerate, their interiors are disjoint. -/
theorem C51_tiles [LinearOrder K] [IsStrictOrderedRing K] (jx : Nat → K) (jn : Nat → Nat) (t2r : Bool) {m : Mesh K} (hm : ConsistentMesh m)
    {i a b c : Nat} (hi : i < m.triangles) (hv : getVertices m i = .ok (a, b, c)) :
    ∃ (r : Mesh K) (f : Ref) (s : Nat → Nat × Nat × Nat), refineTri2d jx jn t2r m = .ok (r, f) ∧
      (∀ k < 4, getVertices r (4 * i + k) = .ok (s k)) ∧
      (∀ k < 4, 4 * area2 (pt r (s k).1) (pt r (s k).2.1) (pt r (s k).2.2) = area2 (pt m a) (pt m b) (pt m c)) ∧
      (∀ z, InTri (pt m a) (pt m b) (pt m c) z ↔ ∃ k < 4, InTri (pt r (s k).1) (pt r (s k).2.1) (pt r (s k).2.2) z) ∧
      (area2 (pt m a) (pt m b) (pt m c) ≠ 0 → ∀ k < 4, ∀ l < 4, k ≠ l → ∀ z,
        ¬ (InInterior (pt r (s k).1) (pt r (s k).2.1) (pt r (s k).2.2) z ∧ InInterior (pt r (s l).1) (pt r (s l).2.1) (pt r (s l).2.2) z)) := by
  obtain ⟨⟨r, f⟩, e, hS, hR, -⟩ := refineTri2d_tot jx jn t2r hm
  have hC := (C51_getvertices hm hi a b c).mp hv
  have hc : ConsistentMesh r := hS.consistent hm
  obtain ⟨c0, c1, c2, c3⟩ := hR.split i hi a b c hC
  have hr : r.triangles = 4 * m.triangles := hR.triangles
  obtain ⟨la, lb, lc⟩ := Corners.lt hm.toLegal hi hC
  have pm : ∀ f x y, f < m.edges → Joins m f x y → pt r (m.vertices + f) = mid (pt m x) (pt m y) := by
    intro f x y hf hj
    rw [(hR.new f hf).1]
    rcases hj with ⟨p, q⟩ | ⟨p, q⟩
    · rw [p, q]
    · rw [p, q, mid_comm]
  have q0 := pm _ b c (hm.sides i hi 0 (by omega)) hC.s0
  have q1 := pm _ c a (hm.sides i hi 1 (by omega)) hC.s1
  have q2 := pm _ a b (hm.sides i hi 2 (by omega)) hC.s2
  have qa := (hR.old a la).1
  have qb := (hR.old b lb).1
  have qc := (hR.old c lc).1
  let s : Nat → Nat × Nat × Nat := fun k => match k with
    | 0 => (a, m.vertices + side m i 2, m.vertices + side m i 1)
    | 1 => (m.vertices + side m i 2, b, m.vertices + side m i 0)
    | 2 => (m.vertices + side m i 1, m.vertices + side m i 0, c)
    | _ => (m.vertices + side m i 0, m.vertices + side m i 1, m.vertices + side m i 2)
  have hs : ∀ k < 4, (pt r (s k).1, pt r (s k).2.1, pt r (s k).2.2) = part (pt m a) (pt m b) (pt m c) k := by
    intro k hk
    rcases (show k = 0 ∨ k = 1 ∨ k = 2 ∨ k = 3 by omega) with rfl | rfl | rfl | rfl <;> simp only [s, part, q0, q1, q2, qa, qb, qc]
  have hs1 : ∀ k < 4, pt r (s k).1 = (part (pt m a) (pt m b) (pt m c) k).1 := fun k hk => congrArg (·.1) (hs k hk)
  have hs2 : ∀ k < 4, pt r (s k).2.1 = (part (pt m a) (pt m b) (pt m c) k).2.1 := fun k hk => congrArg (·.2.1) (hs k hk)
  have hs3 : ∀ k < 4, pt r (s k).2.2 = (part (pt m a) (pt m b) (pt m c) k).2.2 := fun k hk => congrArg (·.2.2) (hs k hk)
  refine ⟨r, f, s, e, ?_, ?_, ?_, ?_⟩
  · intro k hk
    rcases (show k = 0 ∨ k = 1 ∨ k = 2 ∨ k = 3 by omega) with rfl | rfl | rfl | rfl
    · exact getVertices_eq hc.toLegal (by omega) c0
    · exact getVertices_eq hc.toLegal (by omega) c1
    · exact getVertices_eq hc.toLegal (by omega) c2
    · exact getVertices_eq hc.toLegal (by omega) c3
  · intro k hk
    rw [hs1 k hk, hs2 k hk, hs3 k hk]
    obtain ⟨a0, a1, a2, a3⟩ := area_sub (pt m a) (pt m b) (pt m c)
    rcases (show k = 0 ∨ k = 1 ∨ k = 2 ∨ k = 3 by omega) with rfl | rfl | rfl | rfl
    · exact a0
    · exact a1
    · exact a2
    · exact a3
  · intro z
    rw [tri_cover]
    constructor
    · rintro (h | h | h | h)
      · exact ⟨0, by omega, by rw [hs1 0 (by omega), hs2 0 (by omega), hs3 0 (by omega)]; exact h⟩
      · exact ⟨1, by omega, by rw [hs1 1 (by omega), hs2 1 (by omega), hs3 1 (by omega)]; exact h⟩
      · exact ⟨2, by omega, by rw [hs1 2 (by omega), hs2 2 (by omega), hs3 2 (by omega)]; exact h⟩
      · exact ⟨3, by omega, by rw [hs1 3 (by omega), hs2 3 (by omega), hs3 3 (by omega)]; exact h⟩
    · rintro ⟨k, hk, h⟩
      rw [hs1 k hk, hs2 k hk, hs3 k hk] at h
      rcases (show k = 0 ∨ k = 1 ∨ k = 2 ∨ k = 3 by omega) with rfl | rfl | rfl | rfl
      · exact .inl h
      · exact .inr (.inl h)
      · exact .inr (.inr (.inl h))
      · exact .inr (.inr (.inr h))
  · rintro hA k hk l hl hkl z ⟨h1, h2⟩
    rw [hs1 k hk, hs2 k hk, hs3 k hk] at h1
    rw [hs1 l hl, hs2 l hl, hs3 l hl] at h2
    exact part_disjoint hA hk hl hkl h1 h2

/-! ## The hypotheses are met: the meshes of the library are consistent. -/

/-- `Simple` for lists of end points and sides -/
theorem simple_of {m : Mesh K} (E T : List Nat) (hE : m.e.v = fun i => E.getD i 0) (hT : m.t.v = fun i => T.getD i 0) (ne nt : Nat)
    (hne : m.edges = ne) (hnt : m.triangles = nt)
    (h : (∀ f < ne, E.getD (2 * f) 0 ≠ E.getD (2 * f + 1) 0) ∧
      (∀ f < ne, ∀ g < ne, ((E.getD (2 * f) 0 = E.getD (2 * g) 0 ∧ E.getD (2 * f + 1) 0 = E.getD (2 * g + 1) 0) ∨
        (E.getD (2 * f) 0 = E.getD (2 * g + 1) 0 ∧ E.getD (2 * f + 1) 0 = E.getD (2 * g) 0)) → f = g) ∧
      ∀ i < nt, T.getD (3 * i) 0 ≠ T.getD (3 * i + 1) 0 ∧ T.getD (3 * i + 1) 0 ≠ T.getD (3 * i + 2) 0 ∧
        T.getD (3 * i + 2) 0 ≠ T.getD (3 * i) 0) : Simple m := by
  subst hne hnt
  refine ⟨?_, ?_, ?_⟩
  · simp only [endp, hE]; exact h.1
  · simp only [Joins, endp, hE]; exact h.2.1
  · simp only [side, hT]; exact h.2.2

set_option maxRecDepth 20000 in
/-- C51: the built-in meshes are consistent. -/
theorem C51_builtin : ConsistentMesh (newUnitsquare : Mesh K) ∧ ConsistentMesh (newUnitcircle : Mesh K) ∧ ConsistentMesh (newLshape : Mesh K) ∧
    ConsistentMesh (newUshape : Mesh K) := by
  exact ⟨C51_checked_consistent (fun _ => 0) ⟨rfl, rfl, rfl, rfl, rfl⟩ (simple_of _ _ rfl rfl 5 2 rfl rfl (by decide)) rfl,
    C51_checked_consistent (fun _ => 0) ⟨rfl, rfl, rfl, rfl, rfl⟩ (simple_of _ _ rfl rfl 8 4 rfl rfl (by decide)) rfl,
    C51_checked_consistent (fun _ => 0) ⟨rfl, rfl, rfl, rfl, rfl⟩ (simple_of _ _ rfl rfl 13 6 rfl rfl (by decide +kernel)) rfl,
    C51_checked_consistent (fun _ => 0) ⟨rfl, rfl, rfl, rfl, rfl⟩ (simple_of _ _ rfl rfl 46 24 rfl rfl (by decide +kernel)) rfl⟩

example (jx : Nat → K) (jn : Nat → Nat) (n : Nat) : ∃ r, refineTimes jx jn n (newLshape : Mesh K) = .ok r ∧ ConsistentMesh r ∧ r.triangles = 4 ^ n * 6 := by
  obtain ⟨r, h1, h2, -, h3, -⟩ := C51_refine_times jx jn n (C51_builtin (K := K)).2.2.1
  exact ⟨r, h1, h2, h3⟩

end H2.Props
