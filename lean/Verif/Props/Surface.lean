import Verif.Proof.Surface5

/-!
# C79: triangulated surfaces (`Library/surface3d.c`)

Vocabulary: `Verif/Spec/Surface.lean`.  The quantities prepared for every triangle (unit normal, Gram determinant), the mesh widths, the checking functions,
and the transformations of surfaces.
-/

namespace H2.Props
open Surf Spec

/-- `check_surface3d` reports no problem if and only if all indices are in bounds and edge `k` of every triangle joins the corners other than `k`. -/
theorem C79_check (m : Surf) (hs : SurfSized m) : ∃ p, check m = .ok p ∧ (p = 0 ↔ SurfOk m) := check_tot hs

/-- `isclosed_surface3d` answers whether every edge belongs to exactly two triangles. -/
theorem C79_closed (m : Surf) (hs : SurfSized m) (he : ∀ i < m.triangles, ∀ k < 3, sedge m i k < m.edges) (jn : Nat → Nat) :
    ∃ b, isclosed jn m = .ok b ∧ (b = true ↔ Closed m) := isclosed_tot hs he jn

/-- `isoriented_surface3d` answers whether, for every edge belonging to more than one triangle, the numbers of passages in both directions differ by at most one.
No assertion of the function fails for a consistent mesh. -/
theorem C79_oriented (m : Surf) (hm : SurfOk m) (hp : Proper m) (jn : Nat → Nat) (ji : Nat → Int) :
    ∃ b, isoriented jn ji m = .ok b ∧
      (b = true ↔ ∀ f < m.edges, 1 < occurs m f → forwards m f ≤ backwards m f + 1 ∧ backwards m f ≤ forwards m f + 1) := by
  obtain ⟨b, e, h⟩ := isoriented_tot hm jn ji
  refine ⟨b, e, ?_⟩
  rw [h]
  refine forall_congr' fun f => imp_congr_right fun hf => imp_congr_right fun ho => ?_
  rw [(signed_sum hm hp f).1, abs_le]
  omega

/-- If both tests succeed, then and only then every edge is passed exactly once in each direction. -/
theorem C79_closed_oriented (m : Surf) (hm : SurfOk m) (hp : Proper m) (jn : Nat → Nat) (ji : Nat → Int) :
    (isclosed jn m = .ok true ∧ isoriented jn ji m = .ok true) ↔ ClosedOriented m := by
  obtain ⟨b, e, h⟩ := isclosed_tot hm.toSurfSized hm.edges jn
  obtain ⟨b', e', h'⟩ := C79_oriented m hm hp jn ji
  rw [e, e']
  have i1 : ((Except.ok b : R Bool) = .ok true) ↔ b = true := ⟨fun x => by injection x, fun x => by rw [x]⟩
  have i2 : ((Except.ok b' : R Bool) = .ok true) ↔ b' = true := ⟨fun x => by injection x, fun x => by rw [x]⟩
  rw [i1, i2, h, h']
  unfold Closed ClosedOriented
  constructor
  · rintro ⟨x, y⟩ f hf
    have a := (signed_sum hm hp f).2
    have c := x f hf
    have d := y f hf (by omega)
    omega
  · intro x
    refine ⟨fun f hf => ?_, fun f hf _ => ?_⟩
    · have a := (signed_sum hm hp f).2
      have c := x f hf
      omega
    · have c := x f hf
      omega

/-- `prepare_surface3d` computes unit normal vectors in the direction given by the order of the corners, twice the area of every triangle, and the smallest and largest
height of the mesh (if they lie in [0, 1e30]). -/
theorem C79_prepare (m : Surf) (hm : SurfOk m) (hn : NonDegenerateSurf m) :
    ∃ r, prepare m = .ok r ∧ SameTopology m r ∧ r.x = m.x ∧ SurfOk r ∧ Prepared r :=
  Tot.mono (prepare_tot hm.toSurfSized hm.corners hn) fun _ ⟨a, b, c, d⟩ => ⟨a, b, ok_of_same hm a c, d⟩

/-- If a triangle is degenerate, `prepare_surface3d` divides by zero. -/
theorem C79_degenerate (m : Surf) (hm : SurfOk m) : prepare m = .error .nan ↔ ¬ NonDegenerateSurf m := by
  constructor
  · intro h hn
    obtain ⟨r, e, _⟩ := C79_prepare m hm hn
    rw [h] at e
    cases e
  · exact prepare_nan hm.toSurfSized hm.corners

/-- `translate_surface3d` moves every vertex and preserves all other data of a prepared surface. -/
theorem C79_translate (m : Surf) (hm : SurfOk m) (hn : NonDegenerateSurf m) (t0 t1 t2 : ℝ) :
    ∃ r, translate m t0 t1 t2 = .ok r ∧ SameTopology m r ∧ SurfOk r ∧ Prepared r ∧ (∀ v < m.vertices, spt r v = spt m v + ![t0, t1, t2]) ∧
      (Prepared m → (∀ i < m.triangles, snormal r i = snormal m i ∧ r.g.v i = m.g.v i) ∧ r.hmin = m.hmin ∧ r.hmax = m.hmax) :=
  Tot.mono (translate_tot hm hn t0 t1 t2) fun _ ⟨a, b, c, d, e, f⟩ => ⟨a, b, c, d, fun hp => prepared_unique hp c a.2.2.1 e f⟩

/-- `scale_surface3d` applies a map `x ↦ α + βx` with the same positive factor `β` and the same offset `α` in all coordinates, such that the surface fits exactly into the
box in one coordinate `d`, and no coordinate has a larger extent than the box. -/
theorem C79_scale (m : Surf) (hm : SurfOk m) (hn : NonDegenerateSurf m) (hb : ∀ v < m.vertices, ∀ k, |spt m v k| ≤ 10 ^ 30)
    (hd : ∃ v < m.vertices, ∃ w < m.vertices, spt m v ≠ spt m w) (a b : Nat → ℝ) (hab : ∀ k < 3, a k < b k) :
    ∃ r, scale m a b = .ok r ∧ SameTopology m r ∧ SurfOk r ∧ Prepared r ∧ ∃ (d : Fin 3) (alpha beta : ℝ), 0 < beta ∧
      (∀ v < m.vertices, ∀ k, spt r v k = alpha + beta * spt m v k) ∧
      (∀ v < m.vertices, a d ≤ spt r v d ∧ spt r v d ≤ b d) ∧ (∃ v < m.vertices, spt r v d = a d) ∧ (∃ v < m.vertices, spt r v d = b d) ∧
      ∀ v < m.vertices, ∀ w < m.vertices, ∀ k : Fin 3, spt r v k - spt r w k ≤ b k - a k :=
  scale_tot hm hn (by obtain ⟨v, hv, _⟩ := hd; omega) hb hd a b hab

/-- `merge_surface3d` accesses memory behind the end of the arrays of edges: with arrays of exactly the required size it never succeeds. -/
theorem C79_merge_ub (m1 m2 : Surf) (h1 : SurfSized m1) (h2 : SurfSized m2) (e1 : m1.e.n = 2 * m1.edges) (e2 : m2.e.n = 2 * m2.edges)
    (hpos : 0 < m1.edges + m2.edges) (jx : Nat → ℝ) (jn : Nat → Nat) : merge 0 jx jn m1 m2 = .error .ub := merge_ub h1 h2 e1 e2 hpos jx jn

/-- If the allocator provides at least one additional entry at the end of each array, the result of `merge_surface3d` is the disjoint union: it is consistent, closed, or
oriented if and only if both parts are.  The mesh widths, however, are not those of the union. -/
theorem C79_merge_slack (m1 m2 : Surf) (h1 : SurfOk m1) (h2 : SurfOk m2) (e1 : 2 * m1.edges + 1 ≤ m1.e.n) (e2 : 2 * m2.edges + 1 ≤ m2.e.n)
    (pad : Nat) (hpad : 1 ≤ pad) (jx : Nat → ℝ) (jn : Nat → Nat) :
    ∃ r, merge pad jx jn m1 m2 = .ok r ∧ DisjointUnion m1 m2 r ∧ SurfOk r ∧ (Closed r ↔ Closed m1 ∧ Closed m2) ∧
      (ClosedOriented r ↔ ClosedOriented m1 ∧ ClosedOriented m2) ∧
      (0 < m1.triangles + m2.triangles → NonDegenerateSurf m1 → NonDegenerateSurf m2 → r.hmax = 0 ∧ ¬ Prepared r) := by
  refine Tot.mono (merge_tot h1.toSurfSized h2.toSurfSized e1 e2 hpad jx jn) ?_
  rintro r ⟨hu, hs, _, hmax⟩
  obtain ⟨c1, c2⟩ := union_closed hu h1 h2
  refine ⟨hu, union_ok hu h1 h2 hs, c1, c2, fun hpos n1 n2 => ⟨hmax, fun hp => ?_⟩⟩
  have hi : 0 < r.triangles := by rw [hu.triangles]; exact hpos
  have hu0 := hp.upper 0 hi
  rw [hmax] at hu0
  have hg := hp.gram 0 hi
  have hunit := hp.unit 0 hi
  have hne : crossTri r 0 ≠ 0 := by
    rw [← hg.2]
    refine smul_ne_zero hg.1.ne' fun hz => ?_
    rw [hz] at hunit
    simp at hunit
  exact absurd hu0 (not_le.mpr (height_pos hne))

/-! ## Concrete surfaces -/

/-- the boundary of the unit tetrahedron; `pad` is the number of additional array entries -/
noncomputable def tetra (pad : Nat) : Surf where
  vertices := 4
  edges := 6
  triangles := 4
  x := ⟨12 + pad, fun i => if i = 3 ∨ i = 7 ∨ i = 11 then 1 else 0⟩
  e := ⟨12 + pad, fun i => [0, 1, 0, 2, 0, 3, 1, 2, 1, 3, 2, 3].getD i 0⟩
  t := ⟨12 + pad, fun i => [0, 2, 1, 0, 1, 3, 0, 3, 2, 1, 2, 3].getD i 0⟩
  s := ⟨12 + pad, fun i => [3, 0, 1, 4, 2, 0, 5, 1, 2, 5, 4, 3].getD i 0⟩
  n := ⟨12 + pad, fun _ => 0⟩
  g := ⟨4 + pad, fun _ => 0⟩
  hmin := 0
  hmax := 0

theorem tetra_sized (pad : Nat) : SurfSized (tetra pad) :=
  ⟨Nat.le_add_right _ _, Nat.le_add_right _ _, Nat.le_add_right _ _, Nat.le_add_right _ _, Nat.le_add_right _ _, Nat.le_add_right _ _⟩

theorem tetra_ok (pad : Nat) : SurfOk (tetra pad) := by
  refine ⟨tetra_sized pad, ?_, ?_, ?_, ?_⟩
  · show ∀ f < 6, ∀ k < 2, [0, 1, 0, 2, 0, 3, 1, 2, 1, 3, 2, 3].getD (2 * f + k) 0 < 4
    decide
  · show ∀ i < 4, ∀ k < 3, [0, 2, 1, 0, 1, 3, 0, 3, 2, 1, 2, 3].getD (3 * i + k) 0 < 4
    decide
  · show ∀ i < 4, ∀ k < 3, [3, 0, 1, 4, 2, 0, 5, 1, 2, 5, 4, 3].getD (3 * i + k) 0 < 6
    decide
  · show ∀ i < 4, ∀ k < 3, (([0, 1, 0, 2, 0, 3, 1, 2, 1, 3, 2, 3].getD (2 * [3, 0, 1, 4, 2, 0, 5, 1, 2, 5, 4, 3].getD (3 * i + k) 0 + 0) 0 =
        [0, 2, 1, 0, 1, 3, 0, 3, 2, 1, 2, 3].getD (3 * i + (k + 1) % 3) 0 ∧
      [0, 1, 0, 2, 0, 3, 1, 2, 1, 3, 2, 3].getD (2 * [3, 0, 1, 4, 2, 0, 5, 1, 2, 5, 4, 3].getD (3 * i + k) 0 + 1) 0 =
        [0, 2, 1, 0, 1, 3, 0, 3, 2, 1, 2, 3].getD (3 * i + (k + 2) % 3) 0) ∨
      ([0, 1, 0, 2, 0, 3, 1, 2, 1, 3, 2, 3].getD (2 * [3, 0, 1, 4, 2, 0, 5, 1, 2, 5, 4, 3].getD (3 * i + k) 0 + 0) 0 =
        [0, 2, 1, 0, 1, 3, 0, 3, 2, 1, 2, 3].getD (3 * i + (k + 2) % 3) 0 ∧
      [0, 1, 0, 2, 0, 3, 1, 2, 1, 3, 2, 3].getD (2 * [3, 0, 1, 4, 2, 0, 5, 1, 2, 5, 4, 3].getD (3 * i + k) 0 + 1) 0 =
        [0, 2, 1, 0, 1, 3, 0, 3, 2, 1, 2, 3].getD (3 * i + (k + 1) % 3) 0))
    decide

theorem tetra_proper (pad : Nat) : Proper (tetra pad) := by
  show ∀ i < 4, [0, 2, 1, 0, 1, 3, 0, 3, 2, 1, 2, 3].getD (3 * i + 0) 0 ≠ [0, 2, 1, 0, 1, 3, 0, 3, 2, 1, 2, 3].getD (3 * i + 1) 0 ∧
    [0, 2, 1, 0, 1, 3, 0, 3, 2, 1, 2, 3].getD (3 * i + 1) 0 ≠ [0, 2, 1, 0, 1, 3, 0, 3, 2, 1, 2, 3].getD (3 * i + 2) 0 ∧
    [0, 2, 1, 0, 1, 3, 0, 3, 2, 1, 2, 3].getD (3 * i + 2) 0 ≠ [0, 2, 1, 0, 1, 3, 0, 3, 2, 1, 2, 3].getD (3 * i + 0) 0
  decide

theorem tetra_nondegenerate (pad : Nat) : NonDegenerateSurf (tetra pad) := by
  intro i hi
  replace hi : i < 4 := hi
  obtain rfl | rfl | rfl | rfl : i = 0 ∨ i = 1 ∨ i = 2 ∨ i = 3 := by omega
  · intro h
    have := congrFun h 2
    rw [crossTri, cross_apply] at this
    simp [spt, corner, tetra] at this
  · intro h
    have := congrFun h 1
    rw [crossTri, cross_apply] at this
    simp [spt, corner, tetra] at this
  · intro h
    have := congrFun h 0
    rw [crossTri, cross_apply] at this
    simp [spt, corner, tetra] at this
  · intro h
    have := congrFun h 0
    rw [crossTri, cross_apply] at this
    simp [spt, corner, tetra] at this

/-- the tests succeed for the tetrahedron -/
theorem tetra_tests : isclosed (fun _ => 7) (tetra 0) = .ok true ∧ isoriented (fun _ => 7) (fun _ => 7) (tetra 0) = .ok true := ⟨rfl, rfl⟩

example : SurfSized (tetra 0) := tetra_sized 0
example : ClosedOriented (tetra 0) := (C79_closed_oriented _ (tetra_ok 0) (tetra_proper 0) _ _).mp tetra_tests
example : ∃ r, prepare (tetra 0) = .ok r ∧ Prepared r := by
  obtain ⟨r, a, _, _, _, b⟩ := C79_prepare _ (tetra_ok 0) (tetra_nondegenerate 0)
  exact ⟨r, a, b⟩
example : merge 0 (fun _ => 0) (fun _ => 0) (tetra 0) (tetra 0) = .error .ub :=
  C79_merge_ub _ _ (tetra_sized 0) (tetra_sized 0) rfl rfl (by decide) _ _
example : ∃ r, merge 1 (fun _ => 0) (fun _ => 0) (tetra 1) (tetra 1) = .ok r ∧ SurfOk r ∧ ¬ Prepared r := by
  obtain ⟨r, a, _, b, _, _, c⟩ := C79_merge_slack _ _ (tetra_ok 1) (tetra_ok 1) (by decide) (by decide) 1 (le_refl _) (fun _ => 0) (fun _ => 0)
  exact ⟨r, a, b, (c (by decide) (tetra_nondegenerate 1) (tetra_nondegenerate 1)).2⟩

/-- one triangle with corners (0,5,0), (1,5,0), (0,6,0) -/
noncomputable def oneTri : Surf where
  vertices := 3
  edges := 3
  triangles := 1
  x := ⟨9, fun i => if i = 1 ∨ i = 4 then 5 else if i = 7 then 6 else if i = 3 then 1 else 0⟩
  e := ⟨6, fun i => [1, 2, 2, 0, 0, 1].getD i 0⟩
  t := ⟨3, fun i => [0, 1, 2].getD i 0⟩
  s := ⟨3, fun i => [0, 1, 2].getD i 0⟩
  n := ⟨3, fun _ => 0⟩
  g := ⟨1, fun _ => 0⟩
  hmin := 0
  hmax := 0

/-- `scale_surface3d` does not fit surfaces into boxes: for a consistent mesh of one triangle and the unit box, the result leaves the box, although the function
succeeds and a translated and scaled copy inside of the box exists. -/
theorem C79_scale_defect : ∃ (m : Surf) (a b : Nat → ℝ), SurfOk m ∧ NonDegenerateSurf m ∧ (∀ k < 3, a k < b k) ∧
    (∃ shift : Fin 3 → ℝ, ∀ v < m.vertices, ∀ k : Fin 3, a k ≤ spt m v k + shift k ∧ spt m v k + shift k ≤ b k) ∧
    ∃ r, scale m a b = .ok r ∧ ∃ v < r.vertices, ∃ k : Fin 3, ¬ (a k ≤ spt r v k ∧ spt r v k ≤ b k) := by
  have ok : SurfOk oneTri := by
    refine ⟨⟨by decide, by decide, by decide, by decide, by decide, by decide⟩, ?_, ?_, ?_, ?_⟩
    · show ∀ f < 3, ∀ k < 2, [1, 2, 2, 0, 0, 1].getD (2 * f + k) 0 < 3
      decide
    · show ∀ i < 1, ∀ k < 3, [0, 1, 2].getD (3 * i + k) 0 < 3
      decide
    · show ∀ i < 1, ∀ k < 3, [0, 1, 2].getD (3 * i + k) 0 < 3
      decide
    · intro i hi k hk
      refine .inl ?_
      revert i k
      show ∀ i < 1, ∀ k < 3, [1, 2, 2, 0, 0, 1].getD (2 * [0, 1, 2].getD (3 * i + k) 0 + 0) 0 = [0, 1, 2].getD (3 * i + (k + 1) % 3) 0 ∧
        [1, 2, 2, 0, 0, 1].getD (2 * [0, 1, 2].getD (3 * i + k) 0 + 1) 0 = [0, 1, 2].getD (3 * i + (k + 2) % 3) 0
      decide
  have nd : NonDegenerateSurf oneTri := by
    intro i hi
    replace hi : i < 1 := hi
    obtain rfl : i = 0 := by omega
    intro h
    have := congrFun h 2
    rw [crossTri, cross_apply] at this
    simp [spt, corner, oneTri] at this
    norm_num at this
  have p0 : spt oneTri 0 = ![0, 5, 0] := by unfold spt oneTri; norm_num
  have p1 : spt oneTri 1 = ![1, 5, 0] := by unfold spt oneTri; norm_num
  have p2 : spt oneTri 2 = ![0, 6, 0] := by unfold spt oneTri; norm_num
  refine ⟨oneTri, fun _ => 0, fun _ => 1, ok, nd, fun _ _ => by norm_num, ⟨![0, -5, 0], fun v hv k => ?_⟩, ?_⟩
  · replace hv : v < 3 := hv
    obtain rfl | rfl | rfl : v = 0 ∨ v = 1 ∨ v = 2 := by omega
    · rw [p0]; fin_cases k <;> norm_num
    · rw [p1]; fin_cases k <;> norm_num
    · rw [p2]; fin_cases k <;> norm_num
  · obtain ⟨r, e, top, _, _, d, alpha, beta, hb, h1, h2, ⟨v, hv, h3⟩, ⟨w, hw, h4⟩, _⟩ := C79_scale oneTri ok nd (fun v hv k => by
      replace hv : v < 3 := hv
      obtain rfl | rfl | rfl : v = 0 ∨ v = 1 ∨ v = 2 := by omega
      · rw [p0]; fin_cases k <;> norm_num
      · rw [p1]; fin_cases k <;> norm_num
      · rw [p2]; fin_cases k <;> norm_num) ⟨0, by decide, 1, by decide, fun h => by
        rw [p0, p1] at h
        have := congrFun h 0
        norm_num at this⟩ (fun _ => 0) (fun _ => 1) (fun _ _ => by norm_num)
    refine ⟨r, e, ?_⟩
    by_contra hcon
    push Not at hcon
    have hin : ∀ v < 3, ∀ k : Fin 3, (0 : ℝ) ≤ spt r v k ∧ spt r v k ≤ 1 := fun v hv k => hcon v (by rw [top.1]; exact hv) k
    have q0 := fun k => h1 0 (by decide) k
    have q1 := fun k => h1 1 (by decide) k
    have q2 := fun k => h1 2 (by decide) k
    rw [p0] at q0
    rw [p1] at q1
    rw [p2] at q2
    have a00 := hin 0 (by norm_num) 0
    have a01 := hin 0 (by norm_num) 1
    have a10 := hin 1 (by norm_num) 0
    have a21 := hin 2 (by norm_num) 1
    rw [q0 0] at a00
    rw [q0 1] at a01
    rw [q1 0] at a10
    rw [q2 1] at a21
    norm_num at a00 a01 a10 a21
    replace hv : v < 3 := hv
    replace hw : w < 3 := hw
    rw [h1 v hv] at h3
    rw [h1 w hw] at h4
    fin_cases d
    · obtain rfl | rfl | rfl : v = 0 ∨ v = 1 ∨ v = 2 := by omega
      all_goals obtain rfl | rfl | rfl : w = 0 ∨ w = 1 ∨ w = 2 := by omega
      all_goals simp only [p0, p1, p2] at h3 h4
      all_goals norm_num at h3 h4
      all_goals linarith
    · obtain rfl | rfl | rfl : v = 0 ∨ v = 1 ∨ v = 2 := by omega
      all_goals obtain rfl | rfl | rfl : w = 0 ∨ w = 1 ∨ w = 2 := by omega
      all_goals simp only [p0, p1, p2] at h3 h4
      all_goals norm_num at h3 h4
      all_goals linarith
    · obtain rfl | rfl | rfl : v = 0 ∨ v = 1 ∨ v = 2 := by omega
      all_goals obtain rfl | rfl | rfl : w = 0 ∨ w = 1 ∨ w = 2 := by omega
      all_goals simp only [p0, p1, p2] at h3 h4
      all_goals norm_num at h3 h4
      all_goals linarith

end H2.Props
