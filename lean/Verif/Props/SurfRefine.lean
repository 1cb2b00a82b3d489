import Verif.Proof.SurfRefine2
import Verif.Props.Surface

/-!
# C80: red refinement of surfaces (`refine_red_surface3d`)
-/

namespace H2.Props
open Surf Spec

/-- For every consistent mesh of non-degenerate triangles, `refine_red_surface3d` succeeds.  The result is the red refinement (old vertices, midpoints of edges, halves of
edges, four triangles per triangle), it is again consistent and prepared, every new triangle has the orientation and a quarter of the area of its father and half its height,
and the result is closed, or closed and oriented, if and only if the original surface is. -/
theorem C80_refine (m : Surf) (hm : SurfOk m) (hp : Proper m) (hn : NonDegenerateSurf m) (pad : Nat) (jx : Nat → ℝ) (jn : Nat → Nat) :
    ∃ r, refineRed pad jx jn m = .ok r ∧ RedRefined m r ∧ SurfOk r ∧ Proper r ∧ NonDegenerateSurf r ∧ Prepared r ∧
      (∀ i < m.triangles, ∀ q < 4, crossTri r (4 * i + q) = (1 / 4 : ℝ) • crossTri m i ∧ height r (4 * i + q) = 1 / 2 * height m i) ∧
      (Closed r ↔ Closed m) ∧ (ClosedOriented r ↔ ClosedOriented m) := by
  obtain ⟨r0, h1, h2, h3⟩ := refineRed_eq hm hp pad jx jn
  obtain ⟨ok, pr⟩ := red_ok hm hp h1 h2
  have nd : NonDegenerateSurf r0 := by
    intro i hi
    rw [h1.triangles] at hi
    obtain ⟨i, hi', q, hq, rfl⟩ := quad hi
    rw [red_cross hm h1 hi' hq]
    exact smul_ne_zero (by norm_num) (hn i hi')
  obtain ⟨r, e, ⟨q1, q2, q3, q4, q5, q6⟩, ex, hs, hprep⟩ := prepare_tot h2 ok.corners nd
  have c : corner r = corner r0 := by unfold corner; rw [q5]
  have s : sedge r = sedge r0 := by unfold sedge; rw [q6]
  have ee : sendp r = sendp r0 := by unfold sendp; rw [q4]
  have pp : spt r = spt r0 := by unfold spt; rw [ex]
  have hr : RedRefined m r := by
    refine ⟨by rw [q1, h1.vertices], by rw [q2, h1.edges], by rw [q3, h1.triangles], ?_, ?_, ?_, ?_, ?_, ?_, ?_, ?_⟩
    · rw [pp]; exact h1.old
    · rw [pp]; exact h1.mids
    · rw [ee]; exact h1.half0
    · rw [ee]; exact h1.half1
    · rw [ee]; exact h1.inner
    · rw [c]; exact h1.cornerTri
    · rw [s]; exact h1.cornerEdge
    · rw [c, s]; exact h1.midTri
  obtain ⟨ok', pr'⟩ := red_ok hm hp hr hs
  refine ⟨r, by rw [h3, e], hr, ok', pr', fun i hi => ?_, hprep, fun i hi q hq => ⟨red_cross hm hr hi hq, red_height hm hr hi hq⟩, red_closed hm hp hr hs⟩
  rw [hr.triangles] at hi
  obtain ⟨i, hi', q, hq, rfl⟩ := quad hi
  rw [red_cross hm hr hi' hq]
  exact smul_ne_zero (by norm_num) (hn i hi')

/-- The data prepared for the original surface determine those of the refined one: same normal vectors, a quarter of the Gram determinants, half the mesh widths. -/
theorem C80_widths (m : Surf) (hm : SurfOk m) (hp : Proper m) (hn : NonDegenerateSurf m) (hq : Prepared m) (pad : Nat) (jx : Nat → ℝ) (jn : Nat → Nat) :
    ∃ r, refineRed pad jx jn m = .ok r ∧ (∀ i < m.triangles, ∀ q < 4, snormal r (4 * i + q) = snormal m i ∧ r.g.v (4 * i + q) = m.g.v i / 4) ∧
      r.hmax = m.hmax / 2 ∧ (m.hmin < 10 ^ 30 → r.hmin = m.hmin / 2) := by
  obtain ⟨r, e, hr, ok, pr, nd, hrp, hx, _⟩ := C80_refine m hm hp hn pad jx jn
  have lenp : ∀ {p : Surf} {i : Nat}, Prepared p → i < p.triangles → p.g.v i = len3 (crossTri p i) := by
    intro p i hp hi
    obtain ⟨h1, h2⟩ := hp.gram i hi
    have h3 := hp.unit i hi
    unfold len3
    rw [← h2, smul_dotProduct, dotProduct_smul, h3, smul_eq_mul, smul_eq_mul, mul_one, Real.sqrt_mul_self h1.le]
  refine ⟨r, e, fun i hi q hq' => ?_, ?_, fun hlt => ?_⟩
  · have hi4 : 4 * i + q < r.triangles := by rw [hr.triangles]; omega
    have g1 := lenp hq hi
    have g2 := lenp hrp hi4
    rw [(hx i hi q hq').1, len3_smul (by norm_num), ← g1] at g2
    refine ⟨?_, by rw [g2]; ring⟩
    have a := (hrp.gram _ hi4).2
    have b := (hq.gram i hi).2
    have pos := (hq.gram i hi).1
    rw [(hx i hi q hq').1, ← b, g2, mul_smul] at a
    exact smul_right_injective _ pos.ne' (smul_right_injective _ (by norm_num : (1 / 4 : ℝ) ≠ 0) a)
  · have up : ∀ i < m.triangles, height m i / 2 ≤ r.hmax := fun i hi => by
      have := hrp.upper (4 * i + 0) (by rw [hr.triangles]; omega)
      rw [(hx i hi 0 (by norm_num)).2] at this
      linarith
    rcases hq.hmax with h0 | ⟨i, hi, h0⟩
    · rcases hrp.hmax with h1 | ⟨i, hi, h1⟩
      · rw [h0, h1]; norm_num
      · exfalso
        rw [hr.triangles] at hi
        obtain ⟨i, hi', q, hq', rfl⟩ := quad hi
        have := hq.upper i hi'
        have := height_pos (hn i hi')
        linarith
    · refine le_antisymm ?_ (by rw [h0]; exact up i hi)
      rcases hrp.hmax with h1 | ⟨k, hk, h1⟩
      · rw [h1]; have := hq.bound.2; linarith
      · rw [hr.triangles] at hk
        obtain ⟨k, hk', q, hq', rfl⟩ := quad hk
        rw [h1, (hx k hk' q hq').2]
        have := hq.upper k hk'
        linarith
  · rcases hq.hmin with h0 | ⟨i, hi, h0⟩
    · exact absurd h0 hlt.ne
    · refine le_antisymm ?_ ?_
      · have := hrp.lower (4 * i + 0) (by rw [hr.triangles]; omega)
        rw [(hx i hi 0 (by norm_num)).2] at this
        rw [h0]; linarith
      · rcases hrp.hmin with h1 | ⟨k, hk, h1⟩
        · rw [h1]; linarith [height_pos (hn i hi)]
        · rw [hr.triangles] at hk
          obtain ⟨k, hk', q, hq', rfl⟩ := quad hk
          rw [h1, (hx k hk' q hq').2]
          have := hq.lower k hk'
          linarith

/-- Any number of refinement steps succeeds and preserves consistency, closedness and orientation; the number of triangles grows by a factor of four per step. -/
theorem C80_repeated (pad : Nat) (jx : Nat → ℝ) (jn : Nat → Nat) (n : Nat) : ∀ (m : Surf), SurfOk m → Proper m → NonDegenerateSurf m →
    ∃ r, refineTimes pad jx jn n m = .ok r ∧ SurfOk r ∧ Proper r ∧ NonDegenerateSurf r ∧ r.triangles = 4 ^ n * m.triangles ∧
      (Closed r ↔ Closed m) ∧ (ClosedOriented r ↔ ClosedOriented m) ∧ ∀ v < m.vertices, spt r v = spt m v := by
  induction n with
  | zero => exact fun m a b c => ⟨m, rfl, a, b, c, by rw [pow_zero, one_mul], Iff.rfl, Iff.rfl, fun _ _ => rfl⟩
  | succ n ih =>
    intro m a b c
    obtain ⟨r, e, h1, h2, h3, h4, _, _, h5, h6⟩ := C80_refine m a b c pad jx jn
    obtain ⟨r', e', k1, k2, k3, k4, k5, k6, k7⟩ := ih r h2 h3 h4
    refine ⟨r', ?_, k1, k2, k3, ?_, k5.trans h5, k6.trans h6, fun v hv => (k7 v (by rw [h1.vertices]; omega)).trans (h1.old v hv)⟩
    · unfold refineTimes
      rw [e]; exact e'
    · rw [k4, h1.triangles, pow_succ]; ring

example : ∃ r, refineTimes 0 (fun _ => 0) (fun _ => 0) 5 (tetra 0) = .ok r ∧ ClosedOriented r ∧ r.triangles = 4096 := by
  obtain ⟨r, a, _, _, _, b, _, c, _⟩ := C80_repeated 0 (fun _ => 0) (fun _ => 0) 5 (tetra 0) (tetra_ok 0) (tetra_proper 0) (tetra_nondegenerate 0)
  exact ⟨r, a, c.mpr ((C79_closed_oriented _ (tetra_ok 0) (tetra_proper 0) _ _).mp tetra_tests), b⟩
example : ∃ m, SurfOk m ∧ Proper m ∧ NonDegenerateSurf m ∧ Prepared m := by
  obtain ⟨r, _, _, a, b, c, d, _⟩ := C80_refine _ (tetra_ok 0) (tetra_proper 0) (tetra_nondegenerate 0) 0 (fun _ => 0) (fun _ => 0)
  exact ⟨r, a, b, c, d⟩

end H2.Props
