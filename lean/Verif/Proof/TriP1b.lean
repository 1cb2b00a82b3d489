import Verif.Proof.TriP1
import Mathlib.Analysis.SpecialFunctions.Integrals.Basic

/-! Piecewise linear finite elements: gradients and integrals in one triangle. -/

set_option linter.unusedSectionVars false

namespace H2.P1
open Spec Tri2d

/-- the bilinear form of an element matrix -/
def qform (At : Nat → Nat → ℝ) (u v : Nat → ℝ) : ℝ := ∑ i ∈ Finset.range 3, ∑ j ∈ Finset.range 3, u i * v j * At i j

theorem qform_eq (At : Nat → Nat → ℝ) (u v : Nat → ℝ) : qform At u v =
    u 0 * v 0 * At 0 0 + u 0 * v 1 * At 0 1 + u 0 * v 2 * At 0 2 + (u 1 * v 0 * At 1 0 + u 1 * v 1 * At 1 1 + u 1 * v 2 * At 1 2) +
      (u 2 * v 0 * At 2 0 + u 2 * v 1 * At 2 1 + u 2 * v 2 * At 2 2) := by
  unfold qform
  simp only [Finset.sum_range_succ, Finset.sum_range_zero]
  ring

theorem contrib_hat {m : Mesh ℝ} {dc : Disc} (hn : Numbered m dc) {fix : Bool} {xt : Nat → Nat} (hx : ∀ i < 3, xt i < m.vertices) (At : Nat → Nat → ℝ) {v w : Nat} (hv : v < m.vertices)
    (hw : w < m.vertices) (hvd : dc.isDof.v v = true) (hwd : dc.isDof.v w = !fix) :
    contrib dc fix xt At (dc.idx.v v) (dc.idx.v w) = qform At (fun i => hat v (xt i)) (fun j => hat w (xt j)) := by
  unfold contrib qform
  refine Finset.sum_congr rfl fun i hi => Finset.sum_congr rfl fun j hj => ?_
  rw [Finset.mem_range] at hi hj
  by_cases h : pos dc fix xt i j (dc.idx.v v) (dc.idx.v w)
  · rw [if_pos h]
    obtain ⟨h1, h2, h3, h4⟩ := h
    have e1 := idx_inj hn hv (hx i hi) (by rw [hvd, h1]) h3
    have e2 := idx_inj hn hw (hx j hj) (by rw [hwd, h2]) h4
    simp only [hat, e1, e2, if_true]
    ring
  · rw [if_neg h]
    by_cases e1 : xt i = v
    · by_cases e2 : xt j = w
      · exact absurd ⟨by rw [e1]; exact hvd, by rw [e2]; exact hwd, by rw [e1], by rw [e2]⟩ h
      · simp [hat, e2]
    · simp [hat, e1]

theorem grad_rot {p q r : ℝ × ℝ} {u0 u1 u2 : ℝ} {g : ℝ × ℝ} (h : IsGrad p q r u0 u1 u2 g) : IsGrad q r p u1 u2 u0 g ∧ IsGrad r q p u2 u1 u0 g := by
  obtain ⟨h1, h2⟩ := h
  refine ⟨⟨?_, ?_⟩, ?_, ?_⟩
  · linear_combination h2 - h1
  · linear_combination -h1
  · linear_combination h1 - h2
  · linear_combination -h2

theorem elemLaplace_ok {p q r : ℝ × ℝ} (hd : area2 p q r ≠ 0) : ∃ At, elemLaplace p q r = .ok At ∧ ∀ {u v : Nat → ℝ} {g h : ℝ × ℝ}, IsGrad p q r (u 0) (u 1) (u 2) g → IsGrad p q r (v 0) (v 1) (v 2) h →
    qform At u v = |area2 p q r| / 2 * (g.1 * h.1 + g.2 * h.2) := by
  obtain ⟨det, hdet⟩ : ∃ det, det = (p.1 - q.1) * (r.2 - q.2) - (p.2 - q.2) * (r.1 - q.1) := ⟨_, rfl⟩
  have e : det = - area2 p q r := by rw [hdet]; unfold area2; ring
  have hn : det ≠ 0 := by rw [e]; exact neg_ne_zero.mpr hd
  refine ⟨fun i j => ((gradOf p q r i).1 * (gradOf p q r j).1 + (gradOf p q r i).2 * (gradOf p q r j).2) / |det| / 2, ?_, ?_⟩
  · unfold elemLaplace
    rw [← hdet, if_neg hn]
    rfl
  intro u v g h hg hh
  have key : ∀ {u : Nat → ℝ} {g : ℝ × ℝ}, IsGrad p q r (u 0) (u 1) (u 2) g →
      det * g.1 = u 0 * (r.2 - q.2) + u 1 * (p.2 - r.2) + u 2 * (q.2 - p.2) ∧ det * g.2 = u 0 * (q.1 - r.1) + u 1 * (r.1 - p.1) + u 2 * (p.1 - q.1) := by
    rintro u g ⟨h1, h2⟩
    rw [hdet]
    constructor
    · linear_combination -(r.2 - p.2) * h1 + (q.2 - p.2) * h2
    · linear_combination (r.1 - p.1) * h1 - (q.1 - p.1) * h2
  obtain ⟨g1, g2⟩ := key hg
  obtain ⟨h1, h2⟩ := key hh
  have ha : |area2 p q r| = |det| := by rw [e, abs_neg]
  have hpos : |det| ≠ 0 := abs_ne_zero.mpr hn
  rw [ha, qform_eq]
  have hsq : |det| * |det| = det * det := abs_mul_abs_self det
  have : (det * g.1) * (det * h.1) + (det * g.2) * (det * h.2) = |det| * |det| * (g.1 * h.1 + g.2 * h.2) := by rw [hsq]; ring
  have h3 : |det| / 2 * (g.1 * h.1 + g.2 * h.2) = ((det * g.1) * (det * h.1) + (det * g.2) * (det * h.2)) / |det| / 2 := by
    rw [this]
    field_simp
  rw [h3, g1, g2, h1, h2]
  simp only [gradOf, if_true, show ¬ (1 : Nat) = 0 by omega, show ¬ (2 : Nat) = 0 by omega, show ¬ (2 : Nat) = 1 by omega, if_false]
  ring

/-- existence and uniqueness of the gradient -/
theorem grad_exists {p q r : ℝ × ℝ} (hd : area2 p q r ≠ 0) (u0 u1 u2 : ℝ) : ∃! g, IsGrad p q r u0 u1 u2 g := by
  obtain ⟨det, hdet⟩ : ∃ det, det = area2 p q r := ⟨_, rfl⟩
  rw [← hdet] at hd
  refine ⟨(((u1 - u0) * (r.2 - p.2) - (u2 - u0) * (q.2 - p.2)) / det, ((u2 - u0) * (q.1 - p.1) - (u1 - u0) * (r.1 - p.1)) / det), ⟨?_, ?_⟩, ?_⟩
  · show _ / det * _ + _ / det * _ = _
    rw [div_mul_eq_mul_div, div_mul_eq_mul_div, ← add_div, div_eq_iff hd, hdet]
    unfold area2
    ring
  · show _ / det * _ + _ / det * _ = _
    rw [div_mul_eq_mul_div, div_mul_eq_mul_div, ← add_div, div_eq_iff hd, hdet]
    unfold area2
    ring
  · rintro ⟨a, b⟩ ⟨h1, h2⟩
    replace h1 : a * (q.1 - p.1) + b * (q.2 - p.2) = u1 - u0 := h1
    replace h2 : a * (r.1 - p.1) + b * (r.2 - p.2) = u2 - u0 := h2
    unfold area2 at hdet
    refine Prod.ext ?_ ?_
    · show a = _ / det
      rw [eq_div_iff hd, hdet]
      linear_combination (r.2 - p.2) * h1 - (q.2 - p.2) * h2
    · show b = _ / det
      rw [eq_div_iff hd, hdet]
      linear_combination (q.1 - p.1) * h2 - (r.1 - p.1) * h1

theorem int_cubic (a b c d x : ℝ) : ∫ t in (0 : ℝ)..x, (a + b * t + c * t ^ 2 + d * t ^ 3) = a * x + b * x ^ 2 / 2 + c * x ^ 3 / 3 + d * x ^ 4 / 4 := by
  have h : ∀ t ∈ Set.uIcc 0 x, HasDerivAt (fun t : ℝ => a * t + b * t ^ 2 / 2 + c * t ^ 3 / 3 + d * t ^ 4 / 4) (a + b * t + c * t ^ 2 + d * t ^ 3) t := by
    intro t _
    have h1 := (hasDerivAt_id t).const_mul a
    have h2 := ((hasDerivAt_pow 2 t).const_mul b).div_const 2
    have h3 := ((hasDerivAt_pow 3 t).const_mul c).div_const 3
    have h4 := ((hasDerivAt_pow 4 t).const_mul d).div_const 4
    refine (((h1.add h2).add h3).add h4).congr_deriv ?_
    norm_num
    ring
  rw [intervalIntegral.integral_eq_sub_of_hasDerivAt h ?_]
  · ring
  · exact Continuous.intervalIntegrable (by fun_prop) _ _

/-- the integral of a quadratic polynomial over the reference triangle is given by the edge midpoint rule -/
theorem int_tri (a b c d e f : ℝ) : ∫ s in (0 : ℝ)..1, ∫ t in (0 : ℝ)..(1 - s), (a + b * s + c * t + d * s ^ 2 + e * (s * t) + f * t ^ 2) =
    a / 2 + b / 6 + c / 6 + d / 12 + e / 24 + f / 12 := by
  have h1 : ∀ s : ℝ, ∫ t in (0 : ℝ)..(1 - s), (a + b * s + c * t + d * s ^ 2 + e * (s * t) + f * t ^ 2) =
      (a + c / 2 + f / 3) + (b - a + e / 2 - c - f) * s + (d - b + c / 2 - e + f) * s ^ 2 + (-d + e / 2 - f / 3) * s ^ 3 := by
    intro s
    have := int_cubic (a + b * s + d * s ^ 2) (c + e * s) f 0 (1 - s)
    rw [show (fun t : ℝ => a + b * s + c * t + d * s ^ 2 + e * (s * t) + f * t ^ 2) = fun t => (a + b * s + d * s ^ 2) + (c + e * s) * t + f * t ^ 2 + 0 * t ^ 3 by funext t; ring, this]
    ring
  simp only [h1]
  rw [int_cubic]
  ring

theorem int_lin (u0 u1 u2 v0 v1 v2 : ℝ) : ∫ s in (0 : ℝ)..1, ∫ t in (0 : ℝ)..(1 - s), ((1 - s - t) * u0 + s * u1 + t * u2) * ((1 - s - t) * v0 + s * v1 + t * v2) =
    ((u0 + u1 + u2) * (v0 + v1 + v2) + (u0 * v0 + u1 * v1 + u2 * v2)) / 24 := by
  have := int_tri (u0 * v0) (u0 * (v1 - v0) + (u1 - u0) * v0) (u0 * (v2 - v0) + (u2 - u0) * v0) ((u1 - u0) * (v1 - v0)) ((u1 - u0) * (v2 - v0) + (u2 - u0) * (v1 - v0)) ((u2 - u0) * (v2 - v0))
  have e : ∀ s : ℝ, (fun t : ℝ => ((1 - s - t) * u0 + s * u1 + t * u2) * ((1 - s - t) * v0 + s * v1 + t * v2)) = fun t => u0 * v0 + (u0 * (v1 - v0) + (u1 - u0) * v0) * s + (u0 * (v2 - v0) + (u2 - u0) * v0) * t +
      ((u1 - u0) * (v1 - v0)) * s ^ 2 + ((u1 - u0) * (v2 - v0) + (u2 - u0) * (v1 - v0)) * (s * t) + ((u2 - u0) * (v2 - v0)) * t ^ 2 := by
    intro s; funext t; ring
  simp only [e]
  rw [this]
  ring

theorem elemMass_ok (p q r : ℝ × ℝ) : ∃ At, elemMass p q r = .ok At ∧ ∀ u v : Nat → ℝ,
    qform At u v = |area2 p q r| * (((u 0 + u 1 + u 2) * (v 0 + v 1 + v 2) + (u 0 * v 0 + u 1 * v 1 + u 2 * v 2)) / 24) := by
  refine ⟨_, rfl, fun u v => ?_⟩
  rw [qform_eq]
  norm_num
  unfold area2
  ring

end H2.P1
