import Verif.Proof.Tri2d2
import Mathlib.Tactic.Linarith
import Mathlib.Algebra.CharZero.Defs

/-! Vertices of the triangles of a consistent mesh, geometry of the refinement. -/

set_option linter.unusedSectionVars false

namespace H2.Tri2d
open H2.Spec
variable {K : Type} [Field K] {m : Mesh K}

theorem commonVertex_tot (hl : Legal m) {f g a b c : Nat} (hf : f < m.edges) (hg : g < m.edges) (h1 : Joins m f a b) (h2 : Joins m g a c)
    (hbc : b ≠ c) (hab : a ≠ b) : commonVertexGlobal m.e f g = .ok a := by
  have e := hl.e
  have E : ∀ i, i < 2 * m.edges → m.e.get i = .ok (m.e.v i) := fun i hi => Arr.get_ok (by omega)
  have z : ∀ i, m.e.v (2 * i) = endp m i 0 := fun _ => rfl
  have z1 : ∀ i, m.e.v (2 * i + 1) = endp m i 1 := fun _ => rfl
  unfold commonVertexGlobal commonVertex
  rw [E (2 * f) (by omega), E (2 * f + 1) (by omega), E (2 * g) (by omega), E (2 * g + 1) (by omega), z, z, z1, z1]
  simp only [ok_bind]
  rcases h1 with ⟨p, q⟩ | ⟨p, q⟩ <;> rcases h2 with ⟨p', q'⟩ | ⟨p', q'⟩ <;> rw [p, q, p', q']
  · rw [if_pos (Or.inl rfl)]; show m.e.get _ = _; rw [E _ (by omega)]; exact congrArg Except.ok p
  · rw [if_pos (Or.inr rfl)]; show m.e.get _ = _; rw [E _ (by omega)]; exact congrArg Except.ok p
  · rw [if_neg (by omega), cassert_true (by simp)]; show m.e.get _ = _; rw [E _ (by omega), z1, q]
  · rw [if_neg (by omega), cassert_true (by simp)]; show m.e.get _ = _; rw [E _ (by omega), z1, q]

theorem getVertices_eq (hl : Legal m) {i a b c : Nat} (hi : i < m.triangles) (hC : Corners m i a b c) :
    getVertices m i = .ok (a, b, c) := by
  have e := hl.t
  have E : ∀ k, k < 3 → m.t.get (3 * i + k) = .ok (side m i k) := fun k hk => Arr.get_ok (by omega)
  have s0 := hl.sides i hi 0 (by omega)
  have s1 := hl.sides i hi 1 (by omega)
  have s2 := hl.sides i hi 2 (by omega)
  unfold getVertices
  have E0 : m.t.get (3 * i) = .ok (side m i 0) := E 0 (by omega)
  rw [E0, E 1 (by omega), E 2 (by omega)]
  simp only [ok_bind]
  rw [commonVertex_tot hl s0 s1 (Joins.symm hC.s0) hC.s1 hC.ab.symm hC.bc.symm, ok_bind,
    commonVertex_tot hl s1 s2 (Joins.symm hC.s1) hC.s2 hC.bc.symm hC.ca.symm, ok_bind,
    commonVertex_tot hl s2 s0 (Joins.symm hC.s2) hC.s0 hC.ca.symm hC.ab.symm, ok_bind]
  rfl

section geometry

theorem mid_comm (p q : K × K) : mid p q = mid q p := by simp [mid, add_comm]

variable [LinearOrder K] [IsStrictOrderedRing K]

theorem area_sub (p q r : K × K) :
    4 * area2 p (mid p q) (mid r p) = area2 p q r ∧ 4 * area2 (mid p q) q (mid q r) = area2 p q r ∧
    4 * area2 (mid r p) (mid q r) r = area2 p q r ∧ 4 * area2 (mid q r) (mid r p) (mid p q) = area2 p q r := by
  simp only [area2, mid]
  refine ⟨?_, ?_, ?_, ?_⟩ <;> ring

theorem tri_cover (p q r z : K × K) :
    InTri p q r z ↔ InTri p (mid p q) (mid r p) z ∨ InTri (mid p q) q (mid q r) z ∨ InTri (mid r p) (mid q r) r z ∨
      InTri (mid q r) (mid r p) (mid p q) z := by
  constructor
  · rintro ⟨u, v, w, hu, hv, hw, hs, h1, h2⟩
    by_cases c1 : 1 / 2 ≤ u
    · refine .inl ⟨2 * u - 1, 2 * v, 2 * w, by linarith, by linarith, by linarith, by linarith, ?_, ?_⟩
      · simp only [mid]; linear_combination h1 - p.1 * hs
      · simp only [mid]; linear_combination h2 - p.2 * hs
    by_cases c2 : 1 / 2 ≤ v
    · refine .inr (.inl ⟨2 * u, 2 * v - 1, 2 * w, by linarith, by linarith, by linarith, by linarith, ?_, ?_⟩)
      · simp only [mid]; linear_combination h1 - q.1 * hs
      · simp only [mid]; linear_combination h2 - q.2 * hs
    by_cases c3 : 1 / 2 ≤ w
    · refine .inr (.inr (.inl ⟨2 * u, 2 * v, 2 * w - 1, by linarith, by linarith, by linarith, by linarith, ?_, ?_⟩))
      · simp only [mid]; linear_combination h1 - r.1 * hs
      · simp only [mid]; linear_combination h2 - r.2 * hs
    · push Not at c1 c2 c3
      refine .inr (.inr (.inr ⟨1 - 2 * u, 1 - 2 * v, 1 - 2 * w, by linarith, by linarith, by linarith, by linarith, ?_, ?_⟩))
      · simp only [mid]; linear_combination h1 + (p.1 + q.1 + r.1) * hs
      · simp only [mid]; linear_combination h2 + (p.2 + q.2 + r.2) * hs
  · rintro (⟨u, v, w, hu, hv, hw, hs, h1, h2⟩ | ⟨u, v, w, hu, hv, hw, hs, h1, h2⟩ | ⟨u, v, w, hu, hv, hw, hs, h1, h2⟩ |
      ⟨u, v, w, hu, hv, hw, hs, h1, h2⟩) <;> simp only [mid] at h1 h2
    · exact ⟨u + v / 2 + w / 2, v / 2, w / 2, by linarith, by linarith, by linarith, by linarith, by linear_combination h1, by linear_combination h2⟩
    · exact ⟨u / 2, u / 2 + v + w / 2, w / 2, by linarith, by linarith, by linarith, by linarith, by linear_combination h1, by linear_combination h2⟩
    · exact ⟨u / 2, v / 2, u / 2 + v / 2 + w, by linarith, by linarith, by linarith, by linarith, by linear_combination h1, by linear_combination h2⟩
    · exact ⟨v / 2 + w / 2, u / 2 + w / 2, u / 2 + v / 2, by linarith, by linarith, by linarith, by linarith, by linear_combination h1, by linear_combination h2⟩

/-- barycentric coordinates are unique in a triangle of positive or negative area -/
theorem bary_unique {p q r : K × K} (h : area2 p q r ≠ 0) {u v w u' v' w' : K} (hs : u + v + w = 1) (hs' : u' + v' + w' = 1)
    (h1 : u * p.1 + v * q.1 + w * r.1 = u' * p.1 + v' * q.1 + w' * r.1)
    (h2 : u * p.2 + v * q.2 + w * r.2 = u' * p.2 + v' * q.2 + w' * r.2) : u = u' ∧ v = v' ∧ w = w' := by
  unfold area2 at h
  have k2 : (v - v') * ((q.1 - p.1) * (r.2 - p.2) - (q.2 - p.2) * (r.1 - p.1)) = 0 := by
    linear_combination (r.2 - p.2) * (h1 - p.1 * hs + p.1 * hs') - (r.1 - p.1) * (h2 - p.2 * hs + p.2 * hs')
  have k3 : (w - w') * ((q.1 - p.1) * (r.2 - p.2) - (q.2 - p.2) * (r.1 - p.1)) = 0 := by
    linear_combination (q.1 - p.1) * (h2 - p.2 * hs + p.2 * hs') - (q.2 - p.2) * (h1 - p.1 * hs + p.1 * hs')
  have a2 : v - v' = 0 := (mul_eq_zero.mp k2).resolve_right h
  have a3 : w - w' = 0 := (mul_eq_zero.mp k3).resolve_right h
  exact ⟨by linear_combination hs - hs' - a2 - a3, by linear_combination a2, by linear_combination a3⟩

/-- the four parts of a triangle, by number -/
def part (p q r : K × K) : Nat → (K × K) × (K × K) × (K × K)
  | 0 => (p, mid p q, mid r p)
  | 1 => (mid p q, q, mid q r)
  | 2 => (mid r p, mid q r, r)
  | _ => (mid q r, mid r p, mid p q)

theorem part_bary {p q r z : K × K} {k : Nat} (hk : k < 4) (h : InInterior (part p q r k).1 (part p q r k).2.1 (part p q r k).2.2 z) :
    ∃ u v w : K, u + v + w = 1 ∧ u * p.1 + v * q.1 + w * r.1 = z.1 ∧ u * p.2 + v * q.2 + w * r.2 = z.2 ∧
      (k = 0 → 1 / 2 < u) ∧ (k = 1 → 1 / 2 < v) ∧ (k = 2 → 1 / 2 < w) ∧ (k = 3 → u < 1 / 2 ∧ v < 1 / 2 ∧ w < 1 / 2) ∧
      0 < u ∧ 0 < v ∧ 0 < w := by
  obtain ⟨u, v, w, hu, hv, hw, hs, h1, h2⟩ := h
  rcases (show k = 0 ∨ k = 1 ∨ k = 2 ∨ k = 3 by omega) with rfl | rfl | rfl | rfl <;> simp only [part, mid] at h1 h2
  · exact ⟨u + v / 2 + w / 2, v / 2, w / 2, by linarith, by linear_combination - h1, by linear_combination - h2,
      fun _ => by linarith, fun h => absurd h (by omega), fun h => absurd h (by omega), fun h => absurd h (by omega), by linarith, by linarith, by linarith⟩
  · exact ⟨u / 2, u / 2 + v + w / 2, w / 2, by linarith, by linear_combination - h1, by linear_combination - h2,
      fun h => absurd h (by omega), fun _ => by linarith, fun h => absurd h (by omega), fun h => absurd h (by omega), by linarith, by linarith, by linarith⟩
  · exact ⟨u / 2, v / 2, u / 2 + v / 2 + w, by linarith, by linear_combination - h1, by linear_combination - h2,
      fun h => absurd h (by omega), fun h => absurd h (by omega), fun _ => by linarith, fun h => absurd h (by omega), by linarith, by linarith, by linarith⟩
  · exact ⟨v / 2 + w / 2, u / 2 + w / 2, u / 2 + v / 2, by linarith, by linear_combination - h1, by linear_combination - h2,
      fun h => absurd h (by omega), fun h => absurd h (by omega), fun h => absurd h (by omega),
      fun _ => ⟨by linarith, by linarith, by linarith⟩, by linarith, by linarith, by linarith⟩

theorem part_disjoint {p q r z : K × K} (hA : area2 p q r ≠ 0) {k l : Nat} (hk : k < 4) (hl : l < 4) (hkl : k ≠ l)
    (h : InInterior (part p q r k).1 (part p q r k).2.1 (part p q r k).2.2 z)
    (h' : InInterior (part p q r l).1 (part p q r l).2.1 (part p q r l).2.2 z) : False := by
  obtain ⟨u, v, w, s, e1, e2, a0, a1, a2, a3, -⟩ := part_bary hk h
  obtain ⟨u', v', w', s', e1', e2', b0, b1, b2, b3, pu, pv, pw⟩ := part_bary hl h'
  obtain ⟨rfl, rfl, rfl⟩ := bary_unique hA s s' (e1.trans e1'.symm) (e2.trans e2'.symm)
  rcases (show k = 0 ∨ k = 1 ∨ k = 2 ∨ k = 3 by omega) with rfl | rfl | rfl | rfl <;>
  rcases (show l = 0 ∨ l = 1 ∨ l = 2 ∨ l = 3 by omega) with rfl | rfl | rfl | rfl <;>
  first
  | exact hkl rfl
  | (simp at a0 a1 a2 a3 b0 b1 b2 b3; linarith)
end geometry

end H2.Tri2d
