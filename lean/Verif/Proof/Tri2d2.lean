import Verif.Proof.Tri2d
import Mathlib.Algebra.BigOperators.Group.Finset.Sigma
import Mathlib.Algebra.BigOperators.Ring.Finset

/-! `refine_tri2d` preserves consistency. -/

set_option linter.unusedSectionVars false

namespace H2.Tri2d
open H2.Spec
variable {K : Type} [Field K] {m r : Mesh K}

/-- the numbers stored in the refined mesh -/
structure Shape (m r : Mesh K) : Prop extends Sized r where
  vertices : r.vertices = m.vertices + m.edges
  edges : r.edges = 2 * m.edges + 3 * m.triangles
  triangles : r.triangles = 4 * m.triangles
  half0 : ∀ j < m.edges, endp r (2 * j) 0 = endp m j 0 ∧ endp r (2 * j) 1 = m.vertices + j ∧ r.eb.v (2 * j) = m.eb.v j
  half1 : ∀ j < m.edges, endp r (2 * j + 1) 0 = m.vertices + j ∧ endp r (2 * j + 1) 1 = endp m j 1 ∧ r.eb.v (2 * j + 1) = m.eb.v j
  in0 : ∀ j < m.triangles, endp r (2 * m.edges + 3 * j) 0 = m.vertices + side m j 1 ∧
    endp r (2 * m.edges + 3 * j) 1 = m.vertices + side m j 2 ∧ r.eb.v (2 * m.edges + 3 * j) = 0
  in1 : ∀ j < m.triangles, endp r (2 * m.edges + 3 * j + 1) 0 = m.vertices + side m j 2 ∧
    endp r (2 * m.edges + 3 * j + 1) 1 = m.vertices + side m j 0 ∧ r.eb.v (2 * m.edges + 3 * j + 1) = 0
  in2 : ∀ j < m.triangles, endp r (2 * m.edges + 3 * j + 2) 0 = m.vertices + side m j 0 ∧
    endp r (2 * m.edges + 3 * j + 2) 1 = m.vertices + side m j 1 ∧ r.eb.v (2 * m.edges + 3 * j + 2) = 0
  xb0 : ∀ j < m.vertices, r.xb.v j = m.xb.v j
  xb1 : ∀ j < m.edges, r.xb.v (m.vertices + j) = m.eb.v j
  sub : ∀ j < m.triangles, ∀ a b c, Corners m j a b c →
    (side r (4 * j) 0 = 2 * m.edges + 3 * j ∧ side r (4 * j) 1 = half m (side m j 1) a ∧ side r (4 * j) 2 = half m (side m j 2) a) ∧
    (side r (4 * j + 1) 0 = half m (side m j 0) b ∧ side r (4 * j + 1) 1 = 2 * m.edges + 3 * j + 1 ∧ side r (4 * j + 1) 2 = half m (side m j 2) b) ∧
    (side r (4 * j + 2) 0 = half m (side m j 0) c ∧ side r (4 * j + 2) 1 = half m (side m j 1) c ∧ side r (4 * j + 2) 2 = 2 * m.edges + 3 * j + 2) ∧
    side r (4 * j + 3) 0 = 2 * m.edges + 3 * j ∧ side r (4 * j + 3) 1 = 2 * m.edges + 3 * j + 1 ∧ side r (4 * j + 3) 2 = 2 * m.edges + 3 * j + 2

theorem Shape.half_joins (h : Shape m r) {f a b : Nat} (hf : f < m.edges) (hj : Joins m f a b) (hab : a ≠ b) :
    Joins r (half m f a) a (m.vertices + f) := by
  obtain ⟨a0, a1, -⟩ := h.half0 f hf
  obtain ⟨b0, b1, -⟩ := h.half1 f hf
  unfold half
  rcases hj with ⟨h1, h2⟩ | ⟨h1, h2⟩
  · rw [if_pos h1]; exact .inl ⟨a0.trans h1, a1⟩
  · rw [if_neg (by rw [h1]; exact hab.symm)]; exact .inr ⟨b0, b1.trans h2⟩

theorem Corners.sides_ne {i a b c : Nat} (h : Corners m i a b c) :
    side m i 0 ≠ side m i 1 ∧ side m i 1 ≠ side m i 2 ∧ side m i 2 ≠ side m i 0 := by
  have h1 := h.ab; have h2 := h.bc; have h3 := h.ca
  have s0 := h.s0; have s1 := h.s1; have s2 := h.s2
  refine ⟨fun e => ?_, fun e => ?_, fun e => ?_⟩
  · rw [← e] at s1
    rcases s0 with ⟨p, q⟩ | ⟨p, q⟩ <;> rcases s1 with ⟨p', q'⟩ | ⟨p', q'⟩ <;> omega
  · rw [← e] at s2
    rcases s1 with ⟨p, q⟩ | ⟨p, q⟩ <;> rcases s2 with ⟨p', q'⟩ | ⟨p', q'⟩ <;> omega
  · rw [← e] at s0
    rcases s2 with ⟨p, q⟩ | ⟨p, q⟩ <;> rcases s0 with ⟨p', q'⟩ | ⟨p', q'⟩ <;> omega

theorem Corners.lt (hl : Legal m) {i a b c : Nat} (hi : i < m.triangles) (h : Corners m i a b c) :
    a < m.vertices ∧ b < m.vertices ∧ c < m.vertices := by
  have s1 := hl.sides i hi 1 (by omega)
  have s0 := hl.sides i hi 0 (by omega)
  have e0 := hl.ends _ s0 0 (by omega)
  have e1 := hl.ends _ s0 1 (by omega)
  have e2 := hl.ends _ s1 0 (by omega)
  have e3 := hl.ends _ s1 1 (by omega)
  rcases h.s0 with ⟨p, q⟩ | ⟨p, q⟩ <;> rcases h.s1 with ⟨p', q'⟩ | ⟨p', q'⟩ <;> omega

theorem Shape.split (h : Shape m r) (hl : Legal m) {i a b c : Nat} (hi : i < m.triangles) (hC : Corners m i a b c) :
    Corners r (4 * i) a (m.vertices + side m i 2) (m.vertices + side m i 1) ∧
    Corners r (4 * i + 1) (m.vertices + side m i 2) b (m.vertices + side m i 0) ∧
    Corners r (4 * i + 2) (m.vertices + side m i 1) (m.vertices + side m i 0) c ∧
    Corners r (4 * i + 3) (m.vertices + side m i 0) (m.vertices + side m i 1) (m.vertices + side m i 2) := by
  obtain ⟨⟨x1, x2, x3⟩, ⟨x4, x5, x6⟩, ⟨x7, x8, x9⟩, x10, x11, x12⟩ := h.sub i hi a b c hC
  obtain ⟨n1, n2, n3⟩ := Corners.sides_ne hC
  obtain ⟨la, lb, lc⟩ := Corners.lt hl hi hC
  have s0 := hl.sides i hi 0 (by omega)
  have s1 := hl.sides i hi 1 (by omega)
  have s2 := hl.sides i hi 2 (by omega)
  obtain ⟨p0, p1, -⟩ := h.in0 i hi
  obtain ⟨p2, p3, -⟩ := h.in1 i hi
  obtain ⟨p4, p5, -⟩ := h.in2 i hi
  have i0 : Joins r (2 * m.edges + 3 * i) (m.vertices + side m i 1) (m.vertices + side m i 2) := .inl ⟨p0, p1⟩
  have i1 : Joins r (2 * m.edges + 3 * i + 1) (m.vertices + side m i 2) (m.vertices + side m i 0) := .inl ⟨p2, p3⟩
  have i2 : Joins r (2 * m.edges + 3 * i + 2) (m.vertices + side m i 0) (m.vertices + side m i 1) := .inl ⟨p4, p5⟩
  refine ⟨⟨by omega, by omega, by omega, ?_, ?_, ?_⟩, ⟨by omega, by omega, by omega, ?_, ?_, ?_⟩, ⟨by omega, by omega, by omega, ?_, ?_, ?_⟩,
    ⟨by omega, by omega, by omega, ?_, ?_, ?_⟩⟩
  · rw [x1]; exact Joins.symm i0
  · rw [x2]; exact Joins.symm (h.half_joins s1 (Joins.symm hC.s1) hC.ca.symm)
  · rw [x3]; exact h.half_joins s2 hC.s2 hC.ab
  · rw [x4]; exact h.half_joins s0 hC.s0 hC.bc
  · rw [x5]; exact Joins.symm i1
  · rw [x6]; exact Joins.symm (h.half_joins s2 (Joins.symm hC.s2) hC.ab.symm)
  · rw [x7]; exact Joins.symm (h.half_joins s0 (Joins.symm hC.s0) hC.bc.symm)
  · rw [x8]; exact (h.half_joins s1 hC.s1 hC.ca)
  · rw [x9]; exact Joins.symm i2
  · rw [x10]; exact i0
  · rw [x11]; exact i1
  · rw [x12]; exact i2

theorem half_lt (m : Mesh K) (f a : Nat) : 2 * f ≤ half m f a ∧ half m f a < 2 * f + 2 := by unfold half; split <;> omega

theorem Shape.legal (h : Shape m r) (hl : Legal m) (hc : ∀ i < m.triangles, ∃ a b c, Corners m i a b c) : Legal r where
  toSized := h.toSized
  ends := by
    intro i hi k hk
    rw [h.vertices]; rw [h.edges] at hi
    rcases (show i < 2 * m.edges ∨ 2 * m.edges ≤ i by omega) with h1 | h1
    · have e0 := hl.ends (i / 2) (by omega) 0 (by omega)
      have e1 := hl.ends (i / 2) (by omega) 1 (by omega)
      obtain ⟨a0, a1, -⟩ := h.half0 (i / 2) (by omega)
      obtain ⟨b0, b1, -⟩ := h.half1 (i / 2) (by omega)
      rcases (show i = 2 * (i / 2) ∨ i = 2 * (i / 2) + 1 by omega) with h2 | h2 <;>
        rcases (show k = 0 ∨ k = 1 by omega) with rfl | rfl <;> rw [h2] <;> omega
    · have hj : (i - 2 * m.edges) / 3 < m.triangles := by omega
      have e0 := hl.sides _ hj 0 (by omega)
      have e1 := hl.sides _ hj 1 (by omega)
      have e2 := hl.sides _ hj 2 (by omega)
      obtain ⟨p0, p1, -⟩ := h.in0 _ hj
      obtain ⟨p2, p3, -⟩ := h.in1 _ hj
      obtain ⟨p4, p5, -⟩ := h.in2 _ hj
      generalize hJ : (i - 2 * m.edges) / 3 = j at *
      rcases (show i = 2 * m.edges + 3 * j ∨ i = 2 * m.edges + 3 * j + 1 ∨ i = 2 * m.edges + 3 * j + 2 by omega) with h2 | h2 | h2 <;>
        rcases (show k = 0 ∨ k = 1 by omega) with rfl | rfl <;> rw [h2] <;> omega
  sides := by
    intro i hi k hk
    rw [h.edges]; rw [h.triangles] at hi
    have hj : i / 4 < m.triangles := by omega
    have e0 := hl.sides _ hj 0 (by omega)
    have e1 := hl.sides _ hj 1 (by omega)
    have e2 := hl.sides _ hj 2 (by omega)
    obtain ⟨a, b, c, hC⟩ := hc _ hj
    obtain ⟨⟨x1, x2, x3⟩, ⟨x4, x5, x6⟩, ⟨x7, x8, x9⟩, x10, x11, x12⟩ := h.sub _ hj a b c hC
    have g1 := half_lt m (side m (i / 4) 1) a
    have g2 := half_lt m (side m (i / 4) 2) a
    have g3 := half_lt m (side m (i / 4) 0) b
    have g4 := half_lt m (side m (i / 4) 2) b
    have g5 := half_lt m (side m (i / 4) 0) c
    have g6 := half_lt m (side m (i / 4) 1) c
    generalize hJ : i / 4 = j at *
    rcases (show i = 4 * j ∨ i = 4 * j + 1 ∨ i = 4 * j + 2 ∨ i = 4 * j + 3 by omega) with h2 | h2 | h2 | h2 <;>
      rcases (show k = 0 ∨ k = 1 ∨ k = 2 by omega) with rfl | rfl | rfl <;> rw [h2] <;> omega

/-- occurrences of edge `f` in triangle `i` -/
def occ (m : Mesh K) (f i : Nat) : Nat :=
  (if side m i 0 = f then 1 else 0) + (if side m i 1 = f then 1 else 0) + if side m i 2 = f then 1 else 0

theorem incidences_eq (m : Mesh K) (f : Nat) : incidences m f = ∑ i ∈ Finset.range m.triangles, occ m f i := by
  unfold incidences
  rw [Finset.card_filter, Finset.sum_product]
  refine Finset.sum_congr rfl fun i _ => ?_
  simp only [Finset.sum_range_succ, Finset.sum_range_zero, zero_add]; rfl

theorem sum_four (g : Nat → Nat) (n : Nat) :
    ∑ i ∈ Finset.range (4 * n), g i = ∑ i ∈ Finset.range n, (g (4 * i) + g (4 * i + 1) + g (4 * i + 2) + g (4 * i + 3)) := by
  induction n with
  | zero => rfl
  | succ n ih =>
    rw [show 4 * (n + 1) = 4 * n + 1 + 1 + 1 + 1 by omega]
    simp only [Finset.sum_range_succ, ih]; omega

/-- the two halves of an edge at its two end points -/
theorem half_pair {f a b : Nat} (hj : Joins m f a b) (hab : a ≠ b) (g : Nat) :
    (if half m f a = g then 1 else 0) + (if half m f b = g then 1 else 0) = if f = g / 2 then 1 else 0 := by
  unfold half
  rcases hj with ⟨h1, h2⟩ | ⟨h1, h2⟩
  · rw [if_pos h1, if_neg (show ¬ endp m f 0 = b by rw [h1]; exact hab)]; split_ifs <;> omega
  · rw [if_pos h1, if_neg (show ¬ endp m f 0 = a by rw [h1]; exact hab.symm)]; split_ifs <;> omega

theorem Shape.occ_half (h : Shape m r) (hl : Legal m) {i a b c : Nat} (hi : i < m.triangles) (hC : Corners m i a b c) {g : Nat}
    (hg : g < 2 * m.edges) :
    occ r g (4 * i) + occ r g (4 * i + 1) + occ r g (4 * i + 2) + occ r g (4 * i + 3) = occ m (g / 2) i := by
  obtain ⟨⟨x1, x2, x3⟩, ⟨x4, x5, x6⟩, ⟨x7, x8, x9⟩, x10, x11, x12⟩ := h.sub i hi a b c hC
  have y0 := half_pair hC.s0 hC.bc g
  have y1 := half_pair hC.s1 hC.ca g
  have y2 := half_pair hC.s2 hC.ab g
  unfold occ
  rw [x1, x2, x3, x4, x5, x6, x7, x8, x9, x10, x11, x12, ← y0, ← y1, ← y2]
  rw [if_neg (show ¬ 2 * m.edges + 3 * i = g by omega), if_neg (show ¬ 2 * m.edges + 3 * i + 1 = g by omega),
    if_neg (show ¬ 2 * m.edges + 3 * i + 2 = g by omega)]
  omega

theorem Shape.occ_inner (h : Shape m r) (hl : Legal m) {i a b c : Nat} (hi : i < m.triangles) (hC : Corners m i a b c) {g : Nat}
    (hg : 2 * m.edges ≤ g) :
    occ r g (4 * i) + occ r g (4 * i + 1) + occ r g (4 * i + 2) + occ r g (4 * i + 3) = if i = (g - 2 * m.edges) / 3 then 2 else 0 := by
  obtain ⟨⟨x1, x2, x3⟩, ⟨x4, x5, x6⟩, ⟨x7, x8, x9⟩, x10, x11, x12⟩ := h.sub i hi a b c hC
  have e0 := hl.sides i hi 0 (by omega)
  have e1 := hl.sides i hi 1 (by omega)
  have e2 := hl.sides i hi 2 (by omega)
  have g1 := half_lt m (side m i 1) a
  have g2 := half_lt m (side m i 2) a
  have g3 := half_lt m (side m i 0) b
  have g4 := half_lt m (side m i 2) b
  have g5 := half_lt m (side m i 0) c
  have g6 := half_lt m (side m i 1) c
  unfold occ
  rw [x1, x2, x3, x4, x5, x6, x7, x8, x9, x10, x11, x12]
  rw [if_neg (show ¬ half m (side m i 1) a = g by omega), if_neg (show ¬ half m (side m i 2) a = g by omega),
    if_neg (show ¬ half m (side m i 0) b = g by omega), if_neg (show ¬ half m (side m i 2) b = g by omega),
    if_neg (show ¬ half m (side m i 0) c = g by omega), if_neg (show ¬ half m (side m i 1) c = g by omega)]
  split_ifs <;> omega

theorem Shape.inc_half (h : Shape m r) (hl : Legal m) (hc : ∀ i < m.triangles, ∃ a b c, Corners m i a b c) {g : Nat}
    (hg : g < 2 * m.edges) : incidences r g = incidences m (g / 2) := by
  rw [incidences_eq, incidences_eq, h.triangles, sum_four]
  refine Finset.sum_congr rfl fun i hi => ?_
  rw [Finset.mem_range] at hi
  obtain ⟨a, b, c, hC⟩ := hc i hi
  exact h.occ_half hl hi hC hg

theorem Shape.inc_inner (h : Shape m r) (hl : Legal m) (hc : ∀ i < m.triangles, ∃ a b c, Corners m i a b c) {g : Nat}
    (hg : 2 * m.edges ≤ g) (hg' : g < r.edges) : incidences r g = 2 := by
  rw [incidences_eq, h.triangles, sum_four]
  rw [Finset.sum_congr rfl (g := fun i => if i = (g - 2 * m.edges) / 3 then 2 else 0)]
  · rw [Finset.sum_ite_eq' , if_pos]
    rw [h.edges] at hg'; rw [Finset.mem_range]; omega
  · intro i hi
    rw [Finset.mem_range] at hi
    obtain ⟨a, b, c, hC⟩ := hc i hi
    exact h.occ_inner hl hi hC hg

theorem Shape.inner_flag (h : Shape m r) {f : Nat} (h1 : 2 * m.edges ≤ f) (h2 : f < r.edges) : r.eb.v f = 0 := by
  rw [h.edges] at h2
  have hj : (f - 2 * m.edges) / 3 < m.triangles := by omega
  obtain ⟨-, -, p0⟩ := h.in0 _ hj
  obtain ⟨-, -, p1⟩ := h.in1 _ hj
  obtain ⟨-, -, p2⟩ := h.in2 _ hj
  generalize hJ : (f - 2 * m.edges) / 3 = j at *
  rcases (show f = 2 * m.edges + 3 * j ∨ f = 2 * m.edges + 3 * j + 1 ∨ f = 2 * m.edges + 3 * j + 2 by omega) with e | e | e <;> rw [e] <;> assumption

theorem Shape.half_flag (h : Shape m r) {f : Nat} (h1 : f < 2 * m.edges) : r.eb.v f = m.eb.v (f / 2) := by
  obtain ⟨-, -, p0⟩ := h.half0 (f / 2) (by omega)
  obtain ⟨-, -, p1⟩ := h.half1 (f / 2) (by omega)
  rcases (show f = 2 * (f / 2) ∨ f = 2 * (f / 2) + 1 by omega) with e | e
  · rw [← p0, ← e]
  · rw [← p1, ← e]

theorem Shape.consistent (h : Shape m r) (hm : ConsistentMesh m) : ConsistentMesh r where
  toLegal := h.legal hm.toLegal hm.tri
  inner := by
    intro i hi h0
    rcases (show i < 2 * m.edges ∨ 2 * m.edges ≤ i by omega) with h1 | h1
    · rw [h.inc_half hm.toLegal hm.tri h1]
      exact hm.inner _ (by omega) (by rw [← h.half_flag h1]; exact h0)
    · exact h.inc_inner hm.toLegal hm.tri h1 hi
  outer := by
    intro i hi h0
    rcases (show i < 2 * m.edges ∨ 2 * m.edges ≤ i by omega) with h1 | h1
    · rw [h.inc_half hm.toLegal hm.tri h1]
      exact hm.outer _ (by omega) (by rw [← h.half_flag h1]; exact h0)
    · rw [h.inner_flag h1 hi] at h0; omega
  flags := by
    intro i hi h0
    rcases (show i < 2 * m.edges ∨ 2 * m.edges ≤ i by omega) with h1 | h1
    · rw [h.half_flag h1] at h0
      have hj : i / 2 < m.edges := by omega
      obtain ⟨f0, f1⟩ := hm.flags _ hj h0
      have e0 := hm.ends _ hj 0 (by omega)
      have e1 := hm.ends _ hj 1 (by omega)
      obtain ⟨a0, a1, -⟩ := h.half0 (i / 2) (by omega)
      obtain ⟨b0, b1, -⟩ := h.half1 (i / 2) (by omega)
      have hx := h.xb1 _ hj
      rcases (show i = 2 * (i / 2) ∨ i = 2 * (i / 2) + 1 by omega) with e | e <;> rw [e]
      · rw [a0, a1, hx, h.xb0 _ e0]; exact ⟨f0, by omega⟩
      · rw [b0, b1, hx, h.xb0 _ e1]; exact ⟨by omega, f1⟩
    · rw [h.inner_flag h1 hi] at h0; omega
  tri := by
    intro i hi
    rw [h.triangles] at hi
    have hj : i / 4 < m.triangles := by omega
    obtain ⟨a, b, c, hC⟩ := hm.tri _ hj
    obtain ⟨c0, c1, c2, c3⟩ := h.split hm.toLegal hj hC
    rcases (show i = 4 * (i / 4) ∨ i = 4 * (i / 4) + 1 ∨ i = 4 * (i / 4) + 2 ∨ i = 4 * (i / 4) + 3 by omega) with e | e | e | e <;> rw [e]
    · exact ⟨_, _, _, c0⟩
    · exact ⟨_, _, _, c1⟩
    · exact ⟨_, _, _, c2⟩
    · exact ⟨_, _, _, c3⟩

/-- `refine_tri2d` computes the refinement -/
theorem refineTri2d_tot (jx : Nat → K) (jn : Nat → Nat) (t2r : Bool) (hm : ConsistentMesh m) :
    Tot (refineTri2d jx jn t2r m) fun p => Shape m p.1 ∧ Refinement m p.1 ∧ (t2r = true → Fathers m p.1 p.2) := by
  unfold refineTri2d
  refine Tot.bind (copyVertices_tot t2r hm.toSized (m := m) ⟨rfl, rfl, rfl, fun j hj => absurd hj (by omega), fun j hj => absurd hj (by omega),
    fun hb => ?_⟩) ?_
  · subst hb; exact ⟨rfl, rfl, fun j hj => absurd hj (by omega), fun j hj => absurd hj (by omega)⟩
  intro s _ hs
  refine Tot.bind (midVertices_tot t2r hm.toLegal hs) ?_
  intro s' _ hs'
  refine Tot.cassert (decide_eq_true hs'.i) ?_
  have hev : s.i = m.vertices := hs.i
  rw [hev]
  refine Tot.bind (splitEdges_tot t2r hm.toSized (m := m) ⟨rfl, rfl, rfl, fun j hj => absurd hj (by omega), fun j hj => absurd hj (by omega),
    fun j hj => absurd hj (by omega), fun j hj => absurd hj (by omega), fun j hj => absurd hj (by omega), fun hb => ?_⟩) ?_
  · subst hb; exact ⟨rfl, rfl, fun j hj => absurd hj (by omega), fun j hj => absurd hj (by omega)⟩
  intro q _ hq
  refine Tot.bind (innerEdges_tot t2r hm.toSized hq) ?_
  intro q' _ hq'
  have hte : q.i = 2 * m.edges := hq.i
  rw [hte]
  refine Tot.bind (splitTriangles_tot t2r hm.toLegal hm.tri hq' (s := ⟨0, _, _⟩) ⟨rfl, rfl, fun j hj => absurd hj (by omega), fun hb => ?_⟩) ?_
  · subst hb; exact ⟨rfl, fun j hj => absurd hj (by omega)⟩
  intro w _ hw
  have hS : Shape m (⟨m.vertices + m.edges, 2 * m.edges + 3 * m.triangles, 4 * m.triangles, s'.x, q'.e, w.t, s'.xb, q'.eb⟩ : Mesh K) := by
    refine ⟨⟨hs'.xn, hq'.en, hw.tn, hs'.xbn, hq'.ebn⟩, rfl, rfl, rfl, ?_, ?_, ?_, ?_, ?_, ?_, ?_, ?_⟩
    · intro j hj
      obtain ⟨a, b, c⟩ := hq'.half0 j hj
      refine ⟨?_, ?_, c⟩
      · rw [← a]; show q'.e.v (2 * (2 * j) + 0) = _; congr 1; omega
      · rw [← b]; show q'.e.v (2 * (2 * j) + 1) = _; congr 1; omega
    · intro j hj
      obtain ⟨a, b, c⟩ := hq'.half1 j hj
      refine ⟨?_, ?_, c⟩
      · rw [← a]; show q'.e.v (2 * (2 * j + 1) + 0) = _; congr 1; omega
      · rw [← b]; show q'.e.v (2 * (2 * j + 1) + 1) = _; congr 1; omega
    · exact fun j hj => hq'.in0 j hj
    · exact fun j hj => hq'.in1 j hj
    · exact fun j hj => hq'.in2 j hj
    · exact fun j hj => (hs'.old j hj).2.2
    · exact fun j hj => (hs'.new j hj).2.2
    · intro j hj a b c hC
      obtain ⟨⟨x1, x2, x3⟩, ⟨x4, x5, x6⟩, ⟨x7, x8, x9⟩, x10, x11, x12⟩ := hw.sub j hj a b c hC
      have : ∀ i k, side (⟨m.vertices + m.edges, 2 * m.edges + 3 * m.triangles, 4 * m.triangles, s'.x, q'.e, w.t, s'.xb, q'.eb⟩ : Mesh K) i k =
        w.t.v (3 * i + k) := fun _ _ => rfl
      simp only [this]
      refine ⟨⟨Eq.trans ?_ x1, Eq.trans ?_ x2, Eq.trans ?_ x3⟩, ⟨Eq.trans ?_ x4, Eq.trans ?_ x5, Eq.trans ?_ x6⟩,
        ⟨Eq.trans ?_ x7, Eq.trans ?_ x8, Eq.trans ?_ x9⟩, Eq.trans ?_ x10, Eq.trans ?_ x11, Eq.trans ?_ x12⟩ <;> (congr 1; omega)
  refine Tot.pure ⟨hS, ⟨rfl, rfl, rfl, ?_, ?_, hS.half0, hS.half1, fun f h1 h2 => hS.inner_flag h1 h2,
    fun i hi a b c hC => hS.split hm.toLegal hi hC⟩, fun hb => ?_⟩
  · intro j hj
    obtain ⟨a, b, c⟩ := hs'.old j hj
    exact ⟨Prod.ext a b, c⟩
  · intro j hj
    obtain ⟨a, b, c⟩ := hs'.new j hj
    refine ⟨Prod.ext (a.trans ?_) (b.trans ?_), c⟩
    · show _ = (_ + _) / 2; rw [one_div, div_eq_inv_mul]; rfl
    · show _ = (_ + _) / 2; rw [one_div, div_eq_inv_mul]; rfl
  · obtain ⟨a1, a2, a3, a4⟩ := hs'.ref hb
    obtain ⟨b1, b2, b3, b4⟩ := hq'.ref hb
    obtain ⟨c1, c2⟩ := hw.ref hb
    exact ⟨a3, a4, b3, b4, c2, a1, a2, b1, b2, c1⟩

end H2.Tri2d
