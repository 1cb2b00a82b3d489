import Verif.Proof.TriP1b

/-! Piecewise linear finite elements: the assembled matrices. -/

set_option linter.unusedSectionVars false

namespace H2.P1
open Spec Tri2d

variable {m : Mesh ℝ} {dc : Disc}

theorem exists_w (hl : Legal m) {c : Nat → Nat × Nat × Nat} (hc : CornersAll m c) : ∃ w : Nat → Nat × Nat × Nat, ∀ d < m.triangles, vertsOf m d = .ok (w d) ∧ (w d).2.2 = (c d).1 ∧
    (((w d).1 = (c d).2.1 ∧ (w d).2.1 = (c d).2.2) ∨ ((w d).1 = (c d).2.2 ∧ (w d).2.1 = (c d).2.1)) := by
  classical
  have h : ∀ d, ∃ w : Nat × Nat × Nat, d < m.triangles → vertsOf m d = .ok w ∧ w.2.2 = (c d).1 ∧ ((w.1 = (c d).2.1 ∧ w.2.1 = (c d).2.2) ∨ (w.1 = (c d).2.2 ∧ w.2.1 = (c d).2.1)) := by
    intro d
    by_cases hd : d < m.triangles
    · obtain ⟨v0, v1, e, h⟩ := vertsOf_eq hl hd (hc d hd)
      exact ⟨(v0, v1, (c d).1), fun _ => ⟨e, rfl, h⟩⟩
    · exact ⟨(0, 0, 0), fun h => absurd h hd⟩
  choose w hw using h
  exact ⟨w, hw⟩

/-- the vertices found by `vertsOf` are the corners -/
def Perm3 (w c : Nat × Nat × Nat) : Prop := w.2.2 = c.1 ∧ ((w.1 = c.2.1 ∧ w.2.1 = c.2.2) ∨ (w.1 = c.2.2 ∧ w.2.1 = c.2.1))

theorem perm_lt {w c : Nat × Nat × Nat} (h : Perm3 w c) {n : Nat} (h1 : c.1 < n) (h2 : c.2.1 < n) (h3 : c.2.2 < n) : ∀ i < 3, tup w i < n := by
  obtain ⟨e, ⟨e1, e2⟩ | ⟨e1, e2⟩⟩ := h
  · exact tup_lt (by omega) (by omega) (by omega)
  · exact tup_lt (by omega) (by omega) (by omega)

theorem perm_corner (hC : Corners m d c.1 c.2.1 c.2.2) {w : Nat × Nat × Nat} (h : Perm3 w c) {i : Nat} (hi : i < 3) : IsCorner m d (tup w i) := by
  rw [corner_iff hC]
  have : i = 0 ∨ i = 1 ∨ i = 2 := by omega
  obtain ⟨e, ⟨e1, e2⟩ | ⟨e1, e2⟩⟩ := h <;> rcases this with rfl | rfl | rfl
  · exact .inr (.inl e1)
  · exact .inr (.inr e2)
  · exact .inl e
  · exact .inr (.inr e1)
  · exact .inr (.inl e2)
  · exact .inl e

theorem perm_area (m : Mesh ℝ) {w c : Nat × Nat × Nat} (h : Perm3 w c) : |area2 (pt m w.1) (pt m w.2.1) (pt m w.2.2)| = |area2 (pt m c.1) (pt m c.2.1) (pt m c.2.2)| := by
  obtain ⟨e, ⟨e1, e2⟩ | ⟨e1, e2⟩⟩ := h <;> rw [e, e1, e2]
  · congr 1; unfold area2; ring
  · rw [← abs_neg]; congr 1; unfold area2; ring

theorem perm_grad {w c : Nat × Nat × Nat} (h : Perm3 w c) {u : Nat → ℝ} {g : ℝ × ℝ} (hg : IsGrad (pt m c.1) (pt m c.2.1) (pt m c.2.2) (u c.1) (u c.2.1) (u c.2.2) g) :
    IsGrad (pt m w.1) (pt m w.2.1) (pt m w.2.2) (u w.1) (u w.2.1) (u w.2.2) g := by
  obtain ⟨e, ⟨e1, e2⟩ | ⟨e1, e2⟩⟩ := h <;> rw [e, e1, e2]
  · exact (grad_rot hg).1
  · exact (grad_rot hg).2

theorem inner_dof (hn : Numbered m dc) {v : Nat} (hv : v ∈ innerV m) : dc.isDof.v v = true := (hn.isDof v hv.1).mpr hv.2
theorem fixed_dof (hn : Numbered m dc) {v : Nat} (hv : v ∈ fixedV m) : dc.isDof.v v = false := by
  have := hn.isDof v hv.1
  cases h : dc.isDof.v v
  · rfl
  · exact absurd (this.mp h) hv.2

/-- the vertices for the columns -/
def colsV (m : Mesh ℝ) (fix : Bool) : Set Nat := if fix then fixedV m else innerV m

theorem cols_iff (hn : Numbered m dc) {fix : Bool} {v : Nat} : v ∈ colsV m fix ↔ v < m.vertices ∧ dc.isDof.v v = !fix := by
  cases fix
  · constructor
    · intro h; exact ⟨h.1, inner_dof hn h⟩
    · rintro ⟨h1, h2⟩; exact ⟨h1, (hn.isDof v h1).mp h2⟩
  · constructor
    · intro h; exact ⟨h.1, fixed_dof hn h⟩
    · rintro ⟨h1, h2⟩
      exact ⟨h1, fun e => by rw [(hn.isDof v h1).mpr e] at h2; cases h2⟩

theorem pos_of (hl : Legal m) {c w : Nat → Nat × Nat × Nat} (hc : CornersAll m c) (hn : Numbered m dc) (hw : ∀ d < m.triangles, Perm3 (w d) (c d)) {fix : Bool} {A : Sparse ℝ} (hp : PatternFor m dc (colsV m fix) A) :
    ∀ d < m.triangles, ∀ i < 3, ∀ j < 3, ∀ r k, pos dc fix (tup (w d)) i j r k → HasPos A r k := by
  rintro d hd i hi j hj r k ⟨h1, h2, rfl, rfl⟩
  obtain ⟨q1, q2, q3⟩ := corners_lt hl hd (hc d hd)
  have hx := perm_lt (hw d hd) q1 q2 q3
  exact hp.pos _ ((cols_iff hn (fix := false)).mpr ⟨hx i hi, h1⟩) _ ((cols_iff hn).mpr ⟨hx j hj, h2⟩) ⟨d, hd, perm_corner (hc d hd) (hw d hd) hi, perm_corner (hc d hd) (hw d hd) hj⟩

theorem added_of (hl : Legal m) {c w : Nat → Nat × Nat × Nat} (hc : CornersAll m c) (hn : Numbered m dc) (hw : ∀ d < m.triangles, Perm3 (w d) (c d)) {fix : Bool} {A B : Sparse ℝ} (hA : CSR A)
    {At : Nat → Nat → Nat → ℝ} (h : Summed dc fix w At A m.triangles B) :
    FormAdded m dc (colsV m fix) (fun v z => ∑ d ∈ Finset.range m.triangles, qform (At d) (fun i => hat v (tup (w d) i)) (fun j => hat z (tup (w d) j))) A B := by
  obtain ⟨h1, h2⟩ := h
  refine ⟨Sparse.SamePattern.csr h1 hA, h1.rows, h1.cols, Sparse.SamePattern.hasPos h1, fun v hv z hz => ?_⟩
  have hd := inner_dof hn hv
  have hi := idx_lt hn hv.1
  rw [if_pos hd] at hi
  rw [h2 _ hi]
  congr 1
  refine Finset.sum_congr rfl fun d hd' => ?_
  rw [Finset.mem_range] at hd'
  obtain ⟨q1, q2, q3⟩ := corners_lt hl hd' (hc d hd')
  obtain ⟨hz1, hz2⟩ := (cols_iff hn).mp hz
  exact contrib_hat hn (perm_lt (hw d hd') q1 q2 q3) (At d) hv.1 hz1 hd hz2

theorem added_congr {ws : Set Nat} {f g : Nat → Nat → ℝ} {A B : Sparse ℝ} (h : FormAdded m dc ws f A B) (e : ∀ v ∈ innerV m, ∀ w ∈ ws, f v w = g v w) : FormAdded m dc ws g A B :=
  ⟨h.csr, h.rows, h.cols, h.pos, fun v hv w hw => by rw [h.entries v hv w hw, e v hv w hw]⟩

/-- assembling with an element form -/
theorem assemble_form (hl : Legal m) {c : Nat → Nat × Nat × Nat} (hc : CornersAll m c) (hn : Numbered m dc) {elem : ℝ × ℝ → ℝ × ℝ → ℝ × ℝ → R (Nat → Nat → ℝ)} {form : Nat → (Nat → ℝ) → (Nat → ℝ) → ℝ}
    (he : ∀ d < m.triangles, ∀ w, Perm3 w (c d) → ∃ At, elem (pt m w.1) (pt m w.2.1) (pt m w.2.2) = .ok At ∧ ∀ u z : Nat → ℝ, qform At (fun i => u (tup w i)) (fun i => z (tup w i)) = form d u z)
    {A : Sparse ℝ} (hA : PatternFor m dc (innerV m) A) {Af : Option (Sparse ℝ)} (hf : ∀ B, Af = some B → PatternFor m dc (fixedV m) B) :
    ∃ A' Af', assemble elem dc A Af = .ok (A', Af') ∧ FormAdded m dc (innerV m) (fun v z => ∑ d ∈ Finset.range m.triangles, form d (hat v) (hat z)) A A' ∧ (Af = none → Af' = none) ∧
      ∀ B, Af = some B → ∃ B', Af' = some B' ∧ FormAdded m dc (fixedV m) (fun v z => ∑ d ∈ Finset.range m.triangles, form d (hat v) (hat z)) B B' := by
  classical
  obtain ⟨w, hw⟩ := exists_w hl hc
  have hw' : ∀ d < m.triangles, Perm3 (w d) (c d) := fun d hd => (hw d hd).2
  have h : ∀ d, ∃ At : Nat → Nat → ℝ, d < m.triangles → elem (pt m (w d).1) (pt m (w d).2.1) (pt m (w d).2.2) = .ok At ∧
      ∀ u z : Nat → ℝ, qform At (fun i => u (tup (w d) i)) (fun i => z (tup (w d) i)) = form d u z := by
    intro d
    by_cases hd : d < m.triangles
    · obtain ⟨At, h⟩ := he d hd (w d) (hw' d hd)
      exact ⟨At, fun _ => h⟩
    · exact ⟨fun _ _ => 0, fun h => absurd h hd⟩
  choose At hAt using h
  obtain ⟨⟨A', Af'⟩, e, h1, h2⟩ := assemble_tot hl hc hn hw (fun d hd => (hAt d hd).1) hA.csr hA.rows (pos_of hl hc hn hw' (fix := false) hA)
    (fun B hB => ⟨(hf B hB).csr, (hf B hB).rows, pos_of hl hc hn hw' (fix := true) (hf B hB)⟩)
  refine ⟨A', Af', e, added_congr (added_of hl hc hn hw' (fix := false) hA.csr h1) fun v hv z hz => ?_, ?_, ?_⟩
  · exact Finset.sum_congr rfl fun d hd => (hAt d (Finset.mem_range.mp hd)).2 _ _
  · rintro rfl
    exact h2
  · rintro B rfl
    obtain ⟨B', e', h3⟩ := h2
    refine ⟨B', e', added_congr (added_of hl hc hn hw' (fix := true) (hf B rfl).csr h3) fun v hv z hz => ?_⟩
    exact Finset.sum_congr rfl fun d hd => (hAt d (Finset.mem_range.mp hd)).2 _ _

theorem hat_sum (hn : Numbered m dc) (x : Nat → ℝ) {v : Nat} (hv : v < m.vertices) :
    dofFun dc x v = ∑ z ∈ (Finset.range m.vertices).filter (fun z => m.xb.v z = 0), x (dc.idx.v z) * hat z v := by
  unfold dofFun
  by_cases h : dc.isDof.v v = true
  · rw [if_pos h, Finset.sum_eq_single v]
    · simp [hat]
    · intro z _ hz
      simp [hat, hz.symm]
    · intro hh
      exact absurd (Finset.mem_filter.mpr ⟨Finset.mem_range.mpr hv, (hn.isDof v hv).mp h⟩) hh
  · rw [if_neg h, Finset.sum_eq_zero]
    intro z hz
    rw [Finset.mem_filter] at hz
    have : v ≠ z := by
      rintro rfl
      exact h ((hn.isDof v hv).mpr hz.2)
    simp [hat, this]

theorem sum_dofs (hn : Numbered m dc) (f : Nat → ℝ) : ∑ i ∈ Finset.range dc.ndof, f i = ∑ z ∈ (Finset.range m.vertices).filter (fun z => m.xb.v z = 0), f (dc.idx.v z) := by
  symm
  refine Finset.sum_nbij dc.idx.v ?_ ?_ ?_ fun _ _ => rfl
  · intro z hz
    rw [Finset.mem_filter, Finset.mem_range] at hz
    rw [Finset.mem_range]
    exact hn.dofs.1 hz
  · intro a ha b hb h
    have ha' : a ∈ innerV m := by simpa [innerV] using ha
    have hb' : b ∈ innerV m := by simpa [innerV] using hb
    exact hn.dofs.2.1 ha' hb' h
  · intro i hi
    have hi' : i ∈ Set.Iio dc.ndof := by simpa using hi
    obtain ⟨z, hz, e⟩ := hn.dofs.2.2 hi'
    exact ⟨z, by simpa [innerV] using hz, e⟩

theorem qform_sum {S : Finset Nat} (At : Nat → Nat → ℝ) (x y : Nat → ℝ) (u z : Nat → Nat → ℝ) :
    ∑ a ∈ S, ∑ b ∈ S, x a * y b * qform At (u a) (z b) = qform At (fun i => ∑ a ∈ S, x a * u a i) (fun j => ∑ b ∈ S, y b * z b j) := by
  unfold qform
  simp only [Finset.mul_sum, Finset.sum_mul]
  rw [Finset.sum_comm]
  conv_lhs =>
    enter [2, b]
    rw [Finset.sum_comm]
    enter [2, i]
    rw [Finset.sum_comm]
  rw [Finset.sum_comm]
  refine Finset.sum_congr rfl fun i _ => ?_
  rw [Finset.sum_comm]
  refine Finset.sum_congr rfl fun j _ => ?_
  refine Finset.sum_congr rfl fun a _ => Finset.sum_congr rfl fun b _ => ?_
  ring

end H2.P1
