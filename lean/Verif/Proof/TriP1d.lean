import Verif.Proof.TriP1c

/-! Piecewise linear finite elements: bilinear forms, load vectors, norms. -/

set_option linter.unusedSectionVars false

namespace H2.P1
open Spec Tri2d

variable {m : Mesh ℝ} {dc : Disc}

theorem bilinear_of (hl : Legal m) {c : Nat → Nat × Nat × Nat} (hc : CornersAll m c) (hn : Numbered m dc) {form : Nat → (Nat → ℝ) → (Nat → ℝ) → ℝ}
    (he : ∀ d < m.triangles, ∀ w, Perm3 w (c d) → ∃ At : Nat → Nat → ℝ, ∀ u z : Nat → ℝ, qform At (fun i => u (tup w i)) (fun i => z (tup w i)) = form d u z)
    {A B : Sparse ℝ} (h : FormAdded m dc (innerV m) (fun v z => ∑ d ∈ Finset.range m.triangles, form d (hat v) (hat z)) A B) (x y : Nat → ℝ) :
    ∑ i ∈ Finset.range dc.ndof, ∑ j ∈ Finset.range dc.ndof, x i * y j * entry B i j =
      ∑ i ∈ Finset.range dc.ndof, ∑ j ∈ Finset.range dc.ndof, x i * y j * entry A i j + ∑ d ∈ Finset.range m.triangles, form d (dofFun dc x) (dofFun dc y) := by
  rw [← sub_eq_iff_eq_add', ← Finset.sum_sub_distrib]
  simp only [← Finset.sum_sub_distrib, ← mul_sub]
  rw [sum_dofs hn]
  have e1 : ∀ v ∈ (Finset.range m.vertices).filter (fun z => m.xb.v z = 0), ∑ j ∈ Finset.range dc.ndof, x (dc.idx.v v) * y j * (entry B (dc.idx.v v) j - entry A (dc.idx.v v) j) =
      ∑ d ∈ Finset.range m.triangles, ∑ z ∈ (Finset.range m.vertices).filter (fun z => m.xb.v z = 0), x (dc.idx.v v) * y (dc.idx.v z) * form d (hat v) (hat z) := by
    intro v hv
    rw [sum_dofs hn, Finset.sum_comm]
    refine Finset.sum_congr rfl fun z hz => ?_
    rw [Finset.mem_filter, Finset.mem_range] at hv hz
    rw [h.entries v hv z hz, add_sub_cancel_left, Finset.mul_sum]
  rw [Finset.sum_congr rfl e1, Finset.sum_comm]
  refine Finset.sum_congr rfl fun d hd => ?_
  rw [Finset.mem_range] at hd
  obtain ⟨At, hAt⟩ := he d hd ((c d).2.1, (c d).2.2, (c d).1) ⟨rfl, .inl ⟨rfl, rfl⟩⟩
  obtain ⟨q1, q2, q3⟩ := corners_lt hl hd (hc d hd)
  have hx := perm_lt (w := ((c d).2.1, (c d).2.2, (c d).1)) ⟨rfl, .inl ⟨rfl, rfl⟩⟩ q1 q2 q3
  simp only [← hAt]
  rw [qform_sum (u := fun v i => hat v (tup ((c d).2.1, (c d).2.2, (c d).1) i)) (z := fun v i => hat v (tup ((c d).2.1, (c d).2.2, (c d).1) i)) (x := fun v => x (dc.idx.v v)) (y := fun v => y (dc.idx.v v))]
  unfold qform
  refine Finset.sum_congr rfl fun i hi => Finset.sum_congr rfl fun j hj => ?_
  rw [Finset.mem_range] at hi hj
  beta_reduce
  rw [hat_sum hn x (hx i hi), hat_sum hn y (hx j hj)]

/-- the gradient in one triangle -/
noncomputable def grd (m : Mesh ℝ) (c : Nat → Nat × Nat × Nat) (d : Nat) (u : Nat → ℝ) : ℝ × ℝ :=
  open Classical in
  if h : area2 (tp0 m c d) (tp1 m c d) (tp2 m c d) ≠ 0 then (grad_exists h (u (c d).1) (u (c d).2.1) (u (c d).2.2)).choose else (0, 0)

theorem grd_spec {c : Nat → Nat × Nat × Nat} {d : Nat} (h : area2 (tp0 m c d) (tp1 m c d) (tp2 m c d) ≠ 0) (u : Nat → ℝ) :
    IsGrad (tp0 m c d) (tp1 m c d) (tp2 m c d) (u (c d).1) (u (c d).2.1) (u (c d).2.2) (grd m c d u) := by
  unfold grd
  rw [dif_pos h]
  exact (grad_exists h (u (c d).1) (u (c d).2.1) (u (c d).2.2)).choose_spec.1

theorem grd_eq {c : Nat → Nat × Nat × Nat} {d : Nat} (h : area2 (tp0 m c d) (tp1 m c d) (tp2 m c d) ≠ 0) {u : Nat → ℝ} {g : ℝ × ℝ}
    (hg : IsGrad (tp0 m c d) (tp1 m c d) (tp2 m c d) (u (c d).1) (u (c d).2.1) (u (c d).2.2) g) : grd m c d u = g :=
  (grad_exists h (u (c d).1) (u (c d).2.1) (u (c d).2.2)).unique (grd_spec h u) hg

theorem gradOf_grd {c : Nat → Nat × Nat × Nat} (hnd : NonDegenerate m c) (u : Nat → ℝ) : GradOf m c u (fun d => grd m c d u) := fun d hd => grd_spec (hnd d hd) u

theorem energy_eq {c : Nat → Nat × Nat × Nat} (hnd : NonDegenerate m c) {u z : Nat → ℝ} {g h : Nat → ℝ × ℝ} (hg : GradOf m c u g) (hh : GradOf m c z h) :
    gradInt m c g h = ∑ d ∈ Finset.range m.triangles, triArea m c d * ((grd m c d u).1 * (grd m c d z).1 + (grd m c d u).2 * (grd m c d z).2) := by
  refine Finset.sum_congr rfl fun d hd => ?_
  rw [Finset.mem_range] at hd
  rw [grd_eq (hnd d hd) (hg d hd), grd_eq (hnd d hd) (hh d hd)]

theorem laplace_elem {c : Nat → Nat × Nat × Nat} (hnd : NonDegenerate m c) : ∀ d < m.triangles, ∀ w, Perm3 w (c d) → ∃ At, elemLaplace (pt m w.1) (pt m w.2.1) (pt m w.2.2) = .ok At ∧
    ∀ u z : Nat → ℝ, qform At (fun i => u (tup w i)) (fun i => z (tup w i)) = triArea m c d * ((grd m c d u).1 * (grd m c d z).1 + (grd m c d u).2 * (grd m c d z).2) := by
  intro d hd w hw
  have ha := perm_area m hw
  have hne : area2 (pt m w.1) (pt m w.2.1) (pt m w.2.2) ≠ 0 := by
    rw [← abs_ne_zero, ha, abs_ne_zero]
    exact hnd d hd
  obtain ⟨At, e, h⟩ := elemLaplace_ok hne
  refine ⟨At, e, fun u z => ?_⟩
  rw [h (u := fun i => u (tup w i)) (v := fun i => z (tup w i)) (perm_grad hw (grd_spec (hnd d hd) u)) (perm_grad hw (grd_spec (hnd d hd) z)), ha]
  rfl

theorem mass_elem (m : Mesh ℝ) (c : Nat → Nat × Nat × Nat) : ∀ d < m.triangles, ∀ w, Perm3 w (c d) → ∃ At, elemMass (pt m w.1) (pt m w.2.1) (pt m w.2.2) = .ok At ∧
    ∀ u z : Nat → ℝ, qform At (fun i => u (tup w i)) (fun i => z (tup w i)) =
      |area2 (tp0 m c d) (tp1 m c d) (tp2 m c d)| * ∫ s in (0 : ℝ)..1, ∫ t in (0 : ℝ)..(1 - s), linAt c u d s t * linAt c z d s t := by
  intro d hd w hw
  obtain ⟨At, e, h⟩ := elemMass_ok (pt m w.1) (pt m w.2.1) (pt m w.2.2)
  refine ⟨At, e, fun u z => ?_⟩
  rw [h (fun i => u (tup w i)) (fun i => z (tup w i)), perm_area m hw]
  unfold linAt
  rw [int_lin]
  have t0 : tup w 0 = w.1 := rfl
  have t1 : tup w 1 = w.2.1 := rfl
  have t2 : tup w 2 = w.2.2 := rfl
  unfold tp0 tp1 tp2
  congr 2
  simp only [t0, t1, t2]
  obtain ⟨e, ⟨e1, e2⟩ | ⟨e1, e2⟩⟩ := hw <;> rw [e, e1, e2] <;> ring

/-- quadratic polynomials in all triangles -/
theorem mid_exact (m : Mesh ℝ) (c : Nat → Nat × Nat × Nat) {F : Nat → ℝ → ℝ → ℝ}
    (hF : ∀ d < m.triangles, ∃ a b e f g h : ℝ, ∀ s t, F d s t = a + b * s + e * t + f * s ^ 2 + g * (s * t) + h * t ^ 2) : midInt m c F = meshInt m c F := by
  unfold midInt meshInt
  refine Finset.sum_congr rfl fun d hd => ?_
  obtain ⟨a, b, e, f, g, h, hh⟩ := hF d (Finset.mem_range.mp hd)
  simp only [hh]
  rw [int_tri]
  unfold triArea
  ring

theorem dirichlet_tot (hl : Legal m) (hn : Numbered m dc) (g : Option (ℝ × ℝ → ℝ)) {dv : Arr ℝ} (hd : dv.n = dc.nfix) :
    Tot (dirichlet dc g dv) fun r => r.n = dc.nfix ∧ ∀ v ∈ fixedV m, r.v (dc.idx.v v) = match g with | none => 0 | some g => g (pt m v) := by
  unfold dirichlet
  refine Tot.cassert (by simp [hd]) ?_
  rw [hn.mesh]
  refine (forUp_tot (fun k (r : Arr ℝ) => r.n = dc.nfix ∧ ∀ v ∈ fixedV m, v < k → r.v (dc.idx.v v) = match g with | none => 0 | some g => g (pt m v)) (Nat.zero_le _)
    ⟨hd, fun v _ h => absurd h (Nat.not_lt_zero _)⟩ ?_).mono fun r h => ⟨h.1, fun v hv => h.2 v hv hv.1⟩
  rintro k r - hk ⟨h1, h2⟩
  rw [Arr.get_ok (by rw [hn.nd]; exact hk), ok_bind]
  by_cases hb : dc.isDof.v k = true
  · rw [hb]
    refine Tot.pure ⟨h1, fun v hv hvk => ?_⟩
    rcases Nat.lt_or_eq_of_le (Nat.lt_succ_iff.mp hvk) with h | rfl
    · exact h2 v hv h
    · rw [fixed_dof hn hv] at hb; cases hb
  · have hb' : dc.isDof.v k = false := by cases h : dc.isDof.v k <;> simp_all
    have hi := idx_lt hn hk
    rw [if_neg hb] at hi
    rw [hb', if_pos (by rfl), Arr.get_ok (by rw [hn.ni]; exact hk), ok_bind]
    refine Tot.cassert (by simp [hi]) ?_
    rw [coord_eq hl.toSized hk, ok_bind, Arr.set_ok (by omega)]
    refine ⟨_, rfl, h1, fun v hv hvk => ?_⟩
    show (if dc.idx.v v = dc.idx.v k then _ else _) = _
    by_cases e : dc.idx.v v = dc.idx.v k
    · rw [if_pos e, idx_inj hn hv.1 hk (by rw [fixed_dof hn hv, hb']) e]
      cases g <;> rfl
    · rw [if_neg e]
      refine h2 v hv ?_
      rcases Nat.lt_or_eq_of_le (Nat.lt_succ_iff.mp hvk) with h | rfl
      · exact h
      · exact absurd rfl e

theorem addLoad_tot (hn : Numbered m dc) {v : Nat} (hv : v < m.vertices) (x : ℝ) {fv : Arr ℝ} (hf : fv.n = dc.ndof) :
    Tot (addLoad dc v x fv) fun r => r.n = dc.ndof ∧ ∀ z ∈ innerV m, r.v (dc.idx.v z) = fv.v (dc.idx.v z) + hat z v * x := by
  unfold addLoad
  rw [Arr.get_ok (by rw [hn.nd]; exact hv), ok_bind]
  by_cases hb : dc.isDof.v v = true
  · have hi := idx_lt hn hv
    rw [if_pos hb] at hi
    rw [if_pos hb, Arr.get_ok (by rw [hn.ni]; exact hv), ok_bind]
    refine Tot.cassert (by simp [hi]) ?_
    rw [Arr.get_ok (by omega), ok_bind, Arr.set_ok (by omega)]
    refine ⟨_, rfl, hf, fun z hz => ?_⟩
    show (if dc.idx.v z = dc.idx.v v then _ else _) = _
    by_cases e : dc.idx.v z = dc.idx.v v
    · have := idx_inj hn hz.1 hv (by rw [inner_dof hn hz, hb]) e
      rw [if_pos e, this]
      simp [hat]
    · have : v ≠ z := by rintro rfl; exact e rfl
      rw [if_neg e]
      simp [hat, this]
  · rw [if_neg hb]
    refine Tot.pure ⟨hf, fun z hz => ?_⟩
    have : v ≠ z := by rintro rfl; exact hb (inner_dof hn hz)
    simp [hat, this]

theorem functional_tot (hl : Legal m) {c : Nat → Nat × Nat × Nat} (hc : CornersAll m c) (hn : Numbered m dc) (f : ℝ × ℝ → ℝ) {fv : Arr ℝ} (hf : fv.n = dc.ndof) :
    Tot (functional dc f fv) fun r => r.n = dc.ndof ∧ ∀ v ∈ innerV m, r.v (dc.idx.v v) = midInt m c fun d s t => f (refPt (tp0 m c d) (tp1 m c d) (tp2 m c d) s t) * linAt c (hat v) d s t := by
  unfold functional
  refine Tot.cassert (by simp [hf]) ?_
  refine Tot.bind (P := fun (a : Arr ℝ) => a.n = dc.ndof ∧ ∀ i < dc.ndof, a.v i = 0) ((forUp_tot (fun k (a : Arr ℝ) => a.n = dc.ndof ∧ ∀ i < k, a.v i = 0) (Nat.zero_le _)
    ⟨hf, fun i h => absurd h (Nat.not_lt_zero _)⟩ ?_).mono fun a h => ⟨h.1, fun i hi => h.2 i (by omega)⟩) ?_
  · rintro k a - hk ⟨h1, h2⟩
    rw [Arr.set_ok (by omega)]
    refine ⟨_, rfl, h1, fun i hi => ?_⟩
    show (if i = k then _ else _) = _
    split
    · rfl
    · exact h2 i (by omega)
  rintro a - ⟨ha, h0⟩
  rw [hn.mesh]
  unfold midInt
  refine forUp_tot (fun n (r : Arr ℝ) => r.n = dc.ndof ∧ ∀ v ∈ innerV m, r.v (dc.idx.v v) = ∑ d ∈ Finset.range n, triArea m c d / 3 *
    (f (refPt (tp0 m c d) (tp1 m c d) (tp2 m c d) (1 / 2) 0) * linAt c (hat v) d (1 / 2) 0 + f (refPt (tp0 m c d) (tp1 m c d) (tp2 m c d) 0 (1 / 2)) * linAt c (hat v) d 0 (1 / 2) +
      f (refPt (tp0 m c d) (tp1 m c d) (tp2 m c d) (1 / 2) (1 / 2)) * linAt c (hat v) d (1 / 2) (1 / 2))) (Nat.zero_le _) ⟨ha, fun v hv => ?_⟩ ?_
  · rw [h0 _ (hn.dofs.1 hv)]
    simp
  rintro d r - hd ⟨h1, h2⟩
  obtain ⟨w, hw'⟩ := exists_w hl hc
  obtain ⟨e, hw⟩ := hw' d hd
  obtain ⟨q1, q2, q3⟩ := corners_lt hl hd (hc d hd)
  have hp : Perm3 (w d) (c d) := hw
  have hx := perm_lt hp q1 q2 q3
  have x0 : (w d).1 < m.vertices := hx 0 (by omega)
  have x1 : (w d).2.1 < m.vertices := hx 1 (by omega)
  have x2 : (w d).2.2 < m.vertices := hx 2 (by omega)
  rw [e, ok_bind, coord_eq hl.toSized x0, ok_bind, coord_eq hl.toSized x1, ok_bind, coord_eq hl.toSized x2, ok_bind]
  refine Tot.bind (addLoad_tot hn x0 _ h1) ?_
  rintro r1 - ⟨a1, b1⟩
  refine Tot.bind (addLoad_tot hn x1 _ a1) ?_
  rintro r2 - ⟨a2, b2⟩
  refine (addLoad_tot hn x2 _ a2).mono ?_
  rintro r3 ⟨a3, b3⟩
  refine ⟨a3, fun v hv => ?_⟩
  rw [b3 v hv, b2 v hv, b1 v hv, h2 v hv, Finset.sum_range_succ, add_assoc, add_assoc]
  congr 1
  have har := perm_area m hp
  unfold area2 at har
  rw [har]
  have m01 : refPt (tp0 m c d) (tp1 m c d) (tp2 m c d) (1 / 2) 0 = midp (pt m (c d).1) (pt m (c d).2.1) := by unfold refPt midp tp0 tp1 tp2; ext <;> simp <;> ring
  have m02 : refPt (tp0 m c d) (tp1 m c d) (tp2 m c d) 0 (1 / 2) = midp (pt m (c d).1) (pt m (c d).2.2) := by unfold refPt midp tp0 tp1 tp2; ext <;> simp <;> ring
  have m12 : refPt (tp0 m c d) (tp1 m c d) (tp2 m c d) (1 / 2) (1 / 2) = midp (pt m (c d).2.1) (pt m (c d).2.2) := by unfold refPt midp tp0 tp1 tp2; ext <;> simp <;> ring
  have sym : ∀ p q, midp p q = midp q p := by intro p q; unfold midp; rw [add_comm p.1, add_comm p.2]
  rw [m01, m02, m12]
  unfold triArea linAt tp0 tp1 tp2 area2
  obtain ⟨z, ⟨z1, z2⟩ | ⟨z1, z2⟩⟩ := hp <;> rw [z, z1, z2]
  · rw [sym (pt m (c d).2.2) (pt m (c d).1), sym (pt m (c d).2.1) (pt m (c d).1)]
    ring
  · rw [sym (pt m (c d).2.2) (pt m (c d).2.1), sym (pt m (c d).2.2) (pt m (c d).1), sym (pt m (c d).2.1) (pt m (c d).1)]
    ring

theorem normmax_tot (hl : Legal m) (hn : Numbered m dc) (u : ℝ × ℝ → ℝ) {xs : Arr ℝ} (hx : xs.n = dc.ndof) :
    Tot (normmax dc u xs) fun r => 0 ≤ r ∧ (∀ v ∈ innerV m, |u (pt m v) - xs.v (dc.idx.v v)| ≤ r) ∧ (r = 0 ∨ ∃ v ∈ innerV m, r = |u (pt m v) - xs.v (dc.idx.v v)|) := by
  unfold normmax
  refine Tot.cassert (by simp [hx]) ?_
  rw [hn.mesh]
  refine (forUp_tot (fun k (r : ℝ) => 0 ≤ r ∧ (∀ v ∈ innerV m, v < k → |u (pt m v) - xs.v (dc.idx.v v)| ≤ r) ∧ (r = 0 ∨ ∃ v ∈ innerV m, r = |u (pt m v) - xs.v (dc.idx.v v)|)) (Nat.zero_le _)
    ⟨le_rfl, fun v _ h => absurd h (Nat.not_lt_zero _), .inl rfl⟩ ?_).mono fun r h => ⟨h.1, fun v hv => h.2.1 v hv hv.1, h.2.2⟩
  rintro k r - hk ⟨h1, h2, h3⟩
  rw [Arr.get_ok (by rw [hn.nd]; exact hk), ok_bind]
  by_cases hb : dc.isDof.v k = true
  · have hi := idx_lt hn hk
    rw [if_pos hb] at hi
    have hki : k ∈ innerV m := ⟨hk, (hn.isDof k hk).mp hb⟩
    rw [if_pos hb, Arr.get_ok (by rw [hn.ni]; exact hk), ok_bind]
    refine Tot.cassert (by simp [hi]) ?_
    rw [coord_eq hl.toSized hk, ok_bind, Arr.get_ok (by omega), ok_bind]
    refine Tot.pure ?_
    have hcase : ∀ v ∈ innerV m, v < k + 1 → v ≠ k → |u (pt m v) - xs.v (dc.idx.v v)| ≤ r := fun v hv hvk hne => h2 v hv (by omega)
    by_cases hgt : |u (pt m k) - xs.v (dc.idx.v k)| > r
    · show 0 ≤ (if |u (pt m k) - xs.v (dc.idx.v k)| > r then _ else _) ∧ _
      rw [if_pos hgt]
      refine ⟨abs_nonneg _, fun v hv hvk => ?_, .inr ⟨k, hki, rfl⟩⟩
      by_cases e : v = k
      · rw [e]
      · exact (hcase v hv hvk e).trans hgt.le
    · show 0 ≤ (if |u (pt m k) - xs.v (dc.idx.v k)| > r then _ else _) ∧ _
      rw [if_neg hgt]
      refine ⟨h1, fun v hv hvk => ?_, h3⟩
      by_cases e : v = k
      · rw [e]; exact not_lt.mp hgt
      · exact hcase v hv hvk e
  · rw [if_neg hb]
    refine Tot.pure ⟨h1, fun v hv hvk => ?_, h3⟩
    refine h2 v hv ?_
    rcases Nat.lt_or_eq_of_le (Nat.lt_succ_iff.mp hvk) with h | rfl
    · exact h
    · exact absurd (inner_dof hn hv) hb

theorem half_eq (hn : Numbered m dc) {b bf : Option (Arr ℝ)} (hb : dimOk b dc.ndof = true) (hbf : dimOk bf dc.nfix = true) {v : Nat} (hv : v < m.vertices) : half dc b bf v = .ok (1 / 2 * valuesOf dc b bf v) := by
  unfold half valuesOf
  have hi := idx_lt hn hv
  rw [Arr.get_ok (by rw [hn.nd]; exact hv), ok_bind]
  have key : ∀ (o : Option (Arr ℝ)) (n : Nat), dimOk o n = true → dc.idx.v v < n → (match o with
      | none => pure 0
      | some a => do
        let ii ← dc.idx.get v
        cassert (decide (ii < n))
        let y ← a.get ii
        pure (1 / 2 * y) : R ℝ) = .ok (1 / 2 * match o with | none => 0 | some a => a.v (dc.idx.v v)) := by
    intro o n ho hlt
    cases o with
    | none => show Except.ok (0 : ℝ) = Except.ok (1 / 2 * 0); rw [mul_zero]
    | some a =>
      have : a.n = n := by simpa [dimOk] using ho
      show (dc.idx.get v >>= _) = _
      rw [Arr.get_ok (by rw [hn.ni]; exact hv), ok_bind, cassert_true (by simp [hlt]), ok_bind, Arr.get_ok (by omega), ok_bind]
      rfl
  cases hd : dc.isDof.v v
  · rw [hd] at hi
    exact key bf dc.nfix hbf hi
  · rw [hd] at hi
    exact key b dc.ndof hb hi

end H2.P1
