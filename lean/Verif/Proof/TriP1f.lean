import Verif.Proof.TriP1e
import Verif.Proof.Dense2

/-! Piecewise linear finite elements: nested meshes, definiteness. -/

set_option linter.unusedSectionVars false

namespace H2.P1
open Spec Tri2d

variable {m r : Mesh ℝ} {dc : Disc}

theorem corners_unique (hl : Legal m) {d a b c a' b' c' : Nat} (hd : d < m.triangles) (h : Corners m d a b c) (h' : Corners m d a' b' c') : a = a' ∧ b = b' ∧ c = c' := by
  have e := (getVertices_eq hl hd h).symm.trans (getVertices_eq hl hd h')
  have e1 := Except.ok.inj e
  simp only [Prod.mk.injEq] at e1
  exact e1

theorem prolonged_new {u : Nat → ℝ} {e a b : Nat} (h : Joins m e a b) : prolonged m u (m.vertices + e) = (u a + u b) / 2 := by
  unfold prolonged
  rw [if_neg (by omega), Nat.add_sub_cancel_left]
  rcases h with ⟨h1, h2⟩ | ⟨h1, h2⟩ <;> rw [h1, h2]
  rw [add_comm]

theorem prolonged_old {u : Nat → ℝ} {v : Nat} (h : v < m.vertices) : prolonged m u v = u v := if_pos h

theorem pt_new (hr : Refinement m r) {e a b : Nat} (he : e < m.edges) (h : Joins m e a b) : pt r (m.vertices + e) = mid (pt m a) (pt m b) := by
  rw [(hr.new e he).1]
  rcases h with ⟨h1, h2⟩ | ⟨h1, h2⟩ <;> rw [h1, h2]
  unfold mid
  rw [add_comm (pt m b).1, add_comm (pt m b).2]

/-- the four triangles -/
theorem refined (hl : Legal m) (hlr : Legal r) (hr : Refinement m r) {c cr : Nat → Nat × Nat × Nat} (hc : CornersAll m c) (hcr : CornersAll r cr) {i : Nat} (hi : i < m.triangles) {k : Nat} (hk : k < 4) :
    (∀ {u : Nat → ℝ} {g : ℝ × ℝ}, IsGrad (tp0 m c i) (tp1 m c i) (tp2 m c i) (u (c i).1) (u (c i).2.1) (u (c i).2.2) g →
      IsGrad (tp0 r cr (4 * i + k)) (tp1 r cr (4 * i + k)) (tp2 r cr (4 * i + k)) (prolonged m u (cr (4 * i + k)).1) (prolonged m u (cr (4 * i + k)).2.1) (prolonged m u (cr (4 * i + k)).2.2) g) ∧
      4 * area2 (tp0 r cr (4 * i + k)) (tp1 r cr (4 * i + k)) (tp2 r cr (4 * i + k)) = area2 (tp0 m c i) (tp1 m c i) (tp2 m c i) := by
  have hC := hc i hi
  obtain ⟨q1, q2, q3⟩ := corners_lt hl hi hC
  obtain ⟨s0, s1, s2, s3⟩ := hr.split i hi _ _ _ hC
  have b0 := hl.sides i hi 0 (by omega)
  have b1 := hl.sides i hi 1 (by omega)
  have b2 := hl.sides i hi 2 (by omega)
  have p0 := pt_new hr b0 hC.s0
  have p1 := pt_new hr b1 hC.s1
  have p2 := pt_new hr b2 hC.s2
  have o0 := (hr.old _ q1).1
  have o1 := (hr.old _ q2).1
  have o2 := (hr.old _ q3).1
  have hd : 4 * i + k < r.triangles := by rw [hr.triangles]; omega
  have hcr' := hcr _ hd
  have n0 := fun u => prolonged_new (u := u) hC.s0
  have n1 := fun u => prolonged_new (u := u) hC.s1
  have n2 := fun u => prolonged_new (u := u) hC.s2
  have k0 := fun u => prolonged_old (u := u) q1
  have k1 := fun u => prolonged_old (u := u) q2
  have k2 := fun u => prolonged_old (u := u) q3
  unfold tp0 tp1 tp2
  have hk' : k = 0 ∨ k = 1 ∨ k = 2 ∨ k = 3 := by omega
  rcases hk' with rfl | rfl | rfl | rfl
  · obtain ⟨e0, e1, e2⟩ := corners_unique hlr hd hcr' s0
    rw [e0, e1, e2, o0, p2, p1]
    refine ⟨?_, by unfold area2 mid; ring⟩
    rintro u g ⟨h1, h2⟩
    rw [k0, n2, n1]
    unfold mid
    exact ⟨by linear_combination h1 / 2, by linear_combination h2 / 2⟩
  · obtain ⟨e0, e1, e2⟩ := corners_unique hlr hd hcr' s1
    rw [e0, e1, e2, o1, p2, p0]
    refine ⟨?_, by unfold area2 mid; ring⟩
    rintro u g ⟨h1, h2⟩
    rw [k1, n2, n0]
    unfold mid
    exact ⟨by linear_combination h1 / 2, by linear_combination h2 / 2⟩
  · obtain ⟨e0, e1, e2⟩ := corners_unique hlr hd hcr' s2
    rw [e0, e1, e2, o2, p1, p0]
    refine ⟨?_, by unfold area2 mid; ring⟩
    rintro u g ⟨h1, h2⟩
    rw [k2, n1, n0]
    unfold mid
    exact ⟨by linear_combination h1 / 2, by linear_combination h2 / 2⟩
  · obtain ⟨e0, e1, e2⟩ := corners_unique hlr hd hcr' s3
    rw [e0, e1, e2, p1, p0, p2]
    refine ⟨?_, by unfold area2 mid; ring⟩
    rintro u g ⟨h1, h2⟩
    rw [n1, n0, n2]
    unfold mid
    exact ⟨by linear_combination -h1 / 2, by linear_combination -h2 / 2⟩

theorem sum_four (F : Nat → ℝ) (n : Nat) : ∑ d ∈ Finset.range (4 * n), F d = ∑ i ∈ Finset.range n, ∑ k ∈ Finset.range 4, F (4 * i + k) := by
  induction n with
  | zero => simp
  | succ n ih =>
    rw [Finset.sum_range_succ _ n, ← ih, show 4 * (n + 1) = 4 * n + 4 by ring, Finset.sum_range_add]

theorem div4 {i k : Nat} (hk : k < 4) : (4 * i + k) / 4 = i := by omega

theorem grad_refine (hl : Legal m) (hlr : Legal r) (hr : Refinement m r) {c cr : Nat → Nat × Nat × Nat} (hc : CornersAll m c) (hcr : CornersAll r cr) {u : Nat → ℝ} {g : Nat → ℝ × ℝ} (hg : GradOf m c u g) :
    GradOf r cr (prolonged m u) fun d => g (d / 4) := by
  intro d hd
  rw [hr.triangles] at hd
  obtain ⟨i, k, hk, rfl⟩ : ∃ i k, k < 4 ∧ d = 4 * i + k := ⟨d / 4, d % 4, by omega, by omega⟩
  have hi : i < m.triangles := by omega
  beta_reduce
  rw [div4 hk]
  exact (refined hl hlr hr hc hcr hi hk).1 (hg i hi)

theorem energy_refine (hl : Legal m) (hlr : Legal r) (hr : Refinement m r) {c cr : Nat → Nat × Nat × Nat} (hc : CornersAll m c) (hcr : CornersAll r cr) (g h : Nat → ℝ × ℝ) :
    gradInt r cr (fun d => g (d / 4)) (fun d => h (d / 4)) = gradInt m c g h := by
  unfold gradInt
  rw [hr.triangles, sum_four]
  refine Finset.sum_congr rfl fun i hi => ?_
  rw [Finset.mem_range] at hi
  have e : ∀ k ∈ Finset.range 4, triArea r cr (4 * i + k) * ((g ((4 * i + k) / 4)).1 * (h ((4 * i + k) / 4)).1 + (g ((4 * i + k) / 4)).2 * (h ((4 * i + k) / 4)).2) =
      triArea m c i / 4 * ((g i).1 * (h i).1 + (g i).2 * (h i).2) := by
    intro k hk
    rw [Finset.mem_range] at hk
    rw [div4 hk]
    congr 1
    have := (refined hl hlr hr hc hcr hi hk).2
    unfold triArea
    rw [← this, abs_mul]
    norm_num
    ring
  rw [Finset.sum_congr rfl e, Finset.sum_const, Finset.card_range]
  ring

theorem nonDegenerate_refine (hl : Legal m) (hlr : Legal r) (hr : Refinement m r) {c cr : Nat → Nat × Nat × Nat} (hc : CornersAll m c) (hcr : CornersAll r cr) (hnd : NonDegenerate m c) : NonDegenerate r cr := by
  intro d hd h
  rw [hr.triangles] at hd
  obtain ⟨i, k, hk, rfl⟩ : ∃ i k, k < 4 ∧ d = 4 * i + k := ⟨d / 4, d % 4, by omega, by omega⟩
  have hi : i < m.triangles := by omega
  have := (refined hl hlr hr hc hcr hi hk).2
  rw [h, mul_zero] at this
  exact hnd i hi this.symm

theorem gradOf_congr (hl : Legal m) {c : Nat → Nat × Nat × Nat} (hc : CornersAll m c) {u z : Nat → ℝ} (h : ∀ v < m.vertices, u v = z v) {g : Nat → ℝ × ℝ} (hg : GradOf m c u g) : GradOf m c z g := by
  intro d hd
  obtain ⟨q1, q2, q3⟩ := corners_lt hl hd (hc d hd)
  have := hg d hd
  rw [h _ q1, h _ q2, h _ q3] at this
  exact this

/-- the fine function for a column of the prolongation is the coarse nodal basis function -/
theorem column_fun (hm : ConsistentMesh m) (hb : ∀ f < m.edges, m.eb.v f ≤ 1) (hr : Refinement m r) {df dcc : Disc} (hnf : Numbered r df) {P : Sparse ℝ} {z : Nat} (hz : z ∈ innerV m)
    (hP : ∀ v ∈ innerV r, entry P (df.idx.v v) (dcc.idx.v z) = prolonged m (hat z) v) : ∀ v < r.vertices, prolonged m (hat z) v = dofFun df (fun k => entry P k (dcc.idx.v z)) v := by
  intro v hv
  unfold dofFun
  by_cases hd : df.isDof.v v = true
  · rw [if_pos hd]
    exact (hP v ⟨hv, (hnf.isDof v hv).mp hd⟩).symm
  · rw [if_neg hd]
    have hx : r.xb.v v ≠ 0 := fun e => hd ((hnf.isDof v hv).mpr e)
    rw [hr.vertices] at hv
    unfold prolonged
    split
    · rename_i h
      have : v ≠ z := by
        rintro rfl
        exact hx (by rw [(hr.old v h).2]; exact hz.2)
      simp [hat, this]
    · rename_i h
      obtain ⟨j, rfl⟩ : ∃ j, v = m.vertices + j := ⟨v - m.vertices, by omega⟩
      rw [Nat.add_sub_cancel_left]
      have hj : j < m.edges := by omega
      rw [(hr.new j hj).2] at hx
      have h1 := hb j hj
      obtain ⟨f0, f1⟩ := hm.flags j hj (by omega)
      have n0 : endp m j 0 ≠ z := by rintro e; rw [e] at f0; exact f0 hz.2
      have n1 : endp m j 1 ≠ z := by rintro e; rw [e] at f1; exact f1 hz.2
      simp [hat, n0, n1]

/-- functions with vanishing energy -/
theorem energy_zero {c : Nat → Nat × Nat × Nat} (hc : CornersAll m c) (hnd : NonDegenerate m c) {u : Nat → ℝ} {g : Nat → ℝ × ℝ} (hg : GradOf m c u g) (h : gradInt m c g g = 0) {v w : Nat} (hvw : Neighbours m v w) : u v = u w := by
  obtain ⟨d, hd, h1, h2⟩ := hvw
  have hpos : ∀ d ∈ Finset.range m.triangles, 0 ≤ triArea m c d * ((g d).1 * (g d).1 + (g d).2 * (g d).2) := by
    intro d _
    refine mul_nonneg (by unfold triArea; positivity) (add_nonneg (mul_self_nonneg _) (mul_self_nonneg _))
  have hz := (Finset.sum_eq_zero_iff_of_nonneg hpos).mp h d (Finset.mem_range.mpr hd)
  have ha : triArea m c d ≠ 0 := by
    unfold triArea
    have := abs_ne_zero.mpr (hnd d hd)
    positivity
  have hs := (mul_eq_zero.mp hz).resolve_left ha
  have g1 : (g d).1 = 0 := by nlinarith [mul_self_nonneg (g d).1, mul_self_nonneg (g d).2]
  have g2 : (g d).2 = 0 := by nlinarith [mul_self_nonneg (g d).1, mul_self_nonneg (g d).2]
  obtain ⟨e1, e2⟩ := hg d hd
  rw [g1, g2] at e1 e2
  have e1' : u (c d).2.1 = u (c d).1 := by linarith
  have e2' : u (c d).2.2 = u (c d).1 := by linarith
  have hC := hc d hd
  rw [corner_iff hC] at h1 h2
  rcases h1 with rfl | rfl | rfl <;> rcases h2 with rfl | rfl | rfl <;> simp [e1', e2']

theorem exists_corners (hm : ConsistentMesh m) : ∃ c : Nat → Nat × Nat × Nat, CornersAll m c := by
  classical
  have h : ∀ d, ∃ w : Nat × Nat × Nat, d < m.triangles → Corners m d w.1 w.2.1 w.2.2 := by
    intro d
    by_cases hd : d < m.triangles
    · obtain ⟨a, b, c, h⟩ := hm.tri d hd
      exact ⟨(a, b, c), fun _ => h⟩
    · exact ⟨(0, 0, 0), fun h => absurd h hd⟩
  choose c hc using h
  exact ⟨c, hc⟩

theorem pos_neighbours (hl : Legal m) {c : Nat → Nat × Nat × Nat} (hc : CornersAll m c) (hn : Numbered m dc) {fix : Bool} {v w : Nat} (hv : v ∈ innerV m) (hw : w ∈ colsV m fix) :
    (∃ d < m.triangles, ∃ i < 3, ∃ j < 3, pos dc fix (tup (c d)) i j (dc.idx.v v) (dc.idx.v w)) ↔ Neighbours m v w := by
  obtain ⟨hw1, hw2⟩ := (cols_iff hn).mp hw
  have hvd := inner_dof hn hv
  constructor
  · rintro ⟨d, hd, i, hi, j, hj, h1, h2, h3, h4⟩
    obtain ⟨q1, q2, q3⟩ := corners_lt hl hd (hc d hd)
    have hx := tup_lt q1 q2 q3
    have e1 := idx_inj hn hv.1 (hx i hi) (by rw [hvd, h1]) h3
    have e2 := idx_inj hn hw1 (hx j hj) (by rw [hw2, h2]) h4
    refine ⟨d, hd, (corner_iff (hc d hd) v).mpr ?_, (corner_iff (hc d hd) w).mpr ?_⟩
    · exact tup_iff.mp ⟨i, hi, e1.symm⟩
    · exact tup_iff.mp ⟨j, hj, e2.symm⟩
  · rintro ⟨d, hd, h1, h2⟩
    obtain ⟨i, hi, e1⟩ := tup_iff.mpr ((corner_iff (hc d hd) v).mp h1)
    obtain ⟨j, hj, e2⟩ := tup_iff.mpr ((corner_iff (hc d hd) w).mp h2)
    exact ⟨d, hd, i, hi, j, hj, by rw [e1]; exact hvd, by rw [e2]; exact hw2, by rw [e1], by rw [e2]⟩

theorem lin_linAt (c : Nat → Nat × Nat × Nat) (u : Nat → ℝ) (d : Nat) : ∃ a b e : ℝ, ∀ s t, linAt c u d s t = a + b * s + e * t :=
  ⟨u (c d).1, u (c d).2.1 - u (c d).1, u (c d).2.2 - u (c d).1, fun s t => by unfold linAt; ring⟩

theorem quad_of_lin {F G : ℝ → ℝ → ℝ} (hF : ∃ a b e : ℝ, ∀ s t, F s t = a + b * s + e * t) (hG : ∃ a b e : ℝ, ∀ s t, G s t = a + b * s + e * t) :
    ∃ a b e f g h : ℝ, ∀ s t, F s t * G s t = a + b * s + e * t + f * s ^ 2 + g * (s * t) + h * t ^ 2 := by
  obtain ⟨a, b, e, h1⟩ := hF
  obtain ⟨a', b', e', h2⟩ := hG
  exact ⟨a * a', a * b' + b * a', a * e' + e * a', b * b', b * e' + e * b', e * e', fun s t => by rw [h1, h2]; ring⟩

theorem dimOk_of {b : Option (Arr ℝ)} {n : Nat} (h : ∀ a, b = some a → a.n = n) : dimOk b n = true := by
  cases b with
  | none => rfl
  | some a => simp [dimOk, h a rfl]

theorem elem_nan {p q r : ℝ × ℝ} (h : area2 p q r = 0) : elemLaplace p q r = .error .nan := by
  unfold elemLaplace
  refine if_pos ?_
  unfold area2 at h
  linear_combination -h

theorem loop_split {σ : Type} {body : Nat → σ → R σ} : ∀ (a b i : Nat) (s : σ), loopN body (a + b) i s = loopN body a i s >>= loopN body b (i + a)
  | 0, b, i, s => by rw [Nat.zero_add]; rfl
  | a + 1, b, i, s => by
    rw [Nat.add_right_comm]
    show (body i s >>= fun s' => loopN body (a + b) (i + 1) s') = (body i s >>= fun s' => loopN body a (i + 1) s') >>= loopN body b (i + (a + 1))
    cases body i s with
    | error x => rfl
    | ok s' =>
      show loopN body (a + b) (i + 1) s' = loopN body a (i + 1) s' >>= _
      rw [loop_split a b (i + 1) s', show i + 1 + a = i + (a + 1) by omega]

theorem loop_fail {σ : Type} {body : Nat → σ → R σ} {n d : Nat} (hd : d < n) {s s' : σ} (h : forUp 0 d body s = .ok s') {e : Err} (he : body d s' = .error e) : forUp 0 n body s = .error e := by
  unfold forUp at *
  rw [Nat.sub_zero] at *
  obtain ⟨k, rfl⟩ : ∃ k, n = d + (k + 1) := ⟨n - d - 1, by omega⟩
  rw [loop_split, h, ok_bind, Nat.zero_add]
  show (body d s' >>= _) = _
  rw [he]
  rfl

/-- the first triangle of area zero -/
theorem laplace_nan (hl : Legal m) {c : Nat → Nat × Nat × Nat} (hc : CornersAll m c) (hn : Numbered m dc) (hdeg : ¬ NonDegenerate m c) {A : Sparse ℝ} (hA : PatternFor m dc (innerV m) A)
    {Af : Option (Sparse ℝ)} (hf : ∀ B, Af = some B → PatternFor m dc (fixedV m) B) : laplace dc A Af = .error .nan := by
  classical
  have hex : ∃ d, d < m.triangles ∧ area2 (tp0 m c d) (tp1 m c d) (tp2 m c d) = 0 := by
    unfold NonDegenerate at hdeg
    push Not at hdeg
    exact hdeg
  obtain ⟨hd, h0⟩ := Nat.find_spec hex
  have hmin : ∀ d < Nat.find hex, area2 (tp0 m c d) (tp1 m c d) (tp2 m c d) ≠ 0 := fun d h e => Nat.find_min hex h ⟨h.trans hd, e⟩
  generalize Nat.find hex = d0 at hd h0 hmin
  -- the mesh with the triangles before
  let m' : Mesh ℝ := { m with triangles := d0, t := ⟨3 * d0, m.t.v⟩ }
  let dc' : Disc := { dc with t2 := m' }
  have hl' : Legal m' := ⟨⟨hl.x, hl.e, rfl, hl.xb, hl.eb⟩, hl.ends, fun i hi k hk => hl.sides i (lt_trans hi hd) k hk⟩
  have hc' : CornersAll m' c := fun d h => by
    have := hc d (lt_trans h hd)
    exact ⟨this.1, this.2, this.3, this.4, this.5, this.6⟩
  have hn' : Numbered m' dc' := ⟨rfl, hn.nd, hn.ni, hn.isDof, hn.dofs, hn.fixs⟩
  have hnd' : NonDegenerate m' c := fun d h => hmin d h
  have hnb : ∀ {v w}, Neighbours m' v w → Neighbours m v w := fun ⟨d, h, h1, h2⟩ => ⟨d, lt_trans h hd, h1, h2⟩
  obtain ⟨A', Af', e, -⟩ := assemble_form hl' hc' hn' (laplace_elem hnd') (A := A) ⟨hA.csr, hA.rows, fun v hv w hw h => hA.pos v hv w hw (hnb h)⟩ (Af := Af)
    fun B hB => ⟨(hf B hB).csr, (hf B hB).rows, fun v hv w hw h => (hf B hB).pos v hv w hw (hnb h)⟩
  unfold laplace assemble
  rw [hn.mesh]
  obtain ⟨w, hw⟩ := exists_w hl hc
  have hver : ∀ d < d0, vertsOf m' d = vertsOf m d := by
    intro d h
    have ht := hl.t
    have e1 : m'.t.get (3 * d) = m.t.get (3 * d) := by
      rw [Arr.get_ok (by show 3 * d < 3 * d0; omega), Arr.get_ok (by omega)]
    have e2 : m'.t.get (3 * d + 1) = m.t.get (3 * d + 1) := by
      rw [Arr.get_ok (by show 3 * d + 1 < 3 * d0; omega), Arr.get_ok (by omega)]
    unfold vertsOf
    rw [e1, e2]
  unfold assemble at e
  refine loop_fail hd (s' := (A', Af')) (Eq.trans ?_ e) ?_
  · refine Dense.forUp_congr (fun d _ h s => ?_) _
    rw [← hver d h]
    rfl
  · obtain ⟨w1, w2⟩ := hw d0 hd
    obtain ⟨q1, q2, q3⟩ := corners_lt hl hd (hc d0 hd)
    have hp : Perm3 (w d0) (c d0) := w2
    have hx := perm_lt hp q1 q2 q3
    have x0 : (w d0).1 < m.vertices := hx 0 (by omega)
    have x1 : (w d0).2.1 < m.vertices := hx 1 (by omega)
    have x2 : (w d0).2.2 < m.vertices := hx 2 (by omega)
    have ha := perm_area m hp
    have hz : area2 (pt m (w d0).1) (pt m (w d0).2.1) (pt m (w d0).2.2) = 0 := by
      rw [← abs_eq_zero, ha, abs_eq_zero]
      exact h0
    have hC := hc d0 hd
    rw [w1, ok_bind, cassert_true, ok_bind, coord_eq hl.toSized x0, ok_bind, coord_eq hl.toSized x1, ok_bind, coord_eq hl.toSized x2, ok_bind, elem_nan hz]
    · rfl
    · simp only [decide_eq_true_eq]
      obtain ⟨y, ⟨y1, y2⟩ | ⟨y1, y2⟩⟩ := hp <;> rw [y, y1, y2]
      · exact ⟨hC.bc, hC.ab.symm, hC.ca⟩
      · exact ⟨hC.bc.symm, hC.ca, hC.ab.symm⟩

theorem circle_corners {c : Nat → Nat × Nat × Nat} (hc : CornersAll (newUnitcircle : Mesh ℝ) c) (hl : Legal (newUnitcircle : Mesh ℝ)) : c 0 = (0, 1, 2) ∧ c 1 = (3, 0, 2) ∧ c 2 = (3, 4, 0) ∧ c 3 = (0, 4, 1) := by
  have key : ∀ d < 4, ∀ a b e, Corners (newUnitcircle : Mesh ℝ) d a b e → c d = (a, b, e) := by
    intro d hd a b e h
    obtain ⟨h1, h2, h3⟩ := corners_unique hl hd (hc d hd) h
    exact Prod.ext h1 (Prod.ext h2 h3)
  refine ⟨key 0 (by omega) _ _ _ ?_, key 1 (by omega) _ _ _ ?_, key 2 (by omega) _ _ _ ?_, key 3 (by omega) _ _ _ ?_⟩
  · exact ⟨by omega, by omega, by omega, .inl ⟨rfl, rfl⟩, .inl ⟨rfl, rfl⟩, .inr ⟨rfl, rfl⟩⟩
  · exact ⟨by omega, by omega, by omega, .inr ⟨rfl, rfl⟩, .inl ⟨rfl, rfl⟩, .inl ⟨rfl, rfl⟩⟩
  · exact ⟨by omega, by omega, by omega, .inl ⟨rfl, rfl⟩, .inr ⟨rfl, rfl⟩, .inl ⟨rfl, rfl⟩⟩
  · exact ⟨by omega, by omega, by omega, .inl ⟨rfl, rfl⟩, .inl ⟨rfl, rfl⟩, .inr ⟨rfl, rfl⟩⟩

theorem circle_area {c : Nat → Nat × Nat × Nat} (hl : Legal (newUnitcircle : Mesh ℝ)) (hc : CornersAll (newUnitcircle : Mesh ℝ) c) : NonDegenerate (newUnitcircle : Mesh ℝ) c := by
  obtain ⟨c0, c1, c2, c3⟩ := circle_corners hc hl
  intro d hd
  have hd' : d < 4 := hd
  have p0 : pt (newUnitcircle : Mesh ℝ) 0 = (0, 0) := rfl
  have p1 : pt (newUnitcircle : Mesh ℝ) 1 = (-1, 0) := rfl
  have p2 : pt (newUnitcircle : Mesh ℝ) 2 = (0, 1) := rfl
  have p3 : pt (newUnitcircle : Mesh ℝ) 3 = (1, 0) := rfl
  have p4 : pt (newUnitcircle : Mesh ℝ) 4 = (0, -1) := rfl
  have : d = 0 ∨ d = 1 ∨ d = 2 ∨ d = 3 := by omega
  unfold tp0 tp1 tp2 area2
  rcases this with rfl | rfl | rfl | rfl
  · rw [c0, p0, p1, p2]; norm_num
  · rw [c1, p3, p0, p2]; norm_num
  · rw [c2, p3, p4, p0]; norm_num
  · rw [c3, p0, p4, p1]; norm_num

theorem circle_neighbours : Neighbours (newUnitcircle : Mesh ℝ) 0 1 :=
  ⟨0, show 0 < 4 by omega, ⟨1, by omega, 1, by omega, rfl⟩, ⟨0, by omega, 0, by omega, rfl⟩⟩

end H2.P1
