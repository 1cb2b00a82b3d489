import Verif.Proof.TriP1d

/-! Piecewise linear finite elements: the `L²` norm and the prolongation. -/

set_option linter.unusedSectionVars false

namespace H2.P1
open Spec Tri2d

variable {m : Mesh ℝ} {dc : Disc}

/-- the integrand of the `L²` norm -/
def l2fun (m : Mesh ℝ) (c : Nat → Nat × Nat × Nat) (f : Option (ℝ × ℝ → ℝ)) (u : Nat → ℝ) (d : Nat) (s t : ℝ) : ℝ :=
  (linAt c u d s t - match f with | none => 0 | some f => f (refPt (tp0 m c d) (tp1 m c d) (tp2 m c d) s t)) ^ 2

theorem norml2_tot (hl : Legal m) {c : Nat → Nat × Nat × Nat} (hc : CornersAll m c) (hn : Numbered m dc) (f : Option (ℝ × ℝ → ℝ)) {b bf : Option (Arr ℝ)} (hb : dimOk b dc.ndof = true) (hbf : dimOk bf dc.nfix = true) :
    norml2 dc f b bf = .ok √(midInt m c (l2fun m c f (valuesOf dc b bf))) := by
  unfold norml2
  rw [cassert_true hb, ok_bind, cassert_true hbf, ok_bind, hn.mesh]
  have key : Tot (forUp 0 m.triangles (fun k (norm : ℝ) => do
    let v ← getVertices m k
    let p ← coord m v.1
    let q ← coord m v.2.1
    let r ← coord m v.2.2
    let area := |(q.1 - p.1) * (r.2 - p.2) - (q.2 - p.2) * (r.1 - p.1)| * (1 / 2)
    let tnorm ← forUp 0 3 (fun j (tnorm : ℝ) => do
      let e ← m.t.get (3 * k + j)
      let i0 ← m.e.get (2 * e)
      let v0 ← half dc b bf i0
      let x0 ← coord m i0
      let i1 ← m.e.get (2 * e + 1)
      let v1 ← half dc b bf i1
      let x1 ← coord m i1
      let val := v0 + v1 - (match f with | none => 0 | some f => f (1 / 2 * x0.1 + 1 / 2 * x1.1, 1 / 2 * x0.2 + 1 / 2 * x1.2))
      pure (tnorm + val ^ 2)) 0
    pure (norm + tnorm * area / 3)) 0) fun r => r = midInt m c (l2fun m c f (valuesOf dc b bf)) := by
    unfold midInt
    refine forUp_tot (fun n (r : ℝ) => r = ∑ d ∈ Finset.range n, triArea m c d / 3 * (l2fun m c f (valuesOf dc b bf) d (1 / 2) 0 + l2fun m c f (valuesOf dc b bf) d 0 (1 / 2) +
      l2fun m c f (valuesOf dc b bf) d (1 / 2) (1 / 2))) (Nat.zero_le _) (by simp) ?_
    rintro d r - hd rfl
    have hC := hc d hd
    obtain ⟨q1, q2, q3⟩ := corners_lt hl hd hC
    rw [getVertices_eq hl hd hC, ok_bind, coord_eq hl.toSized q1, ok_bind, coord_eq hl.toSized q2, ok_bind, coord_eq hl.toSized q3, ok_bind]
    -- the value on one side
    have hside : ∀ j < 3, ∀ (tn : ℝ), ∀ a b', a < m.vertices → b' < m.vertices → Joins m (side m d j) a b' → ∀ s t : ℝ,
        linAt c (valuesOf dc b bf) d s t = 1 / 2 * valuesOf dc b bf a + 1 / 2 * valuesOf dc b bf b' →
        refPt (tp0 m c d) (tp1 m c d) (tp2 m c d) s t = (1 / 2 * (pt m a).1 + 1 / 2 * (pt m b').1, 1 / 2 * (pt m a).2 + 1 / 2 * (pt m b').2) →
        (do
          let e ← m.t.get (3 * d + j)
          let i0 ← m.e.get (2 * e)
          let v0 ← half dc b bf i0
          let x0 ← coord m i0
          let i1 ← m.e.get (2 * e + 1)
          let v1 ← half dc b bf i1
          let x1 ← coord m i1
          let val := v0 + v1 - (match f with | none => 0 | some f => f (1 / 2 * x0.1 + 1 / 2 * x1.1, 1 / 2 * x0.2 + 1 / 2 * x1.2))
          pure (tn + val ^ 2) : R ℝ) = .ok (tn + l2fun m c f (valuesOf dc b bf) d s t) := by
      intro j hj tn a b' ha hb' hJ s t h1 h2
      have hsd := hl.sides d hd j hj
      have ht := hl.t
      have he := hl.e
      have z : m.t.v (3 * d + j) = side m d j := rfl
      rw [Arr.get_ok (by omega), ok_bind, z, Arr.get_ok (by omega), ok_bind]
      have e0 : m.e.v (2 * side m d j) = endp m (side m d j) 0 := rfl
      have e1 : m.e.v (2 * side m d j + 1) = endp m (side m d j) 1 := rfl
      have l0 := hl.ends _ hsd 0 (by omega)
      have l1 := hl.ends _ hsd 1 (by omega)
      rw [e0, half_eq hn hb hbf l0, ok_bind, coord_eq hl.toSized l0, ok_bind, Arr.get_ok (by omega), ok_bind, e1, half_eq hn hb hbf l1, ok_bind, coord_eq hl.toSized l1, ok_bind]
      unfold l2fun
      rw [h1, h2]
      rcases hJ with ⟨g1, g2⟩ | ⟨g1, g2⟩ <;> rw [g1, g2]
      · cases f <;> rfl
      · rw [add_comm (1 / 2 * (pt m b').1), add_comm (1 / 2 * (pt m b').2), add_comm (1 / 2 * valuesOf dc b bf b')]
        cases f <;> rfl
    have lp : ∀ (g : Nat → ℝ → R ℝ) (x : ℝ), forUp 0 3 g x = (do let a ← g 0 x; let b ← g 1 a; g 2 b) := by
      intro g x
      show (g 0 x >>= fun a => g 1 a >>= fun b => g 2 b >>= fun s => Except.ok s) = g 0 x >>= fun a => g 1 a >>= fun b => g 2 b
      congr 1
      funext a
      congr 1
      funext b
      cases g 2 b <;> rfl
    rw [lp]
    have s0 := hside 0 (by omega) 0 _ _ q2 q3 hC.s0 (1 / 2) (1 / 2) (by unfold linAt; ring) (by unfold refPt tp0 tp1 tp2; ext <;> simp <;> ring)
    have s1 := hside 1 (by omega) (0 + l2fun m c f (valuesOf dc b bf) d (1 / 2) (1 / 2)) _ _ q3 q1 hC.s1 0 (1 / 2) (by unfold linAt; ring) (by unfold refPt tp0 tp1 tp2; ext <;> simp <;> ring)
    have s2 := hside 2 (by omega) (0 + l2fun m c f (valuesOf dc b bf) d (1 / 2) (1 / 2) + l2fun m c f (valuesOf dc b bf) d 0 (1 / 2)) _ _ q1 q2 hC.s2 (1 / 2) 0 (by unfold linAt; ring)
      (by unfold refPt tp0 tp1 tp2; ext <;> simp <;> ring)
    rw [s0, ok_bind, s1, ok_bind, s2, ok_bind]
    refine Tot.pure ?_
    rw [Finset.sum_range_succ]
    unfold triArea tp0 tp1 tp2 area2
    ring
  obtain ⟨r, e, h⟩ := key
  refine Eq.trans (congrArg (fun x => x >>= fun norm => pure √norm) e) ?_
  rw [ok_bind, h]
  rfl

/-! ### Prolongation -/

/-- the vertices of the coarse mesh that contribute to a vertex of the fine mesh -/
noncomputable def parents (m : Mesh ℝ) (v : Nat) : List (Nat × ℝ) := if v < m.vertices then [(v, 1)] else [(endp m (v - m.vertices) 0, 1 / 2), (endp m (v - m.vertices) 1, 1 / 2)]

theorem parents_lt (hl : Legal m) {v : Nat} (hv : v < m.vertices + m.edges) : ∀ jw ∈ parents m v, jw.1 < m.vertices := by
  intro jw h
  unfold parents at h
  split at h
  · simp only [List.mem_singleton] at h
    rw [h]; assumption
  · have := hl.ends (v - m.vertices) (by omega)
    simp only [List.mem_cons, List.not_mem_nil, or_false] at h
    rcases h with h | h <;> rw [h]
    · exact this 0 (by omega)
    · exact this 1 (by omega)

theorem fathersOf_eq (hl : Legal m) {r : Mesh ℝ} {f : Ref} (hf : Fathers m r f) {v : Nat} (hv : v < m.vertices + m.edges) : fathersOf m.e (f.xt.v v) (f.xf.v v) = .ok (some (parents m v)) := by
  unfold parents fathersOf
  by_cases h : v < m.vertices
  · obtain ⟨a, b⟩ := hf.old v h
    rw [a, b, if_pos rfl, if_pos h]
    rfl
  · obtain ⟨j, rfl⟩ : ∃ j, v = m.vertices + j := ⟨v - m.vertices, by omega⟩
    obtain ⟨a, b⟩ := hf.new j (by omega)
    have he := hl.e
    rw [a, b, if_neg (by omega), if_pos rfl, if_neg h, Arr.get_ok (by omega), ok_bind, Arr.get_ok (by omega), ok_bind, Nat.add_sub_cancel_left]
    rfl

theorem fold_tot {S α : Type} (J : List α → S → Prop) (body : S → α → R S) : ∀ (l pre : List α) (s : S), J pre s → (∀ pre a s, J pre s → a ∈ l → Tot (body s a) (J (pre ++ [a]))) → Tot (l.foldlM body s) (J (pre ++ l))
  | [], pre, s, h, _ => by
    rw [List.foldlM_nil, List.append_nil]
    exact Tot.pure h
  | a :: l, pre, s, h, hs => by
    rw [List.foldlM_cons]
    refine Tot.bind (hs pre a s h (List.mem_cons_self)) fun s' _ h' => ?_
    have := fold_tot J body l (pre ++ [a]) s' h' fun pre b s h hb => hs pre b s h (List.mem_cons_of_mem _ hb)
    rw [List.append_assoc] at this
    exact this

theorem prolongLoop_tot {r : Mesh ℝ} {df dcc : Disc} (hl : Legal m) (hr : Refinement m r) (hf : Fathers m r f) (hnf : Numbered r df) (hnc : Numbered m dcc) {S : Type} {act : Nat → Nat → ℝ → S → R S} {s : S}
    (J : List (Nat × Nat × ℝ) → S → Prop) (h0 : J [] s)
    (hstep : ∀ pre s v z w, J pre s → v ∈ innerV r → (z, w) ∈ parents m v → z ∈ innerV m → Tot (act (df.idx.v v) (dcc.idx.v z) w s) (J (pre ++ [(v, z, w)]))) :
    Tot (prolongLoop df dcc f act s) fun o => ∃ s', o = some s' ∧ J (((List.range r.vertices).filter fun v => df.isDof.v v).flatMap fun v => ((parents m v).filter fun jw => dcc.isDof.v jw.1).map fun jw => (v, jw.1, jw.2)) s' := by
  unfold prolongLoop
  rw [hnf.mesh]
  refine forUp_tot (fun n (o : Option S) => ∃ s', o = some s' ∧ J (((List.range n).filter fun v => df.isDof.v v).flatMap fun v => ((parents m v).filter fun jw => dcc.isDof.v jw.1).map fun jw => (v, jw.1, jw.2)) s')
    (Nat.zero_le _) ⟨s, rfl, h0⟩ ?_
  rintro v o - hv ⟨s', rfl, hJ⟩
  have hv' : v < m.vertices + m.edges := by rw [← hr.vertices]; exact hv
  show Tot (df.isDof.get v >>= _) _
  rw [Arr.get_ok (by rw [hnf.nd]; exact hv), ok_bind]
  rw [List.range_succ, List.filter_append, List.flatMap_append]
  by_cases hb : df.isDof.v v = true
  · obtain ⟨z1, z2, -⟩ := hf.sizes
    rw [if_pos hb, Arr.get_ok (by rw [hnf.ni]; exact hv), ok_bind, Arr.get_ok (by omega), ok_bind, Arr.get_ok (by omega), ok_bind, hnc.mesh, fathersOf_eq hl hf hv', ok_bind]
    have := fold_tot (fun pre s => J ((((List.range v).filter fun v => df.isDof.v v).flatMap fun v => ((parents m v).filter fun jw => dcc.isDof.v jw.1).map fun jw => (v, jw.1, jw.2)) ++
        (pre.filter fun jw => dcc.isDof.v jw.1).map fun jw => (v, jw.1, jw.2)) s) (fun s (jw : Nat × ℝ) => do
            let c ← dcc.isDof.get jw.1
            if c then do
              let jj ← dcc.idx.get jw.1
              act (df.idx.v v) jj jw.2 s
            else pure s) (parents m v) [] s' (by simpa using hJ) ?_
    · refine Tot.bind this fun s'' _ h => ?_
      refine Tot.pure ⟨s'', rfl, ?_⟩
      simpa [hb] using h
    · rintro pre ⟨z, w⟩ s1 h hmem
      have hz := parents_lt hl hv' _ hmem
      show Tot (dcc.isDof.get z >>= _) _
      rw [Arr.get_ok (by rw [hnc.nd]; exact hz), ok_bind, List.filter_append]
      by_cases hc : dcc.isDof.v z = true
      · rw [if_pos hc, Arr.get_ok (by rw [hnc.ni]; exact hz), ok_bind]
        refine (hstep _ _ v z w h ⟨hv, (hnf.isDof v hv).mp hb⟩ hmem ⟨hz, (hnc.isDof z hz).mp hc⟩).mono fun s2 h2 => ?_
        simpa [hc] using h2
      · rw [if_neg hc]
        refine Tot.pure ?_
        simpa [hc] using h
  · rw [if_neg hb]
    refine Tot.pure ⟨s', rfl, ?_⟩
    simpa [hb] using hJ

end H2.P1

namespace H2.P1
open Spec Tri2d

variable {m : Mesh ℝ} {dc : Disc}

/-- all entries of the prolongation -/
noncomputable def triples (m r : Mesh ℝ) (df dcc : Disc) : List (Nat × Nat × ℝ) :=
  ((List.range r.vertices).filter fun v => df.isDof.v v).flatMap fun v => ((parents m v).filter fun jw => dcc.isDof.v jw.1).map fun jw => (v, jw.1, jw.2)

theorem mem_triples (hl : Legal m) {r : Mesh ℝ} {df dcc : Disc} (hr : Refinement m r) (hnf : Numbered r df) (hnc : Numbered m dcc) {v z : Nat} {w : ℝ} :
    (v, z, w) ∈ triples m r df dcc ↔ v ∈ innerV r ∧ (z, w) ∈ parents m v ∧ z ∈ innerV m := by
  unfold triples
  simp only [List.mem_flatMap, List.mem_filter, List.mem_range, List.mem_map, Prod.mk.injEq]
  constructor
  · rintro ⟨v', ⟨h1, h2⟩, ⟨z', w'⟩, ⟨h3, h4⟩, rfl, rfl, rfl⟩
    have := parents_lt hl (by rw [← hr.vertices]; exact h1) _ h3
    exact ⟨⟨h1, (hnf.isDof _ h1).mp h2⟩, h3, this, (hnc.isDof _ this).mp h4⟩
  · rintro ⟨h1, h2, h3⟩
    exact ⟨v, ⟨h1.1, inner_dof hnf h1⟩, (z, w), ⟨h2, inner_dof hnc h3⟩, rfl, rfl, rfl⟩

theorem sum_single {l : List Nat} (hl : l.Nodup) {v : Nat} (hv : v ∈ l) {F : Nat → ℝ} (h : ∀ x ∈ l, x ≠ v → F x = 0) : (l.map F).sum = F v := by
  rw [← List.sum_toFinset F hl]
  exact Finset.sum_eq_single_of_mem v (List.mem_toFinset.mpr hv) fun x hx => h x (List.mem_toFinset.mp hx)

theorem sum_flat {α β : Type} (l : List α) (g : α → List β) (F : β → ℝ) : ((l.flatMap g).map F).sum = (l.map fun a => ((g a).map F).sum).sum := by
  induction l with
  | nil => rfl
  | cons a l ih => rw [List.flatMap_cons, List.map_append, List.sum_append, ih, List.map_cons, List.sum_cons]

theorem triples_sum (hl : Legal m) {r : Mesh ℝ} {df dcc : Disc} (hr : Refinement m r) (hnf : Numbered r df) (hnc : Numbered m dcc) {v z : Nat} (hv : v ∈ innerV r) (hz : z ∈ innerV m) :
    ((triples m r df dcc).map fun t => if df.idx.v t.1 = df.idx.v v ∧ dcc.idx.v t.2.1 = dcc.idx.v z then t.2.2 else 0).sum = prolonged m (hat z) v := by
  unfold triples
  rw [sum_flat, sum_single (v := v) (List.nodup_range.filter _)]
  · have hv' : v < m.vertices + m.edges := by rw [← hr.vertices]; exact hv.1
    have hpl := parents_lt hl hv'
    rw [List.map_map]
    have e : ∀ jw ∈ parents m v, dcc.isDof.v jw.1 = true → ((fun t : Nat × Nat × ℝ => if df.idx.v t.1 = df.idx.v v ∧ dcc.idx.v t.2.1 = dcc.idx.v z then t.2.2 else 0) ∘ fun jw : Nat × ℝ => (v, jw.1, jw.2)) jw = jw.2 * hat z jw.1 := by
      intro jw hjw hd
      show (if df.idx.v v = df.idx.v v ∧ dcc.idx.v jw.1 = dcc.idx.v z then jw.2 else 0) = _
      by_cases h : jw.1 = z
      · rw [if_pos ⟨rfl, by rw [h]⟩]
        simp [hat, h]
      · rw [if_neg fun hh => h (idx_inj hnc (hpl _ hjw) hz.1 (by rw [hd, inner_dof hnc hz]) hh.2)]
        simp [hat, h]
    have e2 : ∀ l : List (Nat × ℝ), (∀ jw ∈ l, jw ∈ parents m v) → ((l.filter fun jw => dcc.isDof.v jw.1).map ((fun t : Nat × Nat × ℝ => if df.idx.v t.1 = df.idx.v v ∧ dcc.idx.v t.2.1 = dcc.idx.v z then t.2.2 else 0) ∘
        fun jw : Nat × ℝ => (v, jw.1, jw.2))).sum = (l.map fun jw => jw.2 * hat z jw.1).sum := by
      intro l hmem
      induction l with
      | nil => rfl
      | cons jw l ih =>
        have ih' := ih fun x hx => hmem x (List.mem_cons_of_mem _ hx)
        by_cases hd : dcc.isDof.v jw.1 = true
        · rw [List.filter_cons_of_pos (by exact hd), List.map_cons, List.sum_cons, ih', List.map_cons, List.sum_cons, e jw (hmem jw List.mem_cons_self) hd]
        · have hne : jw.1 ≠ z := by
            rintro h
            exact hd (h ▸ inner_dof hnc hz)
          rw [List.filter_cons_of_neg (by exact hd), ih', List.map_cons, List.sum_cons]
          simp [hat, hne]
    rw [e2 _ fun _ h => h]
    unfold parents prolonged
    split
    · simp
    · simp only [List.map_cons, List.map_nil, List.sum_cons, List.sum_nil]
      ring
  · rw [List.mem_filter, List.mem_range]
    exact ⟨hv.1, inner_dof hnf hv⟩
  · intro x hx hxv
    rw [List.mem_filter, List.mem_range] at hx
    rw [List.map_map]
    refine List.sum_eq_zero fun y hy => ?_
    rw [List.mem_map] at hy
    obtain ⟨jw, -, rfl⟩ := hy
    show (if df.idx.v x = df.idx.v v ∧ dcc.idx.v jw.1 = dcc.idx.v z then jw.2 else 0) = 0
    rw [if_neg fun hh => hxv (idx_inj hnf hx.1 hv.1 (by rw [hx.2, inner_dof hnf hv]) hh.1)]

theorem prolongation_tot {r : Mesh ℝ} {f : Ref} {df dcc : Disc} (hl : Legal m) (hr : Refinement m r) (hf : Fathers m r f) (hnf : Numbered r df) (hnc : Numbered m dcc) (h0 : 0 < df.ndof) (h1 : 0 < dcc.ndof) (jc : Nat → Nat)
    (jx : Nat → ℝ) : ∃ P, prolongation jc jx df dcc f = .ok (some P) ∧ CSR P ∧ P.rows = df.ndof ∧ P.cols = dcc.ndof ∧
      ∀ v ∈ innerV r, ∀ z ∈ innerV m, entry P (df.idx.v v) (dcc.idx.v z) = prolonged m (hat z) v := by
  suffices h : Tot (prolongation jc jx df dcc f) fun o => ∃ P, o = some P ∧ CSR P ∧ P.rows = df.ndof ∧ P.cols = dcc.ndof ∧
      ∀ v ∈ innerV r, ∀ z ∈ innerV m, entry P (df.idx.v v) (dcc.idx.v z) = prolonged m (hat z) v by
    obtain ⟨o, e, P, rfl, h⟩ := h
    exact ⟨P, e, h⟩
  unfold prolongation
  refine Tot.bind (Pattern.new_tot h0 h1) fun sp _ hsp => ?_
  refine Tot.bind (prolongLoop_tot hl hr hf hnf hnc (J := fun pre sp => Pattern.Holds df.ndof dcc.ndof (fun i j => ∃ t ∈ pre, i = df.idx.v t.1 ∧ j = dcc.idx.v t.2.1) sp) ?_ ?_) ?_
  · exact Pattern.holds_congr hsp fun i _ j => by simp
  · intro pre s v z w h hv hz hzi
    refine (Pattern.addnz_tot h (hnf.dofs.1 hv) (hnc.dofs.1 hzi)).mono fun sp' h' => Pattern.holds_congr h' fun i _ j => ?_
    simp only [List.mem_append, List.mem_singleton]
    constructor
    · rintro (h | ⟨t, ht, h⟩)
      · exact ⟨_, .inr rfl, h⟩
      · exact ⟨t, .inl ht, h⟩
    · rintro ⟨t, ht | rfl, h⟩
      · exact .inr ⟨t, ht, h⟩
      · exact .inl h
  rintro o - ⟨sp', rfl, hS⟩
  refine Tot.bind (Sparse.newZero_tot hS jc jx) ?_
  rintro P - ⟨p1, p2, p3, p4, p5, -⟩
  have hzero : ∀ i < df.ndof, ∀ j, entry P i j = 0 := fun i hi j => entry_zero p1 p5 (by omega) j
  refine (prolongLoop_tot hl hr hf hnf hnc (J := fun pre Q => Sparse.SamePattern P Q ∧ ∀ i < df.ndof, ∀ j, entry Q i j = (pre.map fun t => if df.idx.v t.1 = i ∧ dcc.idx.v t.2.1 = j then t.2.2 else 0).sum) ?_ ?_).mono ?_
  · exact ⟨⟨rfl, rfl, rfl, rfl, rfl, rfl⟩, fun i hi j => by simpa using hzero i hi j⟩
  · rintro pre Q v z w ⟨q1, q2⟩ hv hz hzi
    have hpos : HasPos Q (df.idx.v v) (dcc.idx.v z) := by
      rw [Sparse.SamePattern.hasPos q1]
      exact (p4 _ (hnf.dofs.1 hv) _).mpr ⟨(v, z, w), (mem_triples hl hr hnf hnc).mpr ⟨hv, hz, hzi⟩, rfl, rfl⟩
    refine Tot.bind (Sparse.addentry_tot (Sparse.SamePattern.csr q1 p1) hpos w) ?_
    rintro ⟨Q', y⟩ - ⟨a1, -, a3⟩
    refine Tot.pure ⟨Sparse.SamePattern.trans q1 a1, fun i hi j => ?_⟩
    rw [a3 i (by rw [q1.rows]; omega) j, q2 i hi j, List.map_append, List.sum_append]
    by_cases h : i = df.idx.v v ∧ j = dcc.idx.v z
    · rw [if_pos h]
      simp [h.1, h.2]
    · rw [if_neg h]
      have : ¬ (df.idx.v v = i ∧ dcc.idx.v z = j) := fun hh => h ⟨hh.1.symm, hh.2.symm⟩
      simp [this]
  · rintro o ⟨Q, rfl, q1, q2⟩
    refine ⟨Q, rfl, Sparse.SamePattern.csr q1 p1, by rw [q1.rows]; omega, by rw [q1.cols]; omega, fun v hv z hz => ?_⟩
    rw [q2 _ (hnf.dofs.1 hv)]
    exact triples_sum hl hr hnf hnc hv hz

end H2.P1
