import Verif.Proof.Tri2dFix

/-! `tri2dbuilder` -/

set_option linter.unusedSectionVars false

namespace H2.Tri2d
open H2.Spec
variable {K : Type}

/-- invariant of the edge lists of a builder -/
structure EOk (b : Builder K) : Prop where
  ln : b.elist.n = b.vertices
  en : b.ent.n = b.edges
  ends : ∀ p < b.edges, (b.ent.v p).v0 < (b.ent.v p).v1 ∧ (b.ent.v p).v1 < b.vertices
  inj : ∀ p < b.edges, ∀ q < b.edges, (b.ent.v p).v0 = (b.ent.v q).v0 → (b.ent.v p).v1 = (b.ent.v q).v1 → p = q
  chain : ∀ i < b.vertices, ∀ p, p ∈ b.elist.v i ↔ p < b.edges ∧ (b.ent.v p).v0 = i

/-- entry `p` joins `u` and `v` -/
def EJ (ent : Arr Entry) (p u v : Nat) : Prop :=
  ((ent.v p).v0 = u ∧ (ent.v p).v1 = v) ∨ ((ent.v p).v0 = v ∧ (ent.v p).v1 = u)

/-- `b'` extends `b` by new edges without neighbours -/
structure Ext (b b' : Builder K) : Prop where
  v : b'.vertices = b.vertices
  t : b'.triangles = b.triangles
  x : b'.x = b.x
  l : b'.tlist = b.tlist
  le : b.edges ≤ b'.edges
  old : ∀ p < b.edges, b'.ent.v p = b.ent.v p
  new : ∀ p, b.edges ≤ p → p < b'.edges → (b'.ent.v p).neighbours = 0

theorem Ext.trans {b b' b'' : Builder K} (h : Ext b b') (h' : Ext b' b'') : Ext b b'' where
  v := h'.v.trans h.v
  t := h'.t.trans h.t
  x := h'.x.trans h.x
  l := h'.l.trans h.l
  le := h.le.trans h'.le
  old := fun p hp => (h'.old p (by have := h.le; omega)).trans (h.old p hp)
  new := fun p hp hp' => by
    by_cases hq : p < b'.edges
    · rw [h'.old p hq]; exact h.new p hp hq
    · exact h'.new p (by omega) hp'

theorem Ext.ej {b b' : Builder K} (h : Ext b b') {p u v : Nat} (hp : p < b.edges) (hj : EJ b.ent p u v) : EJ b'.ent p u v := by
  unfold EJ; rw [h.old p hp]; exact hj

theorem findIn_tot {ent : Arr Entry} {v1 : Nat} : ∀ (l : List Nat), (∀ p ∈ l, p < ent.n) →
    Tot (findIn ent v1 l) fun r => (∀ p, r = some p → p ∈ l ∧ (ent.v p).v1 = v1) ∧ (r = none → ∀ p ∈ l, (ent.v p).v1 ≠ v1)
  | [], _ => ⟨none, rfl, fun p h => by simp at h, fun _ p h => by simp at h⟩
  | p :: ps, h => by
    unfold findIn
    refine Tot.get (h p (by simp)) ?_
    split
    · next h1 =>
      refine Tot.pure ⟨?_, fun h => by simp at h⟩
      intro q hq
      have : p = q := by simpa using hq
      subst this
      exact ⟨by simp, h1⟩
    · next h1 =>
      refine Tot.mono (findIn_tot ps (fun q hq => h q (by simp [hq]))) ?_
      rintro r ⟨a, b⟩
      refine ⟨fun q hq => ⟨by simp [(a q hq).1], (a q hq).2⟩, fun hn q hq => ?_⟩
      rcases List.mem_cons.mp hq with rfl | hq
      · exact h1
      · exact b hn q hq

theorem findEdge_tot {b : Builder K} (hb : EOk b) {v0 v1 : Nat} (h0 : v0 < b.vertices) (h1 : v1 < b.vertices) (hne : v0 ≠ v1) :
    Tot (findEdge b v0 v1) fun r => EOk r.2 ∧ Ext b r.2 ∧ r.1 < r.2.edges ∧ EJ r.2.ent r.1 v0 v1 ∧ ∀ p, b.edges ≤ p → p < r.2.edges → p = r.1 := by
  unfold findEdge
  refine Tot.cassert (decide_eq_true h0) ?_
  refine Tot.cassert (decide_eq_true h1) ?_
  obtain ⟨u, v, huv, hlt, hv, hj⟩ : ∃ u v, (if v0 > v1 then (v1, v0) else (v0, v1)) = (u, v) ∧ u < v ∧ v < b.vertices ∧
      ∀ ent p, ((ent : Arr Entry).v p).v0 = u → (ent.v p).v1 = v → EJ ent p v0 v1 := by
    by_cases hgt : v0 > v1
    · exact ⟨v1, v0, if_pos hgt, hgt, h0, fun ent p a c => .inr ⟨a, c⟩⟩
    · exact ⟨v0, v1, if_neg hgt, by omega, h1, fun ent p a c => .inl ⟨a, c⟩⟩
  rw [huv]
  have hln := hb.ln; have hen := hb.en
  refine Tot.get (by omega) ?_
  refine Tot.bind (findIn_tot (b.elist.v u) (fun p hp => by have := ((hb.chain u (by omega) p).mp hp).1; omega)) ?_
  rintro r _ ⟨r1, r2⟩
  cases r with
  | some p =>
    obtain ⟨hp, hp1⟩ := r1 p rfl
    obtain ⟨hp2, hp3⟩ := (hb.chain u (by omega) p).mp hp
    exact Tot.pure ⟨hb, ⟨rfl, rfl, rfl, rfl, le_refl _, fun _ _ => rfl, fun q h h' => absurd h (Nat.not_le.mpr h')⟩, hp2, hj _ _ hp3 hp1, fun q h h' => absurd h (Nat.not_le.mpr h')⟩
  | none =>
    have hno := r2 rfl
    show Tot (b.elist.set u (b.edges :: b.elist.v u) >>= _) _
    refine Tot.set (by omega) ?_
    have hold : ∀ p < b.edges, (if p = b.edges then (⟨u, v, 0⟩ : Entry) else b.ent.v p) = b.ent.v p := fun p hp => if_neg (by omega)
    have hnew : (if b.edges = b.edges then (⟨u, v, 0⟩ : Entry) else b.ent.v b.edges) = ⟨u, v, 0⟩ := if_pos rfl
    have hcases : ∀ p, p < b.edges + 1 → p < b.edges ∨ p = b.edges := by omega
    refine Tot.pure ⟨⟨hln, by simp only; omega, ?_, ?_, ?_⟩, ⟨rfl, rfl, rfl, rfl, by simp, fun p hp => hold p hp, ?_⟩, by simp, ?_, fun p h h' => by simp only at h'; omega⟩
    · intro p hp
      simp only
      rcases hcases p hp with h | rfl
      · rw [hold p h]; exact hb.ends p h
      · rw [hnew]; exact ⟨hlt, hv⟩
    · intro p hp q hq
      simp only
      have key : ∀ p < b.edges, ¬ ((b.ent.v p).v0 = u ∧ (b.ent.v p).v1 = v) := fun p hp ⟨a, c⟩ =>
        hno p ((hb.chain u (by omega) p).mpr ⟨hp, a⟩) c
      rcases hcases p hp with h | rfl <;> rcases hcases q hq with h' | rfl
      · rw [hold p h, hold q h']; exact hb.inj p h q h'
      · rw [hold p h, hnew]; intro a c; exact absurd ⟨a, c⟩ (key p h)
      · rw [hold q h', hnew]; intro a c; exact absurd ⟨a.symm, c.symm⟩ (key q h')
      · intros; rfl
    · intro i hi p
      simp only at hi ⊢
      rw [Arr.upd_v]
      have hc := hb.chain i hi p
      split
      · next hiu =>
        subst hiu
        rw [List.mem_cons, hc]
        constructor
        · rintro (rfl | ⟨a, c⟩)
          · exact ⟨by omega, by rw [hnew]⟩
          · exact ⟨by omega, by rw [hold p a]; exact c⟩
        · rintro ⟨a, c⟩
          rcases hcases p a with h | rfl
          · right; rw [hold p h] at c; exact ⟨h, c⟩
          · left; rfl
      · next hiu =>
        rw [hc]
        constructor
        · rintro ⟨a, c⟩; exact ⟨by omega, by rw [hold p a]; exact c⟩
        · rintro ⟨a, c⟩
          rcases hcases p a with h | rfl
          · rw [hold p h] at c; exact ⟨h, c⟩
          · rw [hnew] at c; exact absurd c.symm hiu
    · intro p hp hp'
      simp only at hp' ⊢
      have : p = b.edges := by omega
      subst this; rw [hnew]
    · exact hj _ _ (by simp) (by simp)

theorem bumpEntry_tot {ent : Arr Entry} {p : Nat} (h : p < ent.n) :
    Tot (bumpEntry ent p) fun ent' => ent'.n = ent.n ∧ ∀ q, (ent'.v q).v0 = (ent.v q).v0 ∧ (ent'.v q).v1 = (ent.v q).v1 ∧
      (ent'.v q).neighbours = (ent.v q).neighbours + if q = p then 1 else 0 := by
  unfold bumpEntry
  refine Tot.get h ?_
  refine ⟨_, Arr.set_ok h, rfl, fun q => ?_⟩
  show (if q = p then _ else _ : Entry).v0 = _ ∧ (if q = p then _ else _ : Entry).v1 = _ ∧ (if q = p then _ else _ : Entry).neighbours = _
  by_cases hq : q = p
  · subst hq; simp
  · simp [hq]

/-- occurrences of `p` in a triple -/
def occ3 (g : Nat × Nat × Nat) (p : Nat) : Nat := (if p = g.1 then 1 else 0) + (if p = g.2.1 then 1 else 0) + if p = g.2.2 then 1 else 0

/-- invariant of a builder after the triangles `ts` have been added; `g i` are the edges of triangle `i` -/
structure BInv (b : Builder K) (ts : List (Nat × Nat × Nat)) (g : Nat → Nat × Nat × Nat) : Prop extends EOk b where
  nt : b.triangles = ts.length
  lt : ∀ i < ts.length, (g i).1 < b.edges ∧ (g i).2.1 < b.edges ∧ (g i).2.2 < b.edges
  join : ∀ i (h : i < ts.length), EJ b.ent (g i).1 ts[i].2.1 ts[i].2.2 ∧ EJ b.ent (g i).2.1 ts[i].2.2 ts[i].1 ∧ EJ b.ent (g i).2.2 ts[i].1 ts[i].2.1
  mem : ∀ y, y ∈ b.tlist ↔ ∃ i < ts.length, y = (i, g i)
  nb : ∀ p < b.edges, (b.ent.v p).neighbours = ∑ i ∈ Finset.range ts.length, occ3 (g i) p
  pos : ∀ p < b.edges, 1 ≤ (b.ent.v p).neighbours

theorem addTriangle_tot {b : Builder K} {ts : List (Nat × Nat × Nat)} {g : Nat → Nat × Nat × Nat} (h : BInv b ts g) {t : Nat × Nat × Nat}
    (h0 : t.1 < b.vertices) (h1 : t.2.1 < b.vertices) (h2 : t.2.2 < b.vertices) (n01 : t.1 ≠ t.2.1) (n12 : t.2.1 ≠ t.2.2) (n20 : t.2.2 ≠ t.1) :
    Tot (addTriangle b t.1 t.2.1 t.2.2) fun b' => (∃ g', BInv b' (ts ++ [t]) g') ∧ b'.vertices = b.vertices ∧ b'.x = b.x := by
  unfold addTriangle
  refine Tot.bind (findEdge_tot h.toEOk h0 h1 n01) ?_
  rintro ⟨e01, b1⟩ _ ⟨a1, a2, a3, a4, a5⟩
  simp only at a1 a2 a3 a4 a5 ⊢
  have w1 := a2.v
  refine Tot.bind (findEdge_tot a1 (by omega) (by omega) n12) ?_
  rintro ⟨e12, b2⟩ _ ⟨c1, c2, c3, c4, c5⟩
  simp only at c1 c2 c3 c4 c5 ⊢
  have w2 := c2.v
  refine Tot.bind (findEdge_tot c1 (by omega) (by omega) n20) ?_
  rintro ⟨e20, b3⟩ _ ⟨d1, d2, d3, d4, d5⟩
  simp only at d1 d2 d3 d4 d5 ⊢
  have w3 := d2.v
  have hE := a2.trans (c2.trans d2)
  have l01 : e01 < b3.edges := by have := c2.le; have := d2.le; omega
  have l12 : e12 < b3.edges := by have := d2.le; omega
  have j01 : EJ b3.ent e01 t.1 t.2.1 := d2.ej (by have := c2.le; omega) (c2.ej a3 a4)
  have j12 : EJ b3.ent e12 t.2.1 t.2.2 := d2.ej c3 c4
  have hen := d1.en
  refine Tot.bind (bumpEntry_tot (by omega)) ?_
  rintro ent1 _ ⟨p1, p2⟩
  refine Tot.bind (bumpEntry_tot (by omega)) ?_
  rintro ent2 _ ⟨q1, q2⟩
  refine Tot.bind (bumpEntry_tot (by omega)) ?_
  rintro ent3 _ ⟨r1, r2⟩
  have z0 : ∀ p, (ent3.v p).v0 = (b3.ent.v p).v0 := fun p => (r2 p).1.trans ((q2 p).1.trans (p2 p).1)
  have z1 : ∀ p, (ent3.v p).v1 = (b3.ent.v p).v1 := fun p => (r2 p).2.1.trans ((q2 p).2.1.trans (p2 p).2.1)
  have z2 : ∀ p, (ent3.v p).neighbours = (b3.ent.v p).neighbours + occ3 (e12, e20, e01) p := fun p => by
    rw [(r2 p).2.2, (q2 p).2.2, (p2 p).2.2]; simp only [occ3]; omega
  have zj : ∀ p u v, EJ ent3 p u v ↔ EJ b3.ent p u v := fun p u v => by unfold EJ; rw [z0, z1]
  have hn : ts.length = b3.triangles := by rw [hE.t, h.nt]
  let g' : Nat → Nat × Nat × Nat := fun i => if i = ts.length then (e12, e20, e01) else g i
  have g1 : ∀ i < ts.length, g' i = g i := fun i hi => if_neg (by omega)
  have g2 : g' ts.length = (e12, e20, e01) := if_pos rfl
  have hle := hE.le
  have hlen : (ts ++ [t]).length = ts.length + 1 := by simp
  refine Tot.pure ⟨⟨g', ⟨⟨d1.ln, by simp only; omega, ?_, ?_, ?_⟩, ?_, ?_, ?_, ?_, ?_, ?_⟩⟩, hE.v, hE.x⟩
  · intro p hp; simp only; rw [z0, z1]; exact d1.ends p hp
  · intro p hp q hq; simp only; rw [z0, z1, z0, z1]; exact d1.inj p hp q hq
  · intro i hi p; simp only; rw [z0]; exact d1.chain i hi p
  · simp only; rw [hlen, hE.t, h.nt]
  · intro i hi
    rw [hlen] at hi
    rcases (show i < ts.length ∨ i = ts.length by omega) with h' | rfl
    · rw [g1 i h']; have := h.lt i h'; simp only; omega
    · rw [g2]; exact ⟨l12, d3, l01⟩
  · intro i hi
    simp only [zj]
    have hi' := hi
    rw [hlen] at hi'
    rcases (show i < ts.length ∨ i = ts.length by omega) with h' | rfl
    · rw [g1 i h', List.getElem_append_left h']
      have := h.lt i h'
      obtain ⟨x, y, z⟩ := h.join i h'
      exact ⟨hE.ej this.1 x, hE.ej this.2.1 y, hE.ej this.2.2 z⟩
    · rw [g2]; simp only [List.getElem_append_right (le_refl _), Nat.sub_self, List.getElem_cons_zero]; exact ⟨j12, d4, j01⟩
  · intro y
    simp only
    rw [List.mem_cons, hE.l, h.mem, hlen, ← hn]
    constructor
    · rintro (rfl | ⟨i, hi, rfl⟩)
      · exact ⟨ts.length, by omega, by rw [g2]⟩
      · exact ⟨i, by omega, by rw [g1 i hi]⟩
    · rintro ⟨i, hi, rfl⟩
      rcases (show i < ts.length ∨ i = ts.length by omega) with h' | rfl
      · right; exact ⟨i, h', by rw [g1 i h']⟩
      · left; rw [g2]
  · intro p hp
    simp only at hp ⊢
    rw [z2, hlen, Finset.sum_range_succ, g2]
    congr 1
    rw [Finset.sum_congr rfl (g := fun i => occ3 (g i) p) (fun i hi => by rw [g1 i (Finset.mem_range.mp hi)])]
    by_cases hpe : p < b.edges
    · rw [hE.old p hpe]; exact h.nb p hpe
    · rw [hE.new p (by omega) hp]
      symm
      apply Finset.sum_eq_zero
      intro i hi
      have := h.lt i (Finset.mem_range.mp hi)
      unfold occ3
      rw [if_neg (by omega), if_neg (by omega), if_neg (by omega)]; rfl
  · intro p hp
    simp only at hp ⊢
    rw [z2]
    by_cases hpe : p < b.edges
    · rw [hE.old p hpe]; have := h.pos p hpe; omega
    · -- a new edge is one of the three
      have : p = e12 ∨ p = e20 ∨ p = e01 := by
        by_cases q1 : p < b1.edges
        · right; right; exact a5 p (by omega) q1
        · by_cases q2 : p < b2.edges
          · left; exact c5 p (by omega) q2
          · right; left; exact d5 p (by omega) hp
      unfold occ3
      rcases this with rfl | rfl | rfl <;> simp <;> omega

end H2.Tri2d
