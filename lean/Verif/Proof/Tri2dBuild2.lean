import Verif.Proof.Tri2dBuild

/-! `buildmesh_tri2dbuilder` -/

set_option linter.unusedSectionVars false

namespace H2.Tri2d
open H2.Spec
variable {K : Type}

theorem addTriangles_tot : ∀ (ts pre : List (Nat × Nat × Nat)) (b : Builder K) (g : Nat → Nat × Nat × Nat), BInv b pre g → Triples b.vertices ts →
    Tot (addTriangles b ts) fun b' => (∃ g', BInv b' (pre ++ ts) g') ∧ b'.vertices = b.vertices ∧ b'.x = b.x
  | [], pre, b, g, h, _ => ⟨b, rfl, ⟨g, by simpa using h⟩, rfl, rfl⟩
  | t :: ts, pre, b, g, h, ht => by
    obtain ⟨a1, a2, a3, a4, a5, a6⟩ := ht t (by simp)
    unfold addTriangles
    refine Tot.bind (addTriangle_tot h a1 a2 a3 a4 a5 a6) ?_
    rintro b' _ ⟨⟨g', h'⟩, hv, hx⟩
    refine Tot.mono (addTriangles_tot ts (pre ++ [t]) b' g' h' (fun s hs => by rw [hv]; exact ht s (by simp [hs]))) ?_
    rintro b'' ⟨⟨g'', h''⟩, hv', hx'⟩
    exact ⟨⟨g'', by simpa using h''⟩, hv'.trans hv, hx'.trans hx⟩

theorem newBuilder_inv (je : Nat → Entry) (vertices : Nat) (x : Nat → K) : BInv (newBuilder je vertices x) [] (fun _ => (0, 0, 0)) where
  ln := rfl
  en := rfl
  ends := fun p hp => absurd hp (Nat.not_lt_zero p)
  inj := fun p hp => absurd hp (Nat.not_lt_zero p)
  chain := fun i hi p => by simp [newBuilder]
  nt := rfl
  lt := fun i hi => absurd hi (Nat.not_lt_zero i)
  join := fun i hi => absurd hi (Nat.not_lt_zero i)
  mem := fun y => by simp [newBuilder]
  nb := fun p hp => absurd hp (Nat.not_lt_zero p)
  pos := fun p hp => absurd hp (Nat.not_lt_zero p)

section
variable {b : Builder K} {ts : List (Nat × Nat × Nat)} {g : Nat → Nat × Nat × Nat}

theorem EJ.eq {b : Builder K} (h : EOk b) {p q u v : Nat} (hp : p < b.edges) (hq : q < b.edges) (h1 : EJ b.ent p u v) (h2 : EJ b.ent q u v) : p = q := by
  have e1 := h.ends p hp
  have e2 := h.ends q hq
  apply h.inj p hp q hq <;> (unfold EJ at h1 h2; omega)

theorem EJ.iff {b : Builder K} (h : EOk b) {p q u v : Nat} (hp : p < b.edges) (hq : q < b.edges) (h2 : EJ b.ent q u v) :
    p = q ↔ ((b.ent.v p).v0 = u ∧ (b.ent.v p).v1 = v) ∨ ((b.ent.v p).v0 = v ∧ (b.ent.v p).v1 = u) :=
  ⟨fun e => by subst e; exact h2, fun h1 => EJ.eq h hp hq h1 h2⟩

theorem occ3_eq (h : BInv b ts g) (ht : Triples b.vertices ts) {p : Nat} (hp : p < b.edges) {i : Nat} (hi : i < ts.length) :
    occ3 (g i) p = if HasEdge ts[i] (b.ent.v p).v0 (b.ent.v p).v1 then 1 else 0 := by
  obtain ⟨l1, l2, l3⟩ := h.lt i hi
  obtain ⟨j1, j2, j3⟩ := h.join i hi
  obtain ⟨-, -, -, n1, n2, n3⟩ := ht ts[i] (List.getElem_mem hi)
  have e := h.ends p hp
  unfold occ3
  simp only [EJ.iff h.toEOk hp l1 j1, EJ.iff h.toEOk hp l2 j2, EJ.iff h.toEOk hp l3 j3]
  clear j1 j2 j3 l1 l2 l3
  by_cases hh : HasEdge ts[i] (b.ent.v p).v0 (b.ent.v p).v1
  · rw [if_pos hh]; unfold HasEdge at hh; split_ifs <;> omega
  · rw [if_neg hh]; unfold HasEdge at hh; split_ifs <;> omega

theorem countP_range {α : Type _} (P : α → Bool) (d : α) (l : List α) : l.countP P = ∑ i ∈ Finset.range l.length, if P (l.getD i d) then 1 else 0 := by
  induction l with
  | nil => simp
  | cons a l ih =>
    rw [List.length_cons, Finset.sum_range_succ', List.countP_cons, ih]
    simp

theorem nb_eq (h : BInv b ts g) (ht : Triples b.vertices ts) {p : Nat} (hp : p < b.edges) :
    (b.ent.v p).neighbours = ts.countP (fun t => decide (HasEdge t (b.ent.v p).v0 (b.ent.v p).v1)) := by
  rw [h.nb p hp, countP_range _ (0, 0, 0)]
  refine Finset.sum_congr rfl fun i hi => ?_
  have hi' := Finset.mem_range.mp hi
  rw [occ3_eq h ht hp hi', ← List.getElem_eq_getD (h := hi')]
  simp

theorem hasEdge_comm (t : Nat × Nat × Nat) (u v : Nat) : HasEdge t u v ↔ HasEdge t v u := And.comm

/-- two different vertices with a common triangle are joined by an edge -/
theorem edge_of (h : BInv b ts g) {u v : Nat} (hne : u ≠ v) {i : Nat} (hi : i < ts.length)
    (he : HasEdge ts[i] u v) : ∃ p < b.edges, EJ b.ent p u v := by
  obtain ⟨l1, l2, l3⟩ := h.lt i hi
  obtain ⟨j1, j2, j3⟩ := h.join i hi
  have key : (u = ts[i].2.1 ∧ v = ts[i].2.2 ∨ u = ts[i].2.2 ∧ v = ts[i].2.1) ∨ (u = ts[i].2.2 ∧ v = ts[i].1 ∨ u = ts[i].1 ∧ v = ts[i].2.2) ∨
      (u = ts[i].1 ∧ v = ts[i].2.1 ∨ u = ts[i].2.1 ∧ v = ts[i].1) := by unfold HasEdge at he; omega
  rcases key with (⟨rfl, rfl⟩ | ⟨rfl, rfl⟩) | (⟨rfl, rfl⟩ | ⟨rfl, rfl⟩) | (⟨rfl, rfl⟩ | ⟨rfl, rfl⟩)
  · exact ⟨_, l1, j1⟩
  · exact ⟨_, l1, j1.symm⟩
  · exact ⟨_, l2, j2⟩
  · exact ⟨_, l2, j2.symm⟩
  · exact ⟨_, l3, j3⟩
  · exact ⟨_, l3, j3.symm⟩

theorem count_of_ej (h : BInv b ts g) (ht : Triples b.vertices ts) {p u v : Nat} (hp : p < b.edges) (hj : EJ b.ent p u v) :
    ts.countP (fun t => decide (HasEdge t u v)) = (b.ent.v p).neighbours := by
  rw [nb_eq h ht hp]
  rcases hj with ⟨a, c⟩ | ⟨a, c⟩
  · rw [a, c]
  · rw [a, c]; simp only [hasEdge_comm _ u v]

theorem edge_of_count (h : BInv b ts g) {u v : Nat} (hne : u ≠ v) (hc : 0 < ts.countP (fun t => decide (HasEdge t u v))) :
    ∃ p < b.edges, EJ b.ent p u v := by
  obtain ⟨t, hm, he⟩ := List.countP_pos_iff.mp hc
  obtain ⟨i, hi, rfl⟩ := List.mem_iff_getElem.mp hm
  exact edge_of h hne hi (of_decide_eq_true he)

theorem atMostTwo_iff (h : BInv b ts g) (ht : Triples b.vertices ts) : AtMostTwo ts ↔ ∀ p < b.edges, (b.ent.v p).neighbours ≤ 2 := by
  constructor
  · intro H p hp
    rw [nb_eq h ht hp]
    exact H _ _ (by have := h.ends p hp; omega)
  · intro H u v hne
    by_cases hc : 0 < ts.countP (fun t => decide (HasEdge t u v))
    · obtain ⟨p, hp, hj⟩ := edge_of_count h hne hc
      rw [count_of_ej h ht hp hj]; exact H p hp
    · omega

end

/-- outcome: an assertion fails and `c` is false, or normal return with `P` -/
def AFc {α : Type _} (c : Prop) (x : R α) (P : α → Prop) : Prop := (x = .error .assertFail ∧ ¬ c) ∨ Tot x P

theorem AFc.bind {α β : Type _} {c : Prop} {x : R α} {k : α → R β} {P : α → Prop} {Q : β → Prop} (h : AFc c x P) (hk : ∀ a, P a → AFc c (k a) Q) :
    AFc c (x >>= k) Q := by
  rcases h with ⟨e, hc⟩ | ⟨a, e, hp⟩
  · left; rw [e]; exact ⟨rfl, hc⟩
  · rw [e, ok_bind]; exact hk a hp

theorem AFc.tot {α : Type _} {c : Prop} {x : R α} {P : α → Prop} (h : Tot x P) : AFc c x P := .inr h

theorem AFc.get {α β : Type _} {c : Prop} {a : Arr α} {i : Nat} {k : α → R β} {Q : β → Prop} (h : i < a.n) (hk : AFc c (k (a.v i)) Q) :
    AFc c (a.get i >>= k) Q := by rw [Arr.get_ok h, ok_bind]; exact hk

theorem AFc.set {α β : Type _} {c : Prop} {a : Arr α} {i : Nat} {x : α} {k : Arr α → R β} {Q : β → Prop} (h : i < a.n)
    (hk : AFc c (k (a.upd i x)) Q) : AFc c (a.set i x >>= k) Q := by rw [Arr.set_ok h, ok_bind]; exact hk

theorem loopN_afc {σ : Type _} {c : Prop} {body : Nat → σ → R σ} (I : Nat → σ → Prop) :
    ∀ (n i : Nat) (s : σ), I i s → (∀ k t, i ≤ k → k < i + n → I k t → AFc c (body k t) (I (k + 1))) → AFc c (loopN body n i s) (I (i + n))
  | 0, i, s, h, _ => .inr ⟨s, rfl, h⟩
  | n + 1, i, s, h, hb => by
    simp only [loopN]
    refine AFc.bind (hb i s (le_refl _) (by omega) h) fun t ht => ?_
    have := loopN_afc I n (i + 1) t ht (fun k t' h1 h2 => hb k t' (by omega) (by omega))
    rwa [show i + 1 + n = i + (n + 1) by omega] at this

theorem forUp_afc {σ : Type _} {c : Prop} {n : Nat} {body : Nat → σ → R σ} {s : σ} (I : Nat → σ → Prop) (h0 : I 0 s)
    (hb : ∀ k t, k < n → I k t → AFc c (body k t) (I (k + 1))) : AFc c (forUp 0 n body s) (I n) := by
  have := loopN_afc (c := c) I n 0 s h0 (fun k t _ h2 => hb k t (by omega))
  simpa [forUp] using this

theorem copyTriangles_tot {g : Nat → Nat × Nat × Nat} {T : Nat} : ∀ (ys : List (Nat × Nat × Nat × Nat)) (t : Arr Nat), t.n = 3 * T →
    (∀ y ∈ ys, ∃ i < T, y = (i, g i)) →
    Tot (copyTriangles ys t) fun t' => t'.n = 3 * T ∧ ∀ i, ((t.v (3 * i) = (g i).1 ∧ t.v (3 * i + 1) = (g i).2.1 ∧ t.v (3 * i + 2) = (g i).2.2) ∨ (i, g i) ∈ ys) →
      t'.v (3 * i) = (g i).1 ∧ t'.v (3 * i + 1) = (g i).2.1 ∧ t'.v (3 * i + 2) = (g i).2.2
  | [], t, hn, _ => ⟨t, rfl, hn, fun i h => by simpa using h⟩
  | y :: ys, t, hn, h => by
    obtain ⟨j, hj, rfl⟩ := h y (by simp)
    unfold copyTriangles
    refine Tot.set (by simp only; omega) ?_
    refine Tot.set (by rw [Arr.upd_n]; simp only; omega) ?_
    refine Tot.set (by rw [Arr.upd_n, Arr.upd_n]; simp only; omega) ?_
    refine Tot.mono (copyTriangles_tot ys _ hn (fun z hz => h z (by simp [hz]))) ?_
    rintro t' ⟨h1, h2⟩
    refine ⟨h1, fun i hi => h2 i ?_⟩
    simp only [Arr.upd_v]
    by_cases hij : i = j
    · subst hij; left
      exact ⟨by rw [if_neg (by omega), if_neg (by omega), if_pos rfl], by rw [if_neg (by omega), if_pos rfl], if_pos rfl⟩
    · rcases hi with hi | hi
      · left
        rw [if_neg (by omega), if_neg (by omega), if_neg (by omega), if_neg (by omega), if_neg (by omega), if_neg (by omega), if_neg (by omega),
          if_neg (by omega), if_neg (by omega)]
        exact hi
      · right
        rcases List.mem_cons.mp hi with hi | hi
        · exact absurd (congrArg Prod.fst hi) hij
        · exact hi

/-- invariant of the loop "Copy edges": the edges in `D` are done -/
structure CI (b : Builder K) (D : Nat → Prop) (s : CState) : Prop where
  ne : s.e.n = 2 * b.edges
  nf : s.eb.n = b.edges
  nx : s.xb.n = b.vertices
  done : ∀ p, D p → s.e.v (2 * p) = (b.ent.v p).v0 ∧ s.e.v (2 * p + 1) = (b.ent.v p).v1 ∧ s.eb.v p = (if (b.ent.v p).neighbours = 1 then 1 else 0) ∧
    (b.ent.v p).neighbours ≤ 2
  mark : ∀ v p, D p → (b.ent.v p).neighbours = 1 → ((b.ent.v p).v0 = v ∨ (b.ent.v p).v1 = v) → s.xb.v v = 1
  zero : ∀ v < b.vertices, (∀ p, D p → (b.ent.v p).neighbours = 1 → (b.ent.v p).v0 ≠ v ∧ (b.ent.v p).v1 ≠ v) → s.xb.v v = 0

theorem CI.congr {b : Builder K} {D D' : Nat → Prop} {s : CState} (h : CI b D s) (hD : ∀ p, D p ↔ D' p) : CI b D' s := by
  have : D = D' := funext fun p => propext (hD p)
  rwa [← this]

theorem copyChain_afc {b : Builder K} (hb : EOk b) (hpos : ∀ p < b.edges, 1 ≤ (b.ent.v p).neighbours) : ∀ (ps : List Nat) (D : Nat → Prop) (s : CState),
    (∀ p ∈ ps, p < b.edges) → CI b D s →
    AFc (∀ p < b.edges, (b.ent.v p).neighbours ≤ 2) (copyChain b.ent ps s) (fun s' => CI b (fun p => D p ∨ p ∈ ps) s')
  | [], D, s, _, h => .inr ⟨s, rfl, h.congr (fun p => by simp)⟩
  | p :: ps, D, s, hps, h => by
    have hp := hps p (by simp)
    have hen := hb.en
    obtain ⟨e1, e2⟩ := hb.ends p hp
    have hp1 := hpos p hp
    have n1 := h.ne; have n2 := h.nf; have n3 := h.nx
    unfold copyChain
    refine AFc.get (by omega) ?_
    refine AFc.set (by omega) ?_
    refine AFc.set (by rw [Arr.upd_n]; omega) ?_
    by_cases hnb : (b.ent.v p).neighbours ≤ 2
    swap
    · left
      have : (decide ((b.ent.v p).neighbours = 1 ∨ (b.ent.v p).neighbours = 2)) = false := by simp; omega
      rw [this]
      exact ⟨rfl, fun H => hnb (H p hp)⟩
    rw [cassert_true (by simp; omega), ok_bind]
    refine AFc.set (by omega) ?_
    have hE : ∀ q, (((s.e.upd (2 * p) (b.ent.v p).v0).upd (2 * p + 1) (b.ent.v p).v1).v (2 * q) = if q = p then (b.ent.v p).v0 else s.e.v (2 * q)) ∧
        (((s.e.upd (2 * p) (b.ent.v p).v0).upd (2 * p + 1) (b.ent.v p).v1).v (2 * q + 1) = if q = p then (b.ent.v p).v1 else s.e.v (2 * q + 1)) := by
      intro q
      simp only [Arr.upd_v]
      by_cases hq : q = p
      · subst hq; rw [if_neg (by omega), if_pos rfl, if_pos rfl, if_pos rfl, if_pos rfl]; exact ⟨rfl, rfl⟩
      · rw [if_neg (by omega), if_neg (by omega), if_neg hq, if_neg (by omega), if_neg (by omega), if_neg hq]; exact ⟨rfl, rfl⟩
    have hdone : ∀ q, (D q ∨ q = p) → ((s.e.upd (2 * p) (b.ent.v p).v0).upd (2 * p + 1) (b.ent.v p).v1).v (2 * q) = (b.ent.v q).v0 ∧
        ((s.e.upd (2 * p) (b.ent.v p).v0).upd (2 * p + 1) (b.ent.v p).v1).v (2 * q + 1) = (b.ent.v q).v1 ∧
        (s.eb.upd p (if (b.ent.v p).neighbours = 1 then 1 else 0)).v q = (if (b.ent.v q).neighbours = 1 then 1 else 0) ∧
        (b.ent.v q).neighbours ≤ 2 := by
      intro q hq
      rw [(hE q).1, (hE q).2, Arr.upd_v]
      by_cases hqp : q = p
      · subst hqp; rw [if_pos rfl, if_pos rfl, if_pos rfl]; exact ⟨rfl, rfl, rfl, hnb⟩
      · rw [if_neg hqp, if_neg hqp, if_neg hqp]
        exact h.done q (hq.resolve_right hqp)
    have hrest : ∀ s', CI b (fun q => D q ∨ q = p) s' → AFc (∀ p < b.edges, (b.ent.v p).neighbours ≤ 2) (copyChain b.ent ps s')
        (fun s' => CI b (fun q => D q ∨ q ∈ p :: ps) s') := by
      intro s' hs'
      rcases copyChain_afc hb hpos ps _ s' (fun q hq => hps q (by simp [hq])) hs' with h | ⟨a, e, h⟩
      · exact .inl h
      · exact .inr ⟨a, e, h.congr (fun q => by simp only [List.mem_cons, or_assoc])⟩
    by_cases hone : (b.ent.v p).neighbours = 1
    · simp only [if_pos hone] at hdone ⊢
      rw [bind_assoc]
      refine AFc.set (by omega) ?_
      refine AFc.set (by rw [Arr.upd_n]; omega) ?_
      refine hrest _ ⟨n1, n2, n3, hdone, ?_, ?_⟩
      · intro v q hq h1 hv
        simp only [Arr.upd_v]
        by_cases hv1 : v = (b.ent.v p).v1
        · rw [if_pos hv1]
        · rw [if_neg hv1]
          by_cases hv0 : v = (b.ent.v p).v0
          · rw [if_pos hv0]
          · rw [if_neg hv0]
            rcases hq with hq | rfl
            · exact h.mark v q hq h1 hv
            · omega
      · intro v hv H
        obtain ⟨z0, z1⟩ := H p (.inr rfl) hone
        simp only [Arr.upd_v]
        rw [if_neg (Ne.symm z1), if_neg (Ne.symm z0)]
        exact h.zero v hv (fun q hq => H q (.inl hq))
    · simp only [if_neg hone] at hdone ⊢
      refine hrest _ ⟨n1, n2, n3, hdone, ?_, ?_⟩
      · intro v q hq h1 hv
        rcases hq with hq | rfl
        · exact h.mark v q hq h1 hv
        · exact absurd h1 hone
      · intro v hv H
        exact h.zero v hv (fun q hq => H q (.inl hq))

/-- the mesh before its normals are fixed -/
structure Raw (b : Builder K) (g : Nat → Nat × Nat × Nat) (m : Mesh K) : Prop extends Sized m where
  v : m.vertices = b.vertices
  ne : m.edges = b.edges
  nt : m.triangles = b.triangles
  px : ∀ i < b.vertices, m.x.v (2 * i) = b.x.v (2 * i) ∧ m.x.v (2 * i + 1) = b.x.v (2 * i + 1)
  tr : ∀ i < b.triangles, side m i 0 = (g i).1 ∧ side m i 1 = (g i).2.1 ∧ side m i 2 = (g i).2.2
  ed : ∀ p < b.edges, endp m p 0 = (b.ent.v p).v0 ∧ endp m p 1 = (b.ent.v p).v1
  fl : ∀ p < b.edges, m.eb.v p = (if (b.ent.v p).neighbours = 1 then 1 else 0)
  two : ∀ p < b.edges, (b.ent.v p).neighbours ≤ 2
  mark : ∀ v p, p < b.edges → (b.ent.v p).neighbours = 1 → ((b.ent.v p).v0 = v ∨ (b.ent.v p).v1 = v) → m.xb.v v = 1
  zero : ∀ v < b.vertices, (∀ p < b.edges, (b.ent.v p).neighbours = 1 → (b.ent.v p).v0 ≠ v ∧ (b.ent.v p).v1 ≠ v) → m.xb.v v = 0

variable [Field K] [LinearOrder K]

theorem buildMesh_raw (jx : Nat → K) (jn : Nat → Nat) {b : Builder K} {ts : List (Nat × Nat × Nat)} {g : Nat → Nat × Nat × Nat} (h : BInv b ts g)
    (hx : b.x.n = 2 * b.vertices) (Q : Mesh K → Prop) (hQ : ∀ m, Raw b g m → Tot (fixNormals m) Q) :
    AFc (∀ p < b.edges, (b.ent.v p).neighbours ≤ 2) (buildMesh jx jn b) Q := by
  unfold buildMesh
  simp only [newTri2d]
  obtain ⟨xb, e1, n1, z1⟩ : Tot (forUp 0 b.vertices (fun i (xb : Arr Nat) => xb.set i 0) ⟨b.vertices, jn⟩) (fun xb => xb.n = b.vertices ∧ ∀ i < b.vertices, xb.v i = 0) := by
    refine forUp_tot (fun k (xb : Arr Nat) => xb.n = b.vertices ∧ ∀ i < k, xb.v i = 0) (Nat.zero_le _) ⟨rfl, fun i hi => absurd hi (Nat.not_lt_zero i)⟩ ?_
    rintro k t - hk ⟨t1, t2⟩
    refine ⟨_, Arr.set_ok (by omega), t1, fun i hi => ?_⟩
    show (if i = k then 0 else t.v i) = 0
    split
    · rfl
    · exact t2 i (by omega)
  rw [e1, ok_bind]
  obtain ⟨t, e2, n2, z2⟩ := copyTriangles_tot (g := g) (T := b.triangles) b.tlist ⟨3 * b.triangles, jn⟩ rfl
    (fun y hy => by rw [h.nt]; exact (h.mem y).mp hy)
  rw [e2, ok_bind]
  refine AFc.bind (P := fun s => CI b (fun p => p < b.edges) s) ?_ ?_
  · have := forUp_afc (c := ∀ p < b.edges, (b.ent.v p).neighbours ≤ 2) (n := b.vertices)
      (body := fun i s => do
        let chain ← b.elist.get i
        copyChain b.ent chain s) (s := (⟨⟨2 * b.edges, jn⟩, ⟨b.edges, jn⟩, xb⟩ : CState))
      (fun k s => CI b (fun p => p < b.edges ∧ (b.ent.v p).v0 < k) s)
      ⟨rfl, rfl, n1, fun p hp => absurd hp.2 (Nat.not_lt_zero _), fun v p hp => absurd hp.2 (Nat.not_lt_zero _), fun v hv _ => z1 v hv⟩ ?_
    · rcases this with h' | ⟨a, e, h'⟩
      · exact .inl h'
      · exact .inr ⟨a, e, h'.congr fun p => ⟨fun H => H.1, fun H => ⟨H, by have := h.ends p H; omega⟩⟩⟩
    · intro k s hk hs
      have hln := h.ln
      refine AFc.get (by omega) ?_
      rcases copyChain_afc h.toEOk h.pos (b.elist.v k) _ s (fun p hp => ((h.chain k hk p).mp hp).1) hs with h' | ⟨a, e, h'⟩
      · exact .inl h'
      · refine .inr ⟨a, e, h'.congr fun p => ?_⟩
        rw [h.chain k hk p]
        constructor
        · rintro (⟨a, c⟩ | ⟨a, c⟩)
          · exact ⟨a, by omega⟩
          · exact ⟨a, by omega⟩
        · rintro ⟨a, c⟩
          rcases (show (b.ent.v p).v0 < k ∨ (b.ent.v p).v0 = k by omega) with h' | h'
          · exact .inl ⟨a, h'⟩
          · exact .inr ⟨a, h'⟩
  · intro s hs
    refine .inr ?_
    refine Tot.bind (P := fun (x : Arr K) => x.n = 2 * b.vertices ∧ ∀ i < b.vertices, x.v (2 * i) = b.x.v (2 * i) ∧ x.v (2 * i + 1) = b.x.v (2 * i + 1)) ?_ ?_
    · refine forUp_tot (fun k (x : Arr K) => x.n = 2 * b.vertices ∧ ∀ i < k, x.v (2 * i) = b.x.v (2 * i) ∧ x.v (2 * i + 1) = b.x.v (2 * i + 1))
        (Nat.zero_le _) ⟨rfl, fun i hi => absurd hi (Nat.not_lt_zero i)⟩ ?_
      rintro k x - hk ⟨x1, x2⟩
      refine Tot.get (by omega) ?_
      refine Tot.set (by omega) ?_
      refine Tot.get (by omega) ?_
      refine ⟨_, Arr.set_ok (by rw [Arr.upd_n]; omega), x1, fun i hi => ?_⟩
      show (if 2 * i = 2 * k + 1 then _ else if 2 * i = 2 * k then _ else x.v (2 * i)) = _ ∧
        (if 2 * i + 1 = 2 * k + 1 then _ else if 2 * i + 1 = 2 * k then _ else x.v (2 * i + 1)) = _
      by_cases hik : i = k
      · subst hik; rw [if_neg (by omega), if_pos rfl, if_pos rfl]; exact ⟨rfl, rfl⟩
      · rw [if_neg (by omega), if_neg (by omega), if_neg (by omega), if_neg (by omega)]; exact x2 i (by omega)
    · rintro x _ ⟨x1, x2⟩
      refine hQ _ ⟨⟨x1, hs.ne, n2, hs.nx, hs.nf⟩, rfl, rfl, rfl, x2, ?_, ?_, ?_, ?_, ?_, ?_⟩
      · intro i hi
        exact z2 i (.inr ((h.mem _).mpr ⟨i, by rw [← h.nt]; exact hi, rfl⟩))
      · intro p hp; exact ⟨(hs.done p hp).1, (hs.done p hp).2.1⟩
      · intro p hp; exact (hs.done p hp).2.2.1
      · intro p hp; exact (hs.done p hp).2.2.2
      · intro v p hp; exact hs.mark v p hp
      · exact hs.zero

theorem Raw.incid {b : Builder K} {ts : List (Nat × Nat × Nat)} {g : Nat → Nat × Nat × Nat} (h : BInv b ts g) {m : Mesh K} (hm : Raw b g m)
    {p : Nat} (hp : p < b.edges) : incidences m p = (b.ent.v p).neighbours := by
  unfold incidences
  rw [h.nb p hp, Finset.card_filter, Finset.sum_product, hm.nt, h.nt]
  refine Finset.sum_congr rfl fun i hi => ?_
  have hi' := Finset.mem_range.mp hi
  obtain ⟨a, c, d⟩ := hm.tr i (by rw [h.nt]; exact hi')
  simp only [Finset.sum_range_succ, Finset.sum_range_zero, a, c, d, occ3]
  simp only [eq_comm (a := p), zero_add]

theorem Raw.corners {b : Builder K} {ts : List (Nat × Nat × Nat)} {g : Nat → Nat × Nat × Nat} (h : BInv b ts g) (ht : Triples b.vertices ts) {m : Mesh K}
    (hm : Raw b g m) {i : Nat} (hi : i < ts.length) : Corners m i ts[i].1 ts[i].2.1 ts[i].2.2 := by
  obtain ⟨l1, l2, l3⟩ := h.lt i hi
  obtain ⟨j1, j2, j3⟩ := h.join i hi
  obtain ⟨-, -, -, c1, c2, c3⟩ := ht ts[i] (List.getElem_mem hi)
  obtain ⟨a, c, d⟩ := hm.tr i (by rw [h.nt]; exact hi)
  refine ⟨c1, c2, c3, ?_, ?_, ?_⟩
  · unfold Joins; rw [a, (hm.ed _ l1).1, (hm.ed _ l1).2]; exact j1
  · unfold Joins; rw [c, (hm.ed _ l2).1, (hm.ed _ l2).2]; exact j2
  · unfold Joins; rw [d, (hm.ed _ l3).1, (hm.ed _ l3).2]; exact j3

theorem Raw.consistent {b : Builder K} {ts : List (Nat × Nat × Nat)} {g : Nat → Nat × Nat × Nat} (h : BInv b ts g) (ht : Triples b.vertices ts) {m : Mesh K}
    (hm : Raw b g m) : ConsistentMesh m where
  toSized := hm.toSized
  ends := by
    intro i hi k hk
    rw [hm.ne] at hi; rw [hm.v]
    have := h.ends i hi
    obtain ⟨a, c⟩ := hm.ed i hi
    rcases (show k = 0 ∨ k = 1 by omega) with rfl | rfl <;> omega
  sides := by
    intro i hi k hk
    rw [hm.nt] at hi; rw [hm.ne]
    obtain ⟨a, c, d⟩ := hm.tr i hi
    rw [h.nt] at hi
    obtain ⟨l1, l2, l3⟩ := h.lt i hi
    rcases (show k = 0 ∨ k = 1 ∨ k = 2 by omega) with rfl | rfl | rfl <;> omega
  inner := by
    intro i hi he
    rw [hm.ne] at hi
    rw [hm.incid h hi]
    rw [hm.fl i hi] at he
    have := hm.two i hi; have := h.pos i hi
    split_ifs at he <;> omega
  outer := by
    intro i hi he
    rw [hm.ne] at hi
    rw [hm.incid h hi]
    rw [hm.fl i hi] at he
    split_ifs at he <;> omega
  flags := by
    intro i hi he
    rw [hm.ne] at hi
    rw [hm.fl i hi] at he
    obtain ⟨a, c⟩ := hm.ed i hi
    have h1 : (b.ent.v i).neighbours = 1 := by split_ifs at he <;> omega
    rw [a, c, hm.mark _ i hi h1 (.inl rfl), hm.mark _ i hi h1 (.inr rfl)]
    simp
  tri := by
    intro i hi
    rw [hm.nt, h.nt] at hi
    exact ⟨_, _, _, hm.corners h ht hi⟩

theorem same_joins {m r : Mesh K} (h : SameUpToDirection m r) {f u v : Nat} (hf : f < m.edges) : Joins r f u v ↔ Joins m f u v := by
  unfold Joins
  rcases h.dir f hf with ⟨a, c⟩ | ⟨-, a, c⟩
  · rw [a, c]
  · rw [a, c]; tauto

theorem build_result [IsStrictOrderedRing K] (jx : Nat → K) (jn : Nat → Nat) (je : Nat → Entry) (vertices : Nat) (x : Nat → K) {ts : List (Nat × Nat × Nat)}
    (ht : Triples vertices ts) :
    AFc (AtMostTwo ts) (addTriangles (newBuilder je vertices x) ts >>= buildMesh jx jn) (fun r => ConsistentMesh r ∧ Simple r ∧ Oriented r ∧ Built vertices x ts r) := by
  obtain ⟨b, e, ⟨g, h⟩, hv, hx⟩ := addTriangles_tot ts [] _ _ (newBuilder_inv je vertices x) ht
  rw [List.nil_append] at h
  replace hv : b.vertices = vertices := hv
  rw [e, ok_bind]
  have ht' : Triples b.vertices ts := by rw [hv]; exact ht
  rw [atMostTwo_iff h ht']
  refine buildMesh_raw jx jn h (by rw [hx, hv]; rfl) _ fun m hm => ?_
  have hc := hm.consistent h ht'
  refine Tot.mono (fixNormals_tot hc) ?_
  rintro r ⟨h1, h2, h3⟩
  obtain ⟨s1, s2, s3, s4, s5, s6, s7⟩ := h3.same
  have hside : ∀ i k, side r i k = side m i k := fun i k => by unfold side; rw [s5]
  have hne : r.edges = b.edges := s2.trans hm.ne
  -- edges of the result in terms of the entries
  have hej : ∀ p < b.edges, EJ b.ent p (endp r p 0) (endp r p 1) := by
    intro p hp
    obtain ⟨a, c⟩ := hm.ed p hp
    rcases h3.dir p (by rw [hm.ne]; exact hp) with ⟨d, f⟩ | ⟨-, d, f⟩
    · left; rw [d, f, a, c]; exact ⟨rfl, rfl⟩
    · right; rw [d, f, a, c]; exact ⟨rfl, rfl⟩
  have hjo : ∀ p < b.edges, ∀ u v, Joins r p u v → EJ b.ent p u v := by
    intro p hp u v hj
    rw [same_joins h3 (by rw [hm.ne]; exact hp)] at hj
    obtain ⟨a, c⟩ := hm.ed p hp
    unfold Joins at hj; rw [a, c] at hj; exact hj
  have hcor : ∀ i (hi : i < ts.length), Corners r i ts[i].1 ts[i].2.1 ts[i].2.2 := by
    intro i hi
    have hC := hm.corners h ht' hi
    have hl : ∀ k < 3, side m i k < m.edges := hc.sides i (by rw [hm.nt, h.nt]; exact hi)
    exact ⟨hC.ab, hC.bc, hC.ca, by rw [hside, same_joins h3 (hl 0 (by omega))]; exact hC.s0, by rw [hside, same_joins h3 (hl 1 (by omega))]; exact hC.s1,
      by rw [hside, same_joins h3 (hl 2 (by omega))]; exact hC.s2⟩
  have hcount : ∀ p < b.edges, ts.countP (fun t => decide (HasEdge t (endp r p 0) (endp r p 1))) = (b.ent.v p).neighbours :=
    fun p hp => count_of_ej h ht' hp (hej p hp)
  have hflag : ∀ p < b.edges, r.eb.v p = if (b.ent.v p).neighbours = 1 then 1 else 0 := fun p hp => by rw [s7]; exact hm.fl p hp
  have hvert : ∀ v, (∃ u, u ≠ v ∧ ts.countP (fun t => decide (HasEdge t u v)) = 1) ↔
      ∃ p < b.edges, (b.ent.v p).neighbours = 1 ∧ ((b.ent.v p).v0 = v ∨ (b.ent.v p).v1 = v) := by
    intro v
    constructor
    · rintro ⟨u, hu, hcn⟩
      obtain ⟨p, hp, hj⟩ := edge_of_count h hu (by omega)
      refine ⟨p, hp, by rw [← count_of_ej h ht' hp hj]; exact hcn, ?_⟩
      rcases hj with ⟨a, c⟩ | ⟨a, c⟩
      · right; exact c
      · left; exact a
    · rintro ⟨p, hp, hn, hv⟩
      have := h.ends p hp
      rcases hv with rfl | rfl
      · exact ⟨(b.ent.v p).v1, by omega, by rw [count_of_ej h ht' hp (.inr ⟨rfl, rfl⟩)]; exact hn⟩
      · exact ⟨(b.ent.v p).v0, by omega, by rw [count_of_ej h ht' hp (.inl ⟨rfl, rfl⟩)]; exact hn⟩
  have hmark : ∀ v < vertices, (r.xb.v v = 1 ∧ ∃ u, u ≠ v ∧ ts.countP (fun t => decide (HasEdge t u v)) = 1) ∨
      (r.xb.v v = 0 ∧ ¬ ∃ u, u ≠ v ∧ ts.countP (fun t => decide (HasEdge t u v)) = 1) := by
    intro v hv'
    rw [s6, hvert]
    by_cases hE : ∃ p < b.edges, (b.ent.v p).neighbours = 1 ∧ ((b.ent.v p).v0 = v ∨ (b.ent.v p).v1 = v)
    · left
      refine ⟨?_, hE⟩
      obtain ⟨p, hp, hn, hpv⟩ := hE
      exact hm.mark v p hp hn hpv
    · right
      refine ⟨hm.zero v (by rw [hv]; exact hv') (fun p hp hn => ?_), hE⟩
      constructor <;> (intro hpv; exact hE ⟨p, hp, hn, by simp [hpv]⟩)
  refine ⟨h1, ⟨?_, ?_, ?_⟩, h2, ⟨?_, ?_, ?_, hcor, ?_, ?_, ?_, ?_⟩⟩
  · intro f hf
    rw [hne] at hf
    have := h.ends f hf
    have := hej f hf
    unfold EJ at this
    omega
  · intro f hf k hk hj
    rw [hne] at hf hk
    exact EJ.eq h.toEOk hf hk (hjo f hf _ _ hj) (hej k hk)
  · intro i hi
    rw [s3, hm.nt, h.nt] at hi
    have hC := hcor i hi
    obtain ⟨n1, n2, n3, j1, j2, j3⟩ := hC
    unfold Joins at j1 j2 j3
    refine ⟨?_, ?_, ?_⟩
    · intro he; rw [he] at j1; omega
    · intro he; rw [he] at j2; omega
    · intro he; rw [he] at j3; omega
  · rw [s1, hm.v, hv]
  · rw [s3, hm.nt, h.nt]
  · intro v hv'
    obtain ⟨a, c⟩ := hm.px v (by rw [hv]; exact hv')
    unfold pt
    rw [s4, a, c, hx]; rfl
  · intro f hf
    rw [hne] at hf
    rw [hflag f hf, hcount f hf]; split_ifs <;> simp_all
  · intro f hf
    rw [hne] at hf
    have := hm.two f hf; have := h.pos f hf
    rw [hflag f hf, hcount f hf]
    split_ifs with hh
    · rw [hh]; simp
    · simp; omega
  · intro v hv'
    rcases hmark v hv' with ⟨a, c⟩ | ⟨a, c⟩
    · exact ⟨fun _ => c, fun _ => a⟩
    · exact ⟨fun H => by omega, fun H => absurd H c⟩
  · intro v hv'
    rcases hmark v hv' with ⟨a, c⟩ | ⟨a, c⟩
    · exact ⟨fun H => by omega, fun H => absurd c H⟩
    · exact ⟨fun _ => c, fun _ => a⟩

end H2.Tri2d
