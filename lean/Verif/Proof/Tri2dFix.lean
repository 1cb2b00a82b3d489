import Verif.Proof.Tri2dCheck

/-! `fixnormals_tri2d` -/

set_option linter.unusedSectionVars false

namespace H2.Tri2d
open H2.Spec
variable {K : Type} [Field K] [LinearOrder K] [IsStrictOrderedRing K] {m : Mesh K}

/-- `e` is the edge array of `m` up to the direction of edges with flag -/
structure SW (m : Mesh K) (e : Arr Nat) : Prop where
  n : e.n = 2 * m.edges
  dir : ∀ f < m.edges, (e.v (2 * f) = endp m f 0 ∧ e.v (2 * f + 1) = endp m f 1) ∨
    (m.eb.v f ≠ 0 ∧ e.v (2 * f) = endp m f 1 ∧ e.v (2 * f + 1) = endp m f 0)

/-- edge `f` of the array `e` joins `u` and `v` -/
def JoinsA (e : Arr Nat) (f u v : Nat) : Prop := (e.v (2 * f) = u ∧ e.v (2 * f + 1) = v) ∨ (e.v (2 * f) = v ∧ e.v (2 * f + 1) = u)

theorem SW.joins {e : Arr Nat} (h : SW m e) {f u v : Nat} (hf : f < m.edges) (hj : Joins m f u v) : JoinsA e f u v := by
  unfold JoinsA
  rcases h.dir f hf with ⟨p, q⟩ | ⟨-, p, q⟩ <;> rcases hj with ⟨a, b⟩ | ⟨a, b⟩ <;> rw [p, q, a, b] <;> simp

/-- orientation of edge `f` with respect to the vertex `w` -/
def LeftOf (m : Mesh K) (e : Arr Nat) (f w : Nat) : Prop := 0 ≤ area2 (pt m (e.v (2 * f))) (pt m (e.v (2 * f + 1))) (pt m w)

theorem fixEdge_tot (hl : Legal m) {e : Arr Nat} (he : SW m e) {k i u v w : Nat} (hk : k < m.triangles) (hi : i < 3)
    (h1 : Joins m (side m k i) u v) (h2 : Joins m (side m k ((i + 1) % 3)) v w) (huv : u ≠ v) (hvw : v ≠ w) (hwu : w ≠ u) :
    Tot (fixEdge m k i e) fun e' => SW m e' ∧ (∀ f, f ≠ side m k i → e'.v (2 * f) = e.v (2 * f) ∧ e'.v (2 * f + 1) = e.v (2 * f + 1)) ∧
      (m.eb.v (side m k i) ≠ 0 → LeftOf m e' (side m k i) w) := by
  have ht := hl.t; have hn := he.n; have hx := hl.x; have heb := hl.eb
  have s1 := hl.sides k hk i hi
  have s2 := hl.sides k hk ((i + 1) % 3) (by omega)
  have j1 := he.joins s1 h1
  have j2 := he.joins s2 h2
  have hz1 : m.t.v (3 * k + i) = side m k i := rfl
  have hz2 : m.t.v (3 * k + (i + 1) % 3) = side m k ((i + 1) % 3) := rfl
  have b0 := hl.ends _ s1 0 (by omega)
  have b1 := hl.ends _ s1 1 (by omega)
  have b2 := hl.ends _ s2 0 (by omega)
  have b3 := hl.ends _ s2 1 (by omega)
  have lu : u < m.vertices ∧ v < m.vertices := by rcases h1 with ⟨p, q⟩ | ⟨p, q⟩ <;> omega
  have lw : w < m.vertices := by rcases h2 with ⟨p, q⟩ | ⟨p, q⟩ <;> omega
  unfold fixEdge
  refine Tot.get (by omega) ?_
  rw [hz1]
  refine Tot.get (by omega) ?_
  split
  swap
  · next hb => exact Tot.pure ⟨he, fun f _ => ⟨rfl, rfl⟩, fun h => absurd h hb⟩
  next hb =>
  obtain ⟨p, q, hp, hq, hpq⟩ : ∃ p q, e.v (2 * side m k i) = p ∧ e.v (2 * side m k i + 1) = q ∧ ((p = u ∧ q = v) ∨ (p = v ∧ q = u)) :=
    ⟨_, _, rfl, rfl, j1⟩
  obtain ⟨a, c, ha, hc, hac⟩ : ∃ a c, e.v (2 * side m k ((i + 1) % 3)) = a ∧ e.v (2 * side m k ((i + 1) % 3) + 1) = c ∧
    ((a = v ∧ c = w) ∨ (a = w ∧ c = v)) := ⟨_, _, rfl, rfl, j2⟩
  have lp : p < m.vertices := by rcases hpq with ⟨x, y⟩ | ⟨x, y⟩ <;> omega
  have lq : q < m.vertices := by rcases hpq with ⟨x, y⟩ | ⟨x, y⟩ <;> omega
  have la : a < m.vertices := by rcases hac with ⟨x, y⟩ | ⟨x, y⟩ <;> omega
  have lc : c < m.vertices := by rcases hac with ⟨x, y⟩ | ⟨x, y⟩ <;> omega
  refine Tot.get (by omega) ?_
  refine Tot.get (by omega) ?_
  rw [hp, hq]
  refine Tot.get (by omega) ?_
  refine Tot.get (by omega) ?_
  refine Tot.get (by omega) ?_
  refine Tot.get (by omega) ?_
  refine Tot.get (by omega) ?_
  rw [hz2]
  refine Tot.get (by omega) ?_
  refine Tot.get (by omega) ?_
  rw [ha, hc]
  refine Tot.bind (P := fun xi : K × K => xi = ((pt m w).1 - (pt m v).1, (pt m w).2 - (pt m v).2)) ?_ ?_
  · split
    · next h =>
      have hav : a = v ∧ c = w := by
        rcases hac with x | ⟨x, y⟩
        · exact x
        · rcases hpq with ⟨x', y'⟩ | ⟨x', y'⟩ <;> omega
      obtain ⟨rfl, rfl⟩ := hav
      refine Tot.cassert (decide_eq_true (by rcases hpq with ⟨x', y'⟩ | ⟨x', y'⟩ <;> omega)) ?_
      refine Tot.get (by omega) ?_
      refine Tot.get (by omega) ?_
      refine Tot.get (by omega) ?_
      refine Tot.get (by omega) ?_
      exact Tot.pure rfl
    · next h =>
      have hav : a = w ∧ c = v := by
        rcases hac with ⟨x, y⟩ | x
        · rcases hpq with ⟨x', y'⟩ | ⟨x', y'⟩ <;> omega
        · exact x
      obtain ⟨rfl, rfl⟩ := hav
      refine Tot.get (by omega) ?_
      refine Tot.get (by omega) ?_
      refine Tot.get (by omega) ?_
      refine Tot.get (by omega) ?_
      exact Tot.pure rfl
  rintro xi _ rfl
  have hval : ((pt m w).1 - (pt m v).1) * (m.x.v (2 * q + 1) - m.x.v (2 * p + 1)) + ((pt m w).2 - (pt m v).2) * (m.x.v (2 * p) - m.x.v (2 * q)) =
      - area2 (pt m p) (pt m q) (pt m w) := by
    have e1 : m.x.v (2 * q + 1) = (pt m q).2 := rfl
    have e2 : m.x.v (2 * p + 1) = (pt m p).2 := rfl
    have e3 : m.x.v (2 * q) = (pt m q).1 := rfl
    have e4 : m.x.v (2 * p) = (pt m p).1 := rfl
    rw [e1, e2, e3, e4]; unfold area2
    rcases hpq with ⟨rfl, rfl⟩ | ⟨rfl, rfl⟩ <;> ring
  show Tot (if ((pt m w).1 - (pt m v).1) * (m.x.v (2 * q + 1) - m.x.v (2 * p + 1)) + ((pt m w).2 - (pt m v).2) * (m.x.v (2 * p) - m.x.v (2 * q)) > 0
    then _ else _) _
  rw [hval]
  split
  · next hpos =>
    refine Tot.get (by omega) ?_
    refine Tot.get (by omega) ?_
    refine Tot.set (by omega) ?_
    refine ⟨_, Arr.set_ok (by rw [Arr.upd_n]; omega), ⟨hn, ?_⟩, ?_, ?_⟩
    · intro f hf
      show ((if 2 * f = 2 * side m k i + 1 then _ else (e.upd _ _).v (2 * f)) = _ ∧ (if 2 * f + 1 = 2 * side m k i + 1 then _ else (e.upd _ _).v (2 * f + 1)) = _) ∨
        (_ ∧ (if 2 * f = 2 * side m k i + 1 then _ else (e.upd _ _).v (2 * f)) = _ ∧ (if 2 * f + 1 = 2 * side m k i + 1 then _ else (e.upd _ _).v (2 * f + 1)) = _)
      rw [if_neg (show ¬ 2 * f = 2 * side m k i + 1 by omega)]
      by_cases hff : f = side m k i
      · subst hff
        rw [if_pos rfl, Arr.upd_v, if_pos rfl]
        rcases he.dir _ s1 with ⟨x, y⟩ | ⟨z, x, y⟩
        · exact .inr ⟨hb, y, x⟩
        · exact .inl ⟨y, x⟩
      · rw [if_neg (by omega), Arr.upd_v, Arr.upd_v, if_neg (by omega), if_neg (by omega)]
        exact he.dir f hf
    · intro f hff
      show (if 2 * f = 2 * side m k i + 1 then _ else (e.upd _ _).v (2 * f)) = _ ∧ (if 2 * f + 1 = 2 * side m k i + 1 then _ else (e.upd _ _).v (2 * f + 1)) = _
      rw [if_neg (by omega), if_neg (by omega), Arr.upd_v, Arr.upd_v, if_neg (by omega), if_neg (by omega)]
      exact ⟨rfl, rfl⟩
    · intro _
      unfold LeftOf
      show 0 ≤ area2 (pt m (if 2 * side m k i = 2 * side m k i + 1 then _ else (e.upd _ _).v (2 * side m k i)))
        (pt m (if 2 * side m k i + 1 = 2 * side m k i + 1 then _ else _)) _
      rw [if_neg (by omega), if_pos rfl, Arr.upd_v, if_pos rfl, hp, hq]
      have : area2 (pt m q) (pt m p) (pt m w) = - area2 (pt m p) (pt m q) (pt m w) := by unfold area2; ring
      rw [this]; exact le_of_lt hpos
  · next hpos =>
    refine Tot.pure ⟨he, fun f _ => ⟨rfl, rfl⟩, fun _ => ?_⟩
    unfold LeftOf
    rw [hp, hq]
    have := not_lt.mp hpos
    linarith

/-- the corner opposite to side `i` -/
def opp (a b c : Nat) : Nat → Nat
  | 0 => a
  | 1 => b
  | _ => c

theorem incid_unique {f k i k' i' : Nat} (h : incidences m f = 1) (hk : k < m.triangles) (hi : i < 3) (hk' : k' < m.triangles) (hi' : i' < 3)
    (h1 : side m k i = f) (h2 : side m k' i' = f) : k = k' ∧ i = i' := by
  unfold incidences at h
  rw [Finset.card_eq_one] at h
  obtain ⟨x, hx⟩ := h
  have m1 : (k, i) ∈ (Finset.range m.triangles ×ˢ Finset.range 3).filter (fun p => side m p.1 p.2 = f) := by simp [hk, hi, h1]
  have m2 : (k', i') ∈ (Finset.range m.triangles ×ˢ Finset.range 3).filter (fun p => side m p.1 p.2 = f) := by simp [hk', hi', h2]
  rw [hx, Finset.mem_singleton] at m1 m2
  have := m1.trans m2.symm
  exact ⟨congrArg Prod.fst this, congrArg Prod.snd this⟩

theorem fixNormals_tot (hm : ConsistentMesh m) :
    Tot (fixNormals m) fun r => ConsistentMesh r ∧ Oriented r ∧ SameUpToDirection m r := by
  unfold fixNormals
  -- orientation of the sides handled so far
  let Done : Nat → Nat → Arr Nat → Prop := fun k i e => ∀ k' i', k' < m.triangles → i' < 3 → (k' < k ∨ k' = k ∧ i' < i) →
    m.eb.v (side m k' i') = 1 → ∀ a b c, Corners m k' a b c → LeftOf m e (side m k' i') (opp a b c i')
  refine Tot.bind (forUp_tot (fun k e => SW m e ∧ Done k 0 e) (Nat.zero_le _)
    ⟨⟨hm.e, fun f hf => .inl ⟨rfl, rfl⟩⟩, fun k' i' _ _ h => absurd h (by omega)⟩ ?_) ?_
  · rintro k e _ hk ⟨h1, h2⟩
    refine Tot.mono (forUp_tot (fun i e => SW m e ∧ Done k i e) (Nat.zero_le _) ⟨h1, h2⟩ ?_) ?_
    · rintro i e _ hi ⟨h1, h2⟩
      obtain ⟨a, b, c, hC⟩ := hm.tri k hk
      have core : ∀ u v w, Joins m (side m k i) u v → Joins m (side m k ((i + 1) % 3)) v w → u ≠ v → v ≠ w → w ≠ u → w = opp a b c i →
          Tot (fixEdge m k i e) fun e => SW m e ∧ Done k (i + 1) e := by
        intro u v w x1 x2 x3 x4 x5 x6
        refine Tot.mono (fixEdge_tot hm.toLegal h1 hk hi x1 x2 x3 x4 x5) ?_
        rintro e' ⟨y1, y2, y3⟩
        refine ⟨y1, ?_⟩
        intro k' i' hk' hi' hlt hb a' b' c' hC'
        by_cases hff : side m k' i' = side m k i
        · have hinc := hm.outer _ (hm.sides k' hk' i' hi') hb
          obtain ⟨rfl, rfl⟩ := incid_unique hinc hk' hi' hk hi rfl hff.symm
          obtain ⟨rfl, rfl, rfl⟩ := Corners.unique hC hC'
          rw [← x6]; exact y3 (by omega)
        · have := h2 k' i' hk' hi' (by
            rcases hlt with h | ⟨h, h'⟩
            · exact .inl h
            · refine .inr ⟨h, ?_⟩
              rcases (show i' < i ∨ i' = i by omega) with g | g
              · exact g
              · exact absurd (by rw [h, g]) hff) hb a' b' c' hC'
          unfold LeftOf at this ⊢
          rw [(y2 _ hff).1, (y2 _ hff).2]; exact this
      rcases (show i = 0 ∨ i = 1 ∨ i = 2 by omega) with rfl | rfl | rfl
      · exact core b c a hC.s0 hC.s1 hC.bc hC.ca hC.ab rfl
      · exact core c a b hC.s1 hC.s2 hC.ca hC.ab hC.bc rfl
      · exact core a b c hC.s2 hC.s0 hC.ab hC.bc hC.ca rfl
    · rintro e' ⟨h1, h2⟩
      refine ⟨h1, ?_⟩
      intro k' i' hk' hi' hlt
      exact h2 k' i' hk' hi' (by omega)
  rintro e _ ⟨h1, h2⟩
  have hend : ∀ f < m.edges, ∀ k < 2, ∃ k' < 2, endp ({ m with e := e } : Mesh K) f k = endp m f k' := by
    intro f hf k hk
    rcases h1.dir f hf with ⟨p, q⟩ | ⟨-, p, q⟩ <;> rcases (show k = 0 ∨ k = 1 by omega) with rfl | rfl
    · exact ⟨0, by omega, p⟩
    · exact ⟨1, by omega, q⟩
    · exact ⟨1, by omega, p⟩
    · exact ⟨0, by omega, q⟩
  have hj : ∀ f < m.edges, ∀ u v, Joins ({ m with e := e } : Mesh K) f u v ↔ Joins m f u v := by
    intro f hf u v
    constructor
    · intro h
      replace h : (e.v (2 * f) = u ∧ e.v (2 * f + 1) = v) ∨ (e.v (2 * f) = v ∧ e.v (2 * f + 1) = u) := h
      unfold Joins
      rcases h1.dir f hf with ⟨p, q⟩ | ⟨-, p, q⟩ <;> rw [p, q] at h <;> omega
    · exact fun h => h1.joins hf h
  have hCor : ∀ i < m.triangles, ∀ a b c, Corners ({ m with e := e } : Mesh K) i a b c ↔ Corners m i a b c := by
    intro i hi a b c
    have s0 := hm.sides i hi 0 (by omega)
    have s1 := hm.sides i hi 1 (by omega)
    have s2 := hm.sides i hi 2 (by omega)
    constructor
    · rintro ⟨x1, x2, x3, x4, x5, x6⟩
      exact ⟨x1, x2, x3, (hj _ s0 _ _).mp x4, (hj _ s1 _ _).mp x5, (hj _ s2 _ _).mp x6⟩
    · rintro ⟨x1, x2, x3, x4, x5, x6⟩
      exact ⟨x1, x2, x3, (hj _ s0 _ _).mpr x4, (hj _ s1 _ _).mpr x5, (hj _ s2 _ _).mpr x6⟩
  refine Tot.pure ⟨⟨⟨⟨hm.x, h1.n, hm.t, hm.xb, hm.eb⟩, ?_, hm.sides⟩, ⟨hm.inner, hm.outer, ?_⟩, ?_⟩, ?_, ?_, ?_⟩
  · intro f hf k hk
    obtain ⟨k', hk', e'⟩ := hend f hf k hk
    rw [e']; exact hm.ends f hf k' hk'
  · intro f hf hb
    obtain ⟨x, y⟩ := hm.flags f hf hb
    rcases h1.dir f hf with ⟨p, q⟩ | ⟨-, p, q⟩
    · exact ⟨fun h => x (by rw [← p]; exact h), fun h => y (by rw [← q]; exact h)⟩
    · exact ⟨fun h => y (by rw [← p]; exact h), fun h => x (by rw [← q]; exact h)⟩
  · intro i hi
    obtain ⟨a, b, c, hC⟩ := hm.tri i hi
    exact ⟨a, b, c, (hCor i hi a b c).mpr hC⟩
  · intro i hi a b c hC
    have hC' := (hCor i hi a b c).mp hC
    exact ⟨fun hb => h2 i 0 hi (by omega) (.inl hi) hb a b c hC', fun hb => h2 i 1 hi (by omega) (.inl hi) hb a b c hC',
      fun hb => h2 i 2 hi (by omega) (.inl hi) hb a b c hC'⟩
  · exact ⟨rfl, rfl, rfl, rfl, rfl, rfl, rfl⟩
  · exact h1.dir

/-- refinement keeps the direction of the boundary edges -/
theorem oriented_refine {r : Mesh K} (hS : Shape m r) (hR : Refinement m r) (hm : ConsistentMesh m) (ho : Oriented m) : Oriented r := by
  -- an edge of a part is a boundary edge only if it is a half of a boundary edge
  have hhalf : ∀ f u v w, f < m.edges → Joins m f u v → u ≠ v → w < m.vertices →
      0 ≤ area2 (pt m (endp m f 0)) (pt m (endp m f 1)) (pt m w) →
      ∀ z, z < r.vertices → pt r z = mid (pt m u) (pt m w) → 
      0 ≤ area2 (pt r (endp r (half m f u) 0)) (pt r (endp r (half m f u) 1)) (pt r z) := by
    intro f u v w hf hj huv hw h0 z hz hpz
    obtain ⟨a0, a1, -⟩ := hS.half0 f hf
    obtain ⟨b0, b1, -⟩ := hS.half1 f hf
    have e0 := hm.ends f hf 0 (by omega)
    have e1 := hm.ends f hf 1 (by omega)
    have pm := (hR.new f hf).1
    have p0 := (hR.old _ e0).1
    have p1 := (hR.old _ e1).1
    rw [hpz]
    unfold half
    rcases hj with ⟨x, y⟩ | ⟨x, y⟩
    · rw [if_pos x, a0, a1, p0, pm, x, y]
      rw [x, y] at h0
      have : area2 (pt m u) (mid (pt m u) (pt m v)) (mid (pt m u) (pt m w)) = area2 (pt m u) (pt m v) (pt m w) / 4 := by
        unfold area2 mid; field_simp; ring
      rw [this]; linarith
    · rw [if_neg (by omega), b0, b1, p1, pm, x, y]
      rw [x, y] at h0
      have : area2 (mid (pt m v) (pt m u)) (pt m u) (mid (pt m u) (pt m w)) = area2 (pt m v) (pt m u) (pt m w) / 4 := by
        unfold area2 mid; field_simp; ring
      rw [this]; linarith
  intro i hi a b c hC
  have hc := hS.consistent hm
  have hi' := hi
  rw [hR.triangles] at hi
  have hj : i / 4 < m.triangles := by omega
  obtain ⟨a', b', c', hC'⟩ := hm.tri _ hj
  obtain ⟨c0, c1, c2, c3⟩ := hR.split _ hj _ _ _ hC'
  obtain ⟨la, lb, lc⟩ := Corners.lt hm.toLegal hj hC'
  have s0 := hm.sides _ hj 0 (by omega)
  have s1 := hm.sides _ hj 1 (by omega)
  have s2 := hm.sides _ hj 2 (by omega)
  obtain ⟨o0, o1, o2⟩ := ho _ hj a' b' c' hC'
  have hin : ∀ q, 2 * m.edges ≤ q → q < r.edges → r.eb.v q = 1 → False := fun q h1 h2 h3 => by rw [hS.inner_flag h1 h2] at h3; omega
  have hfl : ∀ f u, f < m.edges → r.eb.v (half m f u) = m.eb.v f := by
    intro f u hf
    have := half_lt m f u
    rw [hS.half_flag (by omega)]; congr 1; omega
  have pm : ∀ f x y, f < m.edges → Joins m f x y → pt r (m.vertices + f) = mid (pt m x) (pt m y) := by
    intro f x y hf hj
    rw [(hR.new f hf).1]
    rcases hj with ⟨p, q⟩ | ⟨p, q⟩
    · rw [p, q]
    · rw [p, q, mid_comm]
  have hv := hR.vertices; have he := hR.edges
  obtain ⟨⟨x1, x2, x3⟩, ⟨x4, x5, x6⟩, ⟨x7, x8, x9⟩, x10, x11, x12⟩ := hS.sub _ hj a' b' c' hC'
  generalize hJ : i / 4 = j at *
  rcases (show i = 4 * j ∨ i = 4 * j + 1 ∨ i = 4 * j + 2 ∨ i = 4 * j + 3 by omega) with e | e | e | e
  · subst e
    obtain ⟨rfl, rfl, rfl⟩ := Corners.unique c0 hC
    rw [x1, x2, x3]
    refine ⟨fun h => (hin _ (by omega) (by omega) h).elim, fun h => ?_, fun h => ?_⟩
    · rw [hfl _ _ s1] at h
      exact hhalf _ a' c' b' s1 (Joins.symm hC'.s1) hC'.ca.symm lb (o1 h) _ (by omega) (pm _ _ _ s2 hC'.s2)
    · rw [hfl _ _ s2] at h
      exact hhalf _ a' b' c' s2 hC'.s2 hC'.ab lc (o2 h) _ (by omega) (pm _ _ _ s1 (Joins.symm hC'.s1))
  · subst e
    obtain ⟨rfl, rfl, rfl⟩ := Corners.unique c1 hC
    rw [x4, x5, x6]
    refine ⟨fun h => ?_, fun h => (hin _ (by omega) (by omega) h).elim, fun h => ?_⟩
    · rw [hfl _ _ s0] at h
      exact hhalf _ b' c' a' s0 hC'.s0 hC'.bc la (o0 h) _ (by omega) (pm _ _ _ s2 (Joins.symm hC'.s2))
    · rw [hfl _ _ s2] at h
      exact hhalf _ b' a' c' s2 (Joins.symm hC'.s2) hC'.ab.symm lc (o2 h) _ (by omega) (pm _ _ _ s0 hC'.s0)
  · subst e
    obtain ⟨rfl, rfl, rfl⟩ := Corners.unique c2 hC
    rw [x7, x8, x9]
    refine ⟨fun h => ?_, fun h => ?_, fun h => (hin _ (by omega) (by omega) h).elim⟩
    · rw [hfl _ _ s0] at h
      exact hhalf _ c' b' a' s0 (Joins.symm hC'.s0) hC'.bc.symm la (o0 h) _ (by omega) (pm _ _ _ s1 hC'.s1)
    · rw [hfl _ _ s1] at h
      exact hhalf _ c' a' b' s1 hC'.s1 hC'.ca lb (o1 h) _ (by omega) (pm _ _ _ s0 (Joins.symm hC'.s0))
  · subst e
    rw [x10, x11, x12]
    exact ⟨fun h => (hin _ (by omega) (by omega) h).elim, fun h => (hin _ (by omega) (by omega) h).elim,
      fun h => (hin _ (by omega) (by omega) h).elim⟩

end H2.Tri2d
