import Verif.Proof.ClusterBuild
import Mathlib.Data.Finset.Card
import Mathlib.Data.Finset.Image
import Mathlib.Order.Interval.Finset.Nat
import Mathlib.Tactic.Linarith
import Mathlib.Tactic.FieldSimp
import Mathlib.Algebra.Order.Field.Basic

set_option linter.unusedSectionVars false

namespace H2.CB
open H2 Spec
variable {K : Type} [Field K] [LinearOrder K]

/-! ### too many coincident points -/

theorem tm_perm {x : Nat → Nat → K} {dim clf off size : Nat} {a b : Nat → Nat}
    (h : SegRearranged off size a b) (ht : TooManyCoincide x dim clf a off size) :
    TooManyCoincide x dim clf b off size := by
  obtain ⟨S, h1, h2, h3⟩ := ht
  obtain ⟨σ, hs, es⟩ := h.symm
  refine ⟨S.map σ.toEmbedding, ?_, by rwa [Finset.card_map], ?_⟩
  · intro i hi
    obtain ⟨k, hk, rfl⟩ := Finset.mem_map.1 hi
    by_contra hc
    have := σ.injective (hs _ hc)
    simp only [Equiv.coe_toEmbedding] at hc this
    rw [this] at hc
    exact hc (h1 k hk)
  · intro i hi k hk j hj
    obtain ⟨i', hi', rfl⟩ := Finset.mem_map.1 hi
    obtain ⟨k', hk', rfl⟩ := Finset.mem_map.1 hk
    simp only [Equiv.coe_toEmbedding]
    rw [← es, ← es]
    exact h3 i' hi' k' hk' j hj

theorem tm_congr {x : Nat → Nat → K} {dim clf off size : Nat} {a b : Nat → Nat}
    (h : ∀ i, off ≤ i → i < off + size → a i = b i) (ht : TooManyCoincide x dim clf a off size) :
    TooManyCoincide x dim clf b off size := by
  obtain ⟨S, h1, h2, h3⟩ := ht
  refine ⟨S, h1, h2, fun i hi k hk j hj => ?_⟩
  rw [← h i (h1 i hi).1 (h1 i hi).2, ← h k (h1 k hk).1 (h1 k hk).2]
  exact h3 i hi k hk j hj

theorem tm_mono {x : Nat → Nat → K} {dim clf off size off' size' : Nat} {a : Nat → Nat}
    (h1 : off' ≤ off) (h2 : off + size ≤ off' + size') (ht : TooManyCoincide x dim clf a off size) :
    TooManyCoincide x dim clf a off' size' := by
  obtain ⟨S, g1, g2, g3⟩ := ht
  exact ⟨S, fun i hi => by have := g1 i hi; omega, g2, g3⟩

theorem tm_size {x : Nat → Nat → K} {dim clf off size : Nat} {a : Nat → Nat}
    (ht : TooManyCoincide x dim clf a off size) : clf < size := by
  obtain ⟨S, g1, g2, -⟩ := ht
  have : S ⊆ Finset.Ico off (off + size) := fun i hi => Finset.mem_Ico.2 (g1 i hi)
  have := Finset.card_le_card this
  rw [Nat.card_Ico] at this
  omega

/-- coincident points stay together in a split -/
theorem tm_split {x : Nat → Nat → K} {dim clf off size : Nat} {a : Nat → Nat} {p : Nat → Bool}
    (hp : ∀ i k, (∀ j < dim, x i j = x k j) → p i = p k)
    (ht : TooManyCoincide x dim clf a off size) :
    let r := splitLoop p off size a
    TooManyCoincide x dim clf r.1 off r.2.1 ∨ TooManyCoincide x dim clf r.1 (off + r.2.1) r.2.2 := by
  intro r
  have sp := splitLoop_ok p off size a
  obtain ⟨S, h1, h2, h3⟩ := tm_perm sp.perm ht
  have hne : S.Nonempty := Finset.card_pos.1 (by omega)
  obtain ⟨i0, hi0⟩ := hne
  have hsame : ∀ i ∈ S, p (r.1 i) = p (r.1 i0) := fun i hi => hp _ _ (h3 i hi i0 hi0)
  by_cases hc : p (r.1 i0) = true
  · left
    refine ⟨S, fun i hi => ⟨(h1 i hi).1, ?_⟩, h2, h3⟩
    by_contra hn
    have h5 := sp.back (i - off) (by change r.2.1 ≤ _; omega) (by have := h1 i hi; omega)
    rw [show off + (i - off) = i by have := h1 i hi; omega] at h5
    have h6 := hsame i hi
    change p (r.1 i) = false at h5
    rw [h5, hc] at h6; cases h6
  · right
    have hsum : r.2.1 + r.2.2 = size := sp.sum
    refine ⟨S, fun i hi => ⟨?_, by have := h1 i hi; omega⟩, h2, h3⟩
    by_contra hn
    have h5 := sp.front (i - off) (by change _ < r.2.1; have := h1 i hi; omega)
    rw [show off + (i - off) = i by have := h1 i hi; omega] at h5
    have h6 := hsame i hi
    change p (r.1 i) = true at h5
    rw [h5] at h6; exact hc h6.symm

theorem tm_front {x : Nat → Nat → K} {dim clf off size : Nat} {a : Nat → Nat} (p : Nat → Bool)
    (ht : TooManyCoincide x dim clf (splitLoop p off size a).1 off (splitLoop p off size a).2.1) :
    TooManyCoincide x dim clf a off size := by
  have sp := splitLoop_ok p off size a
  exact tm_perm sp.perm.symm (tm_mono (le_refl _) (by have := sp.sum; omega) ht)

theorem tm_back {x : Nat → Nat → K} {dim clf off size : Nat} {a : Nat → Nat} (p : Nat → Bool)
    (ht : TooManyCoincide x dim clf (splitLoop p off size a).1 (off + (splitLoop p off size a).2.1)
      (splitLoop p off size a).2.2) :
    TooManyCoincide x dim clf a off size := by
  have sp := splitLoop_ok p off size a
  exact tm_perm sp.perm.symm (tm_mono (by omega) (by have := sp.sum; omega) ht)

/-! ### the two halves are not empty -/

theorem bbox_spec (g : Geom K) (st : St K) (off : Nat) {size : Nat} (hp : 0 < size) (j : Nat) :
    let b := pointBbox g st off size
    (∀ i < size, b.hmin j ≤ g.x (st.idx (off + i)) j ∧ g.x (st.idx (off + i)) j ≤ b.hmax j) ∧
    (∃ i < size, g.x (st.idx (off + i)) j = b.hmin j) ∧
    (∃ i < size, g.x (st.idx (off + i)) j = b.hmax j) ∧ b.hmin j ≤ b.hmax j := by
  intro b
  obtain ⟨h1, i1, hi1, e1⟩ := runMin_spec (fun i => g.x (st.idx (off + i)) j) hp
  obtain ⟨h2, i2, hi2, e2⟩ := runMax_spec (fun i => g.x (st.idx (off + i)) j) hp
  exact ⟨fun i hi => ⟨h1 i hi, h2 i hi⟩, ⟨i1, hi1, e1.symm⟩, ⟨i2, hi2, e2.symm⟩,
    le_trans (h1 0 hp) (h2 0 hp)⟩

theorem split_pos {p : Nat → Bool} {off size : Nat} {a : Nat → Nat}
    (h1 : ∃ i < size, p (a (off + i)) = true) (h2 : ∃ i < size, p (a (off + i)) = false) :
    0 < (splitLoop p off size a).2.1 ∧ 0 < (splitLoop p off size a).2.2 := by
  have sp := splitLoop_ok p off size a
  constructor
  · obtain ⟨i, hi, e⟩ := h1
    obtain ⟨k, hk, e2⟩ := sp.perm.symm.inside hi
    by_contra hc
    have := sp.back k (by omega) hk
    rw [← e2, e] at this; cases this
  · obtain ⟨i, hi, e⟩ := h2
    obtain ⟨k, hk, e2⟩ := sp.perm.symm.inside hi
    by_contra hc
    have := sp.front k (by have := sp.sum; omega)
    rw [← e2, e] at this; cases this

variable [IsStrictOrderedRing K]

theorem midpoint_split (g : Geom K) (st : St K) (off : Nat) {size : Nat} (hp : 0 < size) (d : Nat)
    (h : 0 < (pointBbox g st off size).hmax d - (pointBbox g st off size).hmin d) :
    let b := pointBbox g st off size
    let sp := splitLoop (fun i => decide (g.x i d < (b.hmax d + b.hmin d) / 2)) off size b.idx
    0 < sp.2.1 ∧ 0 < sp.2.2 := by
  intro b sp
  obtain ⟨-, ⟨i1, hi1, e1⟩, ⟨i2, hi2, e2⟩, -⟩ := bbox_spec g st off hp d
  have hlt : b.hmin d < b.hmax d := by
    have := h; exact sub_pos.1 this
  refine split_pos ⟨i1, hi1, ?_⟩ ⟨i2, hi2, ?_⟩
  · simp only [decide_eq_true_eq]
    change g.x (st.idx (off + i1)) d < _
    rw [e1]
    change b.hmin d < _
    linarith
  · simp only [decide_eq_false_iff_not, not_lt]
    change _ ≤ g.x (st.idx (off + i2)) d
    rw [e2]
    change _ ≤ b.hmax d
    linarith

theorem maxDir_spec {dim : Nat} (hd : 0 < dim) (hmin hmax : Nat → K) :
    (maxDir dim hmin hmax).1 < dim ∧
    (maxDir dim hmin hmax).2 = hmax (maxDir dim hmin hmax).1 - hmin (maxDir dim hmin hmax).1 ∧
    ∀ j < dim, hmax j - hmin j ≤ (maxDir dim hmin hmax).2 := by
  have : (maxDir dim hmin hmax).1 < dim ∧
    (maxDir dim hmin hmax).2 = hmax (maxDir dim hmin hmax).1 - hmin (maxDir dim hmin hmax).1 ∧
    ∀ j < dim, hmax j - hmin j ≤ (maxDir dim hmin hmax).2 := by
    unfold maxDir
    refine forT_inv (I := fun n (s : Nat × K) => s.1 < n ∧ s.2 = hmax s.1 - hmin s.1 ∧
      ∀ j < n, hmax j - hmin j ≤ s.2) hd ?_ ?_
    · exact ⟨Nat.one_pos, rfl, fun j hj => by rw [Nat.lt_one_iff.1 hj]⟩
    · rintro k ⟨d, a⟩ h0 hk ⟨h1, h2, h3⟩
      simp only at h1 h2 h3 ⊢
      split
      · rename_i hlt
        refine ⟨Nat.lt_succ_self k, rfl, fun j hj => ?_⟩
        by_cases h : j = k
        · rw [h]
        · exact le_trans (h3 j (by omega)) hlt.le
      · rename_i hge
        refine ⟨by omega, h2, fun j hj => ?_⟩
        by_cases h : j = k
        · rw [h]; exact not_lt.1 hge
        · exact h3 j (by omega)
  exact this

theorem father_ok (g : Geom K) (off size : Nat) (s : Cluster K) (ss : List (Cluster K)) :
    ∃ t, fatherCluster g off size (s :: ss) = .ok t := by
  unfold fatherCluster sonsBox
  exact ⟨_, rfl⟩

/-! ### adaptive clustering terminates -/

theorem adaptive_ok (g : Geom K) (hdim : 0 < g.dim) (clf : Nat) : ∀ (f : Nat) (st : St K) (off size : Nat),
    0 < size → size ≤ f → ∃ st' t, buildAdaptive g clf f st off size = .ok (st', t) := by
  intro f
  induction f with
  | zero => intro st off size h1 h2; omega
  | succ f ih =>
    intro st off size hp hf
    rw [buildAdaptive]
    simp only [cassert_true (decide_eq_true hp), ok_bind]
    split
    · rw [if_neg (by omega)]
      obtain ⟨m1, m2, m3⟩ := maxDir_spec hdim (pointBbox g st off size).hmin (pointBbox g st off size).hmax
      split
      · rename_i ha
        rw [m2] at ha
        obtain ⟨p0, p1⟩ := midpoint_split g st off hp _ ha
        have hsum := (splitLoop_ok (fun i => decide (g.x i (maxDir g.dim (pointBbox g st off size).hmin
            (pointBbox g st off size).hmax).1 < ((pointBbox g st off size).hmax
            (maxDir g.dim (pointBbox g st off size).hmin (pointBbox g st off size).hmax).1 +
            (pointBbox g st off size).hmin (maxDir g.dim (pointBbox g st off size).hmin
            (pointBbox g st off size).hmax).1) / 2)) off size (pointBbox g st off size).idx).sum
        rw [if_pos p0, if_pos p1]
        obtain ⟨st1, s0, e0⟩ := ih { (pointBbox g st off size) with idx := (splitLoop (fun i =>
            decide (g.x i (maxDir g.dim (pointBbox g st off size).hmin
            (pointBbox g st off size).hmax).1 < ((pointBbox g st off size).hmax
            (maxDir g.dim (pointBbox g st off size).hmin (pointBbox g st off size).hmax).1 +
            (pointBbox g st off size).hmin (maxDir g.dim (pointBbox g st off size).hmin
            (pointBbox g st off size).hmax).1) / 2)) off size (pointBbox g st off size).idx).1 } off _
            p0 (by omega)
        rw [e0]
        simp only [ok_bind]
        obtain ⟨st2, s1, e1⟩ := ih st1 (off + _) _ p1 (by omega)
        rw [e1]
        simp only [ok_bind]
        obtain ⟨t, et⟩ := father_ok g off size s0 [s1]
        rw [et]
        exact ⟨_, _, rfl⟩
      · rename_i ha
        have h0 : (maxDir g.dim (pointBbox g st off size).hmin (pointBbox g st off size).hmax).2 = 0 := by
          apply le_antisymm (not_lt.1 ha)
          have := m3 0 hdim
          have := (bbox_spec g st off hp 0).2.2.2
          linarith
        rw [cassert_true (decide_eq_true h0)]
        exact ⟨_, _, rfl⟩
    · exact ⟨_, _, rfl⟩

/-- C07 for one cluster -/
def Res (g : Geom K) (clf : Nat) (a : Nat → Nat) (s : Cluster K) : Prop :=
  (s.sons = [] → s.size ≤ clf ∨ AllCoincide g.x g.dim a s.off s.size) ∧ (s.sons ≠ [] → clf < s.size)

theorem res_congr {g : Geom K} {clf : Nat} {a b : Nat → Nat} {s : Cluster K}
    (h : ∀ i < s.size, a (s.off + i) = b (s.off + i)) (hr : Res g clf a s) : Res g clf b s := by
  refine ⟨fun hs => ?_, hr.2⟩
  rcases hr.1 hs with h1 | h1
  · exact .inl h1
  · right
    intro i hi k hk j hj
    rw [← h i hi, ← h k hk]; exact h1 i hi k hk j hj

theorem adaptive_res (g : Geom K) (clf : Nat) : ∀ (f : Nat) (st : St K) (off size : Nat)
    (st' : St K) (t : Cluster K), buildAdaptive g clf f st off size = .ok (st', t) →
    ∀ s ∈ nodes t, Res g clf st'.idx s := by
  intro f
  induction f with
  | zero => intro st off size st' t h; simp [buildAdaptive] at h
  | succ f ih =>
    intro st off size st' t h
    have leafcase : ∀ (a : Nat → Nat), (size ≤ clf ∨ AllCoincide g.x g.dim a off size) →
        ∀ s ∈ nodes (leafCluster g a off size), Res g clf a s := by
      intro a ha
      unfold leafCluster Cluster.new Cluster.update
      rw [forall_nodes_mk]
      exact ⟨⟨fun _ => ha, fun h => absurd rfl h⟩, by simp⟩
    rw [buildAdaptive] at h
    simp only [bind_ok, cassert_ok, decide_eq_true_eq] at h
    obtain ⟨_, hpos, h⟩ := h
    split at h
    · rename_i hclf
      split at h
      · simp [bind_ok, throw_ne_ok] at h
      · rename_i hdim
        split at h
        · split at h
          · split at h
            · simp only [bind_ok, pure_ok, Prod.exists, Prod.mk.injEq] at h
              obtain ⟨st1, s0, e0, st2, s1, e1, t', et, rfl, rfl⟩ := h
              have g0 := adaptive_good _ _ _ _ _ _ _ _ e0
              have g1 := adaptive_good _ _ _ _ _ _ _ _ e1
              have r0 := ih _ _ _ _ _ e0
              have r1 := ih _ _ _ _ _ e1
              simp only [fatherCluster, sonsBox, bind, Except.bind, pure, Except.pure, Except.ok.injEq] at et
              subst et
              unfold Cluster.new Cluster.update
              rw [forall_nodes_mk]
              refine ⟨⟨fun h => by simp at h, fun _ => hclf⟩, ?_⟩
              intro u hu v hv
              simp only [List.mem_cons, List.not_mem_nil, or_false] at hu
              rcases hu with rfl | rfl
              · apply res_congr _ (r0 v hv)
                intro i hi
                obtain ⟨n1, n2, n3⟩ := nodes_inside _ g0.cons (by rw [g0.tsize]; exact g0.pos) v hv
                rw [g0.toff] at n1 n2
                rw [g0.tsize] at n2
                exact (g1.perm.outside (by omega)).symm
              · exact r1 v hv
            · simp [bind_ok, fatherCluster, sonsBox] at h
          · simp [bind_ok, fatherCluster, sonsBox] at h
        · rename_i ha
          simp only [bind_ok, pure_ok, Prod.mk.injEq] at h
          obtain ⟨_, _, rfl, rfl⟩ := h
          apply leafcase
          right
          obtain ⟨m1, m2, m3⟩ := maxDir_spec (Nat.pos_of_ne_zero hdim) (pointBbox g st off size).hmin
            (pointBbox g st off size).hmax
          intro i hi k hk j hj
          obtain ⟨b1, -, -, b4⟩ := bbox_spec g st off hpos j
          have h1 := b1 i hi
          have h2 := b1 k hk
          have h3 := m3 j hj
          have h4 := not_lt.1 ha
          apply le_antisymm
          · change g.x (st.idx (off + i)) j ≤ g.x (st.idx (off + k)) j; linarith
          · change g.x (st.idx (off + k)) j ≤ g.x (st.idx (off + i)) j; linarith
    · rename_i hclf
      simp only [pure_ok, Prod.mk.injEq] at h
      obtain ⟨rfl, rfl⟩ := h
      exact leafcase _ (.inl (by omega))

end H2.CB
