import Verif.Proof.DdCluster

set_option linter.unusedSectionVars false

namespace H2.CB
open H2 Spec
variable {K : Type} [Field K] [LinearOrder K] [IsStrictOrderedRing K] {F : Type}

/-- a well-built tree with the right leaf sizes -/
structure Sub (g : Geom K) (clf : Nat) (a a' : Nat → Nat) (off size : Nat) (t : Cluster K) : Prop where
  good : Good g a a' off size t
  res : ∀ s ∈ nodes t, Res g clf a' s

theorem good_withType {g : Geom K} {a a' : Nat → Nat} {off size ty : Nat} {t : Cluster K} (h : Good g a a' off size t) :
    Good g a a' off size (withType ty t) := by
  cases t with
  | mk i ss =>
    obtain ⟨h1, h2, h3, h4, h5, h6, h7⟩ := h
    refine ⟨h1, h2, h3, h4, ?_, ?_, ?_⟩
    · unfold withType; rw [consistent_mk] at h5 ⊢; exact h5
    · unfold withType; rw [descExact_mk] at h6 ⊢; rw [nodes_length_info _ i]; exact h6
    · unfold withType; rw [forall_nodes_mk] at h7 ⊢
      exact ⟨⟨h7.1.lo, h7.1.lo_attained, h7.1.hi, h7.1.hi_attained⟩, h7.2⟩

theorem Sub.perm_left {g : Geom K} {clf : Nat} {a0 a a' : Nat → Nat} {off size : Nat} {t : Cluster K}
    (h0 : SegRearranged off size a0 a) (h : Sub g clf a a' off size t) : Sub g clf a0 a' off size t :=
  ⟨h.good.perm_left h0, h.res⟩

theorem Sub.res_congr {g : Geom K} {clf : Nat} {a a' b : Nat → Nat} {off size : Nat} {t : Cluster K} (h : Sub g clf a a' off size t)
    (hb : ∀ i, off ≤ i → i < off + size → a' i = b i) : ∀ s ∈ nodes t, Res g clf b s := by
  intro s hs
  obtain ⟨h1, h2, h3⟩ := nodes_inside t h.good.cons (by rw [h.good.tsize]; exact h.good.pos) s hs
  rw [h.good.toff] at h1
  rw [h.good.toff, h.good.tsize] at h2
  exact CB.res_congr (fun i hi => hb _ (by omega) (by omega)) (h.res s hs)

theorem fatherT_sub {g : Geom K} {clf ty : Nat} {a b : Nat → Nat} {off size : Nat} {ss : List (Cluster K)} {t : Cluster K} (hc : clf < size)
    (h : SonsGood g a b off (off + size) ss) (hr : ∀ s ∈ ss, ∀ u ∈ nodes s, Res g clf b u) (ht : fatherT g ty off size ss = .ok t) :
    ∃ i, t = .mk i ss ∧ i.type = ty ∧ Sub g clf a b off size t := by
  unfold fatherT at ht
  rw [bind_ok] at ht
  obtain ⟨u, hu, ht⟩ := ht
  rw [pure_ok] at ht
  have hg := father_good (by omega) h hu
  cases u with
  | mk i us =>
    have e : us = ss := by
      unfold fatherCluster at hu
      rw [bind_ok] at hu
      obtain ⟨p, -, hu⟩ := hu
      rw [pure_ok] at hu
      unfold Cluster.new Cluster.update at hu
      injection hu with h1 h2
      exact h2.symm
    subst e
    refine ⟨{ i with type := ty }, ht.symm, rfl, ?_⟩
    rw [← ht]
    refine ⟨good_withType hg, ?_⟩
    unfold withType
    rw [forall_nodes_mk]
    refine ⟨⟨fun hn => ?_, fun _ => ?_⟩, hr⟩
    · exfalso
      have hn' : us = [] := hn
      subst hn'
      have h1 : off = off + size := h.facts.1
      omega
    · have := hg.tsize
      simp only [Cluster.size_mk] at this ⊢
      omega

theorem leafT_sub {g : Geom K} {clf ty : Nat} {a : Nat → Nat} {off size : Nat} {t : Cluster K}
    (hr : size ≤ clf ∨ AllCoincide g.x g.dim a off size) (ht : leafT g ty a off size = .ok t) :
    ∃ i, t = .mk i [] ∧ i.type = ty ∧ Sub g clf a a off size t := by
  unfold leafT at ht
  simp only [bind_ok, cassert_ok, decide_eq_true_eq, pure_ok] at ht
  obtain ⟨_, hp, ht⟩ := ht
  subst ht
  refine ⟨_, rfl, rfl, good_withType (leaf_good g a off hp), ?_⟩
  unfold leafCluster Cluster.new Cluster.update withType
  rw [forall_nodes_mk]
  exact ⟨⟨fun _ => hr, fun h => absurd rfl h⟩, by simp⟩

theorem oneT {g : Geom K} {clf ty : Nat} {a b : Nat → Nat} {off size : Nat} {s0 t : Cluster K} (hc : clf < size) (h0 : Sub g clf a b off size s0)
    (ht : fatherT g ty off size [s0] = .ok t) : ∃ i, t = .mk i [s0] ∧ i.type = ty ∧ Sub g clf a b off size t := by
  refine fatherT_sub hc (.cons h0.good .nil) ?_ ht
  intro s hs
  rw [List.mem_singleton] at hs
  subst hs
  exact h0.res

theorem twoT {g : Geom K} {clf ty : Nat} {a b c : Nat → Nat} {off n0 n1 size : Nat} {s0 s1 t : Cluster K} (hc : clf < size) (hs : n0 + n1 = size)
    (h0 : Sub g clf a b off n0 s0) (h1 : Sub g clf b c (off + n0) n1 s1)
    (ht : fatherT g ty off size [s0, s1] = .ok t) : ∃ i, t = .mk i [s0, s1] ∧ i.type = ty ∧ Sub g clf a c off size t := by
  subst hs
  refine fatherT_sub hc (.cons h0.good (.cons h1.good (by rw [← Nat.add_assoc]; exact .nil))) ?_ ht
  intro s hs
  simp only [List.mem_cons, List.not_mem_nil, or_false] at hs
  rcases hs with rfl | rfl
  · exact h0.res_congr (fun i h2 h3 => (h1.good.perm.outside (by omega)).symm)
  · exact h1.res

theorem threeT {g : Geom K} {clf ty : Nat} {a b c d : Nat → Nat} {off n0 n1 n2 size : Nat} {s0 s1 s2 t : Cluster K} (hc : clf < size)
    (hs : n0 + n1 + n2 = size)
    (h0 : Sub g clf a b off n0 s0) (h1 : Sub g clf b c (off + n0) n1 s1) (h2 : Sub g clf c d (off + n0 + n1) n2 s2)
    (ht : fatherT g ty off size [s0, s1, s2] = .ok t) : ∃ i, t = .mk i [s0, s1, s2] ∧ i.type = ty ∧ Sub g clf a d off size t := by
  subst hs
  refine fatherT_sub hc (.cons h0.good (.cons h1.good (.cons h2.good (by rw [← Nat.add_assoc, ← Nat.add_assoc]; exact .nil)))) ?_ ht
  intro s hs
  simp only [List.mem_cons, List.not_mem_nil, or_false] at hs
  rcases hs with rfl | rfl | rfl
  · exact h0.res_congr (fun i h3 h4 => by rw [h2.good.perm.outside (by omega), h1.good.perm.outside (by omega)])
  · exact h1.res_congr (fun i h3 h4 => (h2.good.perm.outside (by omega)).symm)
  · exact h2.res

/-- the result of an interface builder -/
structure SubI (g : Geom K) (clf : Nat) (a a' : Nat → Nat) (off size : Nat) (t : Cluster K) : Prop extends Sub g clf a a' off size t where
  ty : ∀ s ∈ nodes t, s.info.type = 2

theorem SubI.perm_left {g : Geom K} {clf : Nat} {a0 a a' : Nat → Nat} {off size : Nat} {t : Cluster K}
    (h0 : SegRearranged off size a0 a) (h : SubI g clf a a' off size t) : SubI g clf a0 a' off size t :=
  ⟨h.toSub.perm_left h0, h.ty⟩

theorem leafI {g : Geom K} {clf : Nat} {a : Nat → Nat} {off size : Nat} {t : Cluster K}
    (hr : size ≤ clf ∨ AllCoincide g.x g.dim a off size) (ht : leafT g 2 a off size = .ok t) : SubI g clf a a off size t := by
  obtain ⟨i, rfl, h1, h2⟩ := leafT_sub hr ht
  exact ⟨h2, by rw [forall_nodes_mk]; exact ⟨h1, by simp⟩⟩

theorem oneI {g : Geom K} {clf : Nat} {a b : Nat → Nat} {off size : Nat} {s0 t : Cluster K} (hc : clf < size) (h0 : SubI g clf a b off size s0)
    (ht : fatherT g 2 off size [s0] = .ok t) : SubI g clf a b off size t := by
  obtain ⟨i, rfl, h1, h2⟩ := oneT hc h0.toSub ht
  exact ⟨h2, by rw [forall_nodes_mk]; exact ⟨h1, by simpa using h0.ty⟩⟩

theorem twoI {g : Geom K} {clf : Nat} {a b c : Nat → Nat} {off n0 n1 size : Nat} {s0 s1 t : Cluster K} (hc : clf < size) (hs : n0 + n1 = size)
    (h0 : SubI g clf a b off n0 s0) (h1 : SubI g clf b c (off + n0) n1 s1)
    (ht : fatherT g 2 off size [s0, s1] = .ok t) : SubI g clf a c off size t := by
  obtain ⟨i, rfl, h2, h3⟩ := twoT hc hs h0.toSub h1.toSub ht
  refine ⟨h3, ?_⟩
  rw [forall_nodes_mk]
  refine ⟨h2, ?_⟩
  intro s hs
  simp only [List.mem_cons, List.not_mem_nil, or_false] at hs
  rcases hs with rfl | rfl
  · exact h0.ty
  · exact h1.ty

theorem regularInterface_good (g : Geom K) (clf dim : Nat) : ∀ (f : Nat) (st : St K) (off size dir lev : Nat) (st' : St K)
    (t : Cluster K), buildRegularInterface g clf dim f st off size dir lev = .ok (st', t) → SubI g clf st.idx st'.idx off size t := by
  intro f
  induction f with
  | zero => intro st off size dir lev st' t h; simp [buildRegularInterface] at h
  | succ f ih =>
    intro st off size dir lev st' t h
    rw [buildRegularInterface] at h
    split at h
    · rename_i hclf
      split at h
      · simp [throw_ne_ok] at h
      · split at h
        · split at h
          · simp [throw_ne_ok] at h
          · split at h
            · dsimp only at h
              split at h
              · split at h
                · simp only [bind_ok, pure_ok, Prod.exists, Prod.mk.injEq] at h
                  obtain ⟨st1, s0, e0, st2, s1, e1, t', et, rfl, rfl⟩ := h
                  have g0 := ih _ _ _ _ _ _ _ e0
                  have g1 := ih _ _ _ _ _ _ _ e1
                  exact (twoI hclf (splitLoop_ok _ _ _ _).sum g0 g1 et).perm_left (splitLoop_ok _ _ _ _).perm
                · simp only [bind_ok, pure_ok, Prod.exists, Prod.mk.injEq] at h
                  obtain ⟨st1, s0, e0, t', et, rfl, rfl⟩ := h
                  exact (oneI hclf (ih _ _ _ _ _ _ _ e0) et).perm_left (splitLoop_ok _ _ _ _).perm
              · simp only [bind_ok, pure_ok, Prod.exists, Prod.mk.injEq] at h
                obtain ⟨_, _, st1, s0, e0, t', et, rfl, rfl⟩ := h
                exact (oneI hclf (ih _ _ _ _ _ _ _ e0) et).perm_left (splitLoop_ok _ _ _ _).perm
            · simp only [bind_ok, pure_ok, Prod.exists, Prod.mk.injEq] at h
              obtain ⟨_, _, st1, s0, e0, t', et, rfl, rfl⟩ := h
              exact oneI hclf (ih _ _ _ _ _ _ _ e0) et
        · simp only [bind_ok, pure_ok, Prod.exists, Prod.mk.injEq] at h
          obtain ⟨st1, s0, e0, t', et, rfl, rfl⟩ := h
          exact oneI hclf (ih _ _ _ _ _ _ _ e0) et
    · rename_i hclf
      simp only [bind_ok, pure_ok, Prod.mk.injEq] at h
      obtain ⟨t', et, rfl, rfl⟩ := h
      exact leafI (.inl (by omega)) et

theorem coincide_of_max (g : Geom K) (hd : 0 < g.dim) (st : St K) (off : Nat) {size : Nat} (hp : 0 < size)
    (ha : ¬ 0 < (maxDir g.dim (pointBbox g st off size).hmin (pointBbox g st off size).hmax).2) : AllCoincide g.x g.dim st.idx off size := by
  obtain ⟨m1, m2, m3⟩ := maxDir_spec hd (pointBbox g st off size).hmin (pointBbox g st off size).hmax
  intro i hi k hk j hj
  obtain ⟨b1, -, -, b4⟩ := bbox_spec g st off hp j
  have h1 := b1 i hi
  have h2 := b1 k hk
  have h3 := m3 j hj
  have h4 := not_lt.1 ha
  apply le_antisymm <;> linarith

theorem adaptiveInterface_good (g : Geom K) (clf dim : Nat) : ∀ (f : Nat) (st : St K) (off size lev : Nat) (st' : St K)
    (t : Cluster K), buildAdaptiveInterface g clf dim f st off size lev = .ok (st', t) → SubI g clf st.idx st'.idx off size t := by
  intro f
  induction f with
  | zero => intro st off size lev st' t h; simp [buildAdaptiveInterface] at h
  | succ f ih =>
    intro st off size lev st' t h
    rw [buildAdaptiveInterface] at h
    split at h
    · rename_i hclf
      split at h
      · simp [throw_ne_ok] at h
      · split at h
        · split at h
          · simp [throw_ne_ok] at h
          · rename_i hdim
            dsimp only at h
            split at h
            · split at h
              · split at h
                · simp only [bind_ok, pure_ok, Prod.exists, Prod.mk.injEq] at h
                  obtain ⟨st1, s0, e0, st2, s1, e1, t', et, rfl, rfl⟩ := h
                  exact (twoI hclf (splitLoop_ok _ _ _ _).sum (ih _ _ _ _ _ _ e0) (ih _ _ _ _ _ _ e1) et).perm_left (splitLoop_ok _ _ _ _).perm
                · simp only [bind_ok, pure_ok, Prod.exists, Prod.mk.injEq] at h
                  obtain ⟨st1, s0, e0, t', et, rfl, rfl⟩ := h
                  exact (oneI hclf (ih _ _ _ _ _ _ e0) et).perm_left (splitLoop_ok _ _ _ _).perm
              · simp only [bind_ok, pure_ok, Prod.exists, Prod.mk.injEq] at h
                obtain ⟨_, _, st1, s0, e0, t', et, rfl, rfl⟩ := h
                exact (oneI hclf (ih _ _ _ _ _ _ e0) et).perm_left (splitLoop_ok _ _ _ _).perm
            · rename_i ha
              simp only [bind_ok, pure_ok, Prod.exists, Prod.mk.injEq] at h
              obtain ⟨_, _, t', et, rfl, rfl⟩ := h
              exact leafI (.inr (coincide_of_max g (Nat.pos_of_ne_zero hdim) st off (by omega) ha)) et
        · simp only [bind_ok, pure_ok, Prod.exists, Prod.mk.injEq] at h
          obtain ⟨st1, s0, e0, t', et, rfl, rfl⟩ := h
          exact oneI hclf (ih _ _ _ _ _ _ e0) et
    · rename_i hclf
      simp only [bind_ok, pure_ok, Prod.mk.injEq] at h
      obtain ⟨t', et, rfl, rfl⟩ := h
      exact leafI (.inl (by omega)) et

end H2.CB
