import Verif.Proof.DdCluster2

set_option linter.unusedSectionVars false

namespace H2.CB
open H2 Spec
variable {K : Type} [Field K] [LinearOrder K] [IsStrictOrderedRing K] {F : Type}

/-- connection of positions -/
def con (sp : Sparse F) (a : Nat → Nat) (p q : Nat) : Prop := HasPos sp (a p) (a q)

theorem DdTree.congr {c d : Nat → Nat → Prop} {t : Cluster K} (h : DdTree c t) : Consistent t →
    (∀ p q, InCl t p → InCl t q → (c p q ↔ d p q)) → DdTree d t := by
  induction h with
  | leaf h => exact fun _ _ => .leaf h
  | @one i s h1 h2 ih =>
    intro hc hd
    have h3 := (consistent_mk.1 hc).1 (by simp)
    have h4 := tiles_range _ _ _ h3
    refine .one h1 (ih ((consistent_mk.1 hc).2 _ (by simp)) fun p q hp hq => hd p q ?_ ?_)
    · have := h4 s (by simp); unfold InCl at *; simp only [Cluster.off_mk, Cluster.size_mk]; omega
    · have := h4 s (by simp); unfold InCl at *; simp only [Cluster.off_mk, Cluster.size_mk]; omega
  | @two i s0 s1 h1 h2 h3 h4 ih0 ih1 =>
    intro hc hd
    have h5 := (consistent_mk.1 hc).1 (by simp)
    have h6 := tiles_range _ _ _ h5
    have k0 : ∀ p, InCl s0 p → InCl (.mk i [s0, s1]) p := by
      intro p hp; have := h6 s0 (by simp); unfold InCl at *; simp only [Cluster.off_mk, Cluster.size_mk]; omega
    have k1 : ∀ p, InCl s1 p → InCl (.mk i [s0, s1]) p := by
      intro p hp; have := h6 s1 (by simp); unfold InCl at *; simp only [Cluster.off_mk, Cluster.size_mk]; omega
    refine .two h1 (ih0 ((consistent_mk.1 hc).2 _ (by simp)) fun p q hp hq => hd p q (k0 p hp) (k0 q hq))
      (ih1 ((consistent_mk.1 hc).2 _ (by simp)) fun p q hp hq => hd p q (k1 p hp) (k1 q hq)) ?_
    intro p q hp hq
    rw [← hd p q (k1 p hp) (k0 q hq)]
    exact h4 p q hp hq
  | @three i s0 s1 s2 h1 h2 h3 h4 h7 h8 ih0 ih1 =>
    intro hc hd
    have h5 := (consistent_mk.1 hc).1 (by simp)
    have h6 := tiles_range _ _ _ h5
    have k0 : ∀ p, InCl s0 p → InCl (.mk i [s0, s1, s2]) p := by
      intro p hp; have := h6 s0 (by simp); unfold InCl at *; simp only [Cluster.off_mk, Cluster.size_mk]; omega
    have k1 : ∀ p, InCl s1 p → InCl (.mk i [s0, s1, s2]) p := by
      intro p hp; have := h6 s1 (by simp); unfold InCl at *; simp only [Cluster.off_mk, Cluster.size_mk]; omega
    have k2 : ∀ p, InCl s2 p → InCl (.mk i [s0, s1, s2]) p := by
      intro p hp; have := h6 s2 (by simp); unfold InCl at *; simp only [Cluster.off_mk, Cluster.size_mk]; omega
    refine .three h1 (ih0 ((consistent_mk.1 hc).2 _ (by simp)) fun p q hp hq => hd p q (k0 p hp) (k0 q hq))
      (ih1 ((consistent_mk.1 hc).2 _ (by simp)) fun p q hp hq => hd p q (k1 p hp) (k1 q hq)) ?_ h7 ?_
    · intro p q hp hq
      rw [← hd p q (k1 p hp) (k0 q hq)]
      exact h4 p q hp hq
    · intro p hp
      obtain ⟨q, hq, hpq⟩ := h8 p hp
      exact ⟨q, hq, (hd p q (k2 p hp) (k0 q hq)).1 hpq⟩

/-- the result of a domain decomposition builder -/
structure SubD (g : Geom K) (clf : Nat) (sp : Sparse F) (a a' : Nat → Nat) (off size : Nat) (t : Cluster K) : Prop extends Sub g clf a a' off size t where
  dd : DdTree (con sp a') t

theorem SubD.perm_left {g : Geom K} {clf : Nat} {sp : Sparse F} {a0 a a' : Nat → Nat} {off size : Nat} {t : Cluster K}
    (h0 : SegRearranged off size a0 a) (h : SubD g clf sp a a' off size t) : SubD g clf sp a0 a' off size t :=
  ⟨h.toSub.perm_left h0, h.dd⟩

theorem SubD.dd_congr {g : Geom K} {clf : Nat} {sp : Sparse F} {a a' b : Nat → Nat} {off size : Nat} {t : Cluster K}
    (h : SubD g clf sp a a' off size t) (hb : ∀ i, off ≤ i → i < off + size → a' i = b i) : DdTree (con sp b) t := by
  refine DdTree.congr h.dd h.good.cons fun p q hp hq => ?_
  unfold InCl at hp hq
  rw [h.good.toff, h.good.tsize] at hp hq
  unfold con
  rw [hb p hp.1 hp.2, hb q hq.1 hq.2]

theorem leafD {g : Geom K} {clf : Nat} {sp : Sparse F} {a : Nat → Nat} {off size : Nat} {t : Cluster K}
    (hr : size ≤ clf ∨ AllCoincide g.x g.dim a off size) (ht : leafT g 1 a off size = .ok t) : SubD g clf sp a a off size t := by
  obtain ⟨i, rfl, h1, h2⟩ := leafT_sub hr ht
  exact ⟨h2, .leaf h1⟩

theorem oneD {g : Geom K} {clf : Nat} {sp : Sparse F} {a b : Nat → Nat} {off size : Nat} {s0 t : Cluster K} (hc : clf < size)
    (h0 : SubD g clf sp a b off size s0) (ht : fatherT g 1 off size [s0] = .ok t) : SubD g clf sp a b off size t := by
  obtain ⟨i, rfl, h1, h2⟩ := oneT hc h0.toSub ht
  exact ⟨h2, .one h1 h0.dd⟩

/-- separation survives rearrangements inside of the two segments -/
theorem sep_of {sp : Sparse F} {a b : Nat → Nat} {o0 n0 o1 n1 : Nat} {s0 s1 : Cluster K} (hs0 : s0.off = o0 ∧ s0.size = n0)
    (hs1 : s1.off = o1 ∧ s1.size = n1)
    (h0 : ∀ i < n0, ∃ k < n0, b (o0 + i) = a (o0 + k)) (h1 : ∀ i < n1, ∃ k < n1, b (o1 + i) = a (o1 + k))
    (h : ∀ i < n1, ∀ k < n0, ¬ HasPos sp (a (o1 + i)) (a (o0 + k))) : Separated (con sp b) s1 s0 := by
  rintro p q ⟨p1, p2⟩ ⟨q1, q2⟩ hc
  obtain ⟨rfl, rfl⟩ := hs0
  obtain ⟨rfl, rfl⟩ := hs1
  obtain ⟨k, hk, ek⟩ := h0 (q - s0.off) (by omega)
  obtain ⟨i, hi, ei⟩ := h1 (p - s1.off) (by omega)
  rw [show s0.off + (q - s0.off) = q by omega] at ek
  rw [show s1.off + (p - s1.off) = p by omega] at ei
  unfold con at hc
  rw [ek, ei] at hc
  exact h i hi k hk hc

theorem twoD {g : Geom K} {clf : Nat} {sp : Sparse F} {a b c : Nat → Nat} {off n0 n1 size : Nat} {s0 s1 t : Cluster K} (hc : clf < size)
    (hs : n0 + n1 = size) (hsep : ∀ i < n1, ∀ k < n0, ¬ HasPos sp (a (off + n0 + i)) (a (off + k)))
    (h0 : SubD g clf sp a b off n0 s0) (h1 : SubD g clf sp b c (off + n0) n1 s1)
    (ht : fatherT g 1 off size [s0, s1] = .ok t) : SubD g clf sp a c off size t := by
  obtain ⟨i, rfl, h2, h3⟩ := twoT hc hs h0.toSub h1.toSub ht
  refine ⟨h3, .two h2 (h0.dd_congr fun i h4 h5 => (h1.good.perm.outside (by omega)).symm) h1.dd ?_⟩
  refine sep_of ⟨h0.good.toff, h0.good.tsize⟩ ⟨h1.good.toff, h1.good.tsize⟩ (a := a) ?_ ?_ hsep
  · intro i hi
    rw [h1.good.perm.outside (by omega)]
    exact h0.good.perm.inside hi
  · intro i hi
    obtain ⟨k, hk, e⟩ := h1.good.perm.inside hi
    rw [e, h0.good.perm.outside (by omega)]
    exact ⟨k, hk, rfl⟩

theorem threeD {g : Geom K} {clf : Nat} {sp : Sparse F} {a b c d : Nat → Nat} {off n0 n1 n2 size : Nat} {s0 s1 s2 t : Cluster K}
    (hc : clf < size) (hs : n0 + n1 + n2 = size) (hsep : ∀ i < n1, ∀ k < n0, ¬ HasPos sp (a (off + n0 + i)) (a (off + k)))
    (hcon : ∀ i < n2, ∃ k < n0, HasPos sp (a (off + n0 + n1 + i)) (a (off + k)))
    (h0 : SubD g clf sp a b off n0 s0) (h1 : SubD g clf sp b c (off + n0) n1 s1) (h2 : SubI g clf c d (off + n0 + n1) n2 s2)
    (ht : fatherT g 1 off size [s0, s1, s2] = .ok t) : SubD g clf sp a d off size t := by
  obtain ⟨i, rfl, h3, h4⟩ := threeT hc hs h0.toSub h1.toSub h2.toSub ht
  have e0 : ∀ i, i < off + n0 → d i = b i := fun i hi => by
    rw [h2.good.perm.outside (by omega), h1.good.perm.outside (by omega)]
  refine ⟨h4, .three h3 (h0.dd_congr fun i h5 h6 => (e0 i h6).symm) (h1.dd_congr fun i h5 h6 => (h2.good.perm.outside (by omega)).symm) ?_ h2.ty ?_⟩
  · refine sep_of ⟨h0.good.toff, h0.good.tsize⟩ ⟨h1.good.toff, h1.good.tsize⟩ (a := a) ?_ ?_ hsep
    · intro i hi
      rw [e0 _ (by omega)]
      exact h0.good.perm.inside hi
    · intro i hi
      obtain ⟨k, hk, e⟩ := h1.good.perm.inside hi
      rw [h2.good.perm.outside (by omega), e, h0.good.perm.outside (by omega)]
      exact ⟨k, hk, rfl⟩
  · rintro p ⟨p1, p2⟩
    rw [h2.good.toff] at p1
    rw [h2.good.toff, h2.good.tsize] at p2
    obtain ⟨m, hm, em⟩ := h2.good.perm.inside (i := p - (off + n0 + n1)) (by omega)
    rw [show off + n0 + n1 + (p - (off + n0 + n1)) = p by omega] at em
    obtain ⟨k, hk, hpos⟩ := hcon m hm
    obtain ⟨l, hl, el⟩ := h0.good.perm.symm.inside hk
    refine ⟨off + l, ⟨by rw [h0.good.toff]; omega, by rw [h0.good.toff, h0.good.tsize]; omega⟩, ?_⟩
    unfold con
    rw [em, h1.good.perm.outside (by omega), h0.good.perm.outside (by omega), e0 _ (by omega), ← el]
    exact hpos

/-- the indices of a segment are rows of the matrix -/
def Rows (sp : Sparse F) (a : Nat → Nat) (off size : Nat) : Prop := ∀ i < size, a (off + i) < sp.rows

theorem Rows.perm {sp : Sparse F} {a b : Nat → Nat} {off size : Nat} (h : Rows sp a off size) (hp : SegRearranged off size a b) : Rows sp b off size := by
  intro i hi
  obtain ⟨k, hk, e⟩ := hp.inside hi
  rw [e]; exact h k hk

theorem Rows.sub {sp : Sparse F} {a b : Nat → Nat} {off size o n : Nat} (h : Rows sp a off size) (h1 : off ≤ o) (h2 : o + n ≤ off + size)
    (e : ∀ i, o ≤ i → i < o + n → b i = a i) : Rows sp b o n := by
  intro i hi
  rw [e _ (by omega) (by omega)]
  have := h (o + i - off) (by omega)
  rwa [show off + (o + i - off) = o + i by omega] at this

/-- split by a predicate, then separate -/
theorem cut_tot {sp : Sparse F} {flag : Arr Nat} (hs : Safe sp flag) (h0 : ∀ c, flag.v c = 0) {off size : Nat} {a : Nat → Nat} (hb : Rows sp a off size)
    (p : Nat → Bool) : Tot (separate sp flag off size (splitLoop p off size a).2.1 (splitLoop p off size a).2.2 (splitLoop p off size a).1)
    (fun r => SepOK sp flag off size (splitLoop p off size a).2.1 (splitLoop p off size a).2.2 (splitLoop p off size a).1 r ∧ SegRearranged off size a r.1) := by
  have hsp := splitLoop_ok p off size a
  refine (separate_tot hs h0 hsp.sum (hb.perm hsp.perm)).mono fun r hr => ⟨hr, hsp.perm.trans (hr.perm.mono (by omega) ?_)⟩
  have := hsp.sum
  omega

theorem adaptiveDd_good (g : Geom K) (clf dim : Nat) (sp : Sparse F) (flag : Arr Nat) (hs : Safe sp flag) (h0 : ∀ c, flag.v c = 0) :
    ∀ (f : Nat) (st : St K) (off size : Nat) (st' : St K) (flag' : Arr Nat) (t : Cluster K), Rows sp st.idx off size →
    buildAdaptiveDd g clf dim sp f st flag off size = .ok (st', flag', t) → SubD g clf sp st.idx st'.idx off size t ∧ flag' = flag := by
  intro f
  induction f with
  | zero => intro st off size st' flag' t _ h; simp [buildAdaptiveDd] at h
  | succ f ih =>
    intro st off size st' flag' t hb h
    rw [buildAdaptiveDd] at h
    split at h
    · rename_i hclf
      dsimp only at h
      split at h
      · simp [throw_ne_ok] at h
      · rename_i hdim
        split at h
        · obtain ⟨d, hd⟩ : ∃ d, d = (maxDir g.dim (pointBbox g st off size).hmin (pointBbox g st off size).hmax).1 := ⟨_, rfl⟩
          rw [← hd] at h
          obtain ⟨m, hm⟩ : ∃ m, m = ((pointBbox g st off size).hmax d + (pointBbox g st off size).hmin d) / 2 := ⟨_, rfl⟩
          rw [← hm] at h
          have hidx : (pointBbox g st off size).idx = st.idx := rfl
          rw [hidx] at h
          obtain ⟨r, er, hr, hperm⟩ := cut_tot hs h0 hb (fun i => decide (g.x i d < m))
          rw [er, ok_bind] at h
          obtain ⟨n0, hn0⟩ : ∃ n0, n0 = (splitLoop (fun i => decide (g.x i d < m)) off size st.idx).2.1 := ⟨_, rfl⟩
          rw [← hn0] at h hr
          have hsum := hr.sum
          have hb1 : Rows sp r.1 off size := hb.perm hperm
          split at h
          · split at h
            · rw [hr.flags] at h
              simp only [bind_ok, Prod.exists] at h
              obtain ⟨st1, fl1, s0, e0, st2, fl2, s1, e1, h⟩ := h
              obtain ⟨g0, rfl⟩ := ih _ _ _ _ _ _ (hb1.sub (le_refl _) (by omega) fun _ _ _ => rfl) e0
              simp only at g0 e1
              obtain ⟨g1, rfl⟩ := ih _ _ _ _ _ _ (hb1.sub (by omega) (by omega) fun i h1 h2 => g0.good.perm.outside (by omega)) e1
              split at h
              · simp only [bind_ok, pure_ok, Prod.exists, Prod.mk.injEq] at h
                obtain ⟨st3, s2, e2, t', et, rfl, rfl, rfl⟩ := h
                have g2 := adaptiveInterface_good _ _ _ _ _ _ _ _ _ _ e2
                exact ⟨(threeD hclf hsum hr.sep hr.conn g0 g1 g2 et).perm_left hperm, rfl⟩
              · rename_i hn2
                simp only [bind_ok, pure_ok, Prod.mk.injEq] at h
                obtain ⟨t', et, rfl, rfl, rfl⟩ := h
                exact ⟨(twoD hclf (by omega) hr.sep g0 g1 et).perm_left hperm, rfl⟩
            · simp [throw_ne_ok] at h
          · simp [throw_ne_ok] at h
        · rename_i ha
          simp only [bind_ok, pure_ok, Prod.mk.injEq] at h
          obtain ⟨t', et, rfl, rfl, rfl⟩ := h
          exact ⟨leafD (.inr (coincide_of_max g (Nat.pos_of_ne_zero hdim) st off (by omega) ha)) et, rfl⟩
    · rename_i hclf
      simp only [bind_ok, pure_ok, Prod.mk.injEq] at h
      obtain ⟨t', et, rfl, rfl, rfl⟩ := h
      exact ⟨leafD (.inl (by omega)) et, rfl⟩

theorem regularDd_good (g : Geom K) (clf dim : Nat) (sp : Sparse F) (flag : Arr Nat) (hs : Safe sp flag) (h0 : ∀ c, flag.v c = 0) :
    ∀ (f : Nat) (st : St K) (off size dir : Nat) (st' : St K) (flag' : Arr Nat) (t : Cluster K), Rows sp st.idx off size →
    buildRegularDd g clf dim sp f st flag off size dir = .ok (st', flag', t) → SubD g clf sp st.idx st'.idx off size t ∧ flag' = flag := by
  intro f
  induction f with
  | zero => intro st off size dir st' flag' t _ h; simp [buildRegularDd] at h
  | succ f ih =>
    intro st off size dir st' flag' t hb h
    rw [buildRegularDd] at h
    split at h
    · rename_i hclf
      dsimp only at h
      split at h
      · simp [throw_ne_ok] at h
      · split at h
        · obtain ⟨m, hm⟩ : ∃ m, m = (st.hmax dir + st.hmin dir) / 2 := ⟨_, rfl⟩
          rw [← hm] at h
          obtain ⟨r, er, hr, hperm⟩ := cut_tot hs h0 hb (fun i => decide (g.x i dir < m))
          rw [er, ok_bind] at h
          obtain ⟨n0, hn0⟩ : ∃ n0, n0 = (splitLoop (fun i => decide (g.x i dir < m)) off size st.idx).2.1 := ⟨_, rfl⟩
          rw [← hn0] at h hr
          have hsum := hr.sum
          have hb1 : Rows sp r.1 off size := hb.perm hperm
          split at h
          · split at h
            · rw [hr.flags] at h
              simp only [bind_ok, Prod.exists] at h
              obtain ⟨st1, fl1, s0, e0, st2, fl2, s1, e1, h⟩ := h
              obtain ⟨g0, rfl⟩ := ih _ _ _ _ _ _ _ (hb1.sub (le_refl _) (by omega) fun _ _ _ => rfl) e0
              simp only at g0 e1
              obtain ⟨g1, rfl⟩ := ih { idx := st1.idx, hmin := setAt st1.hmin dir m, hmax := setAt st1.hmax dir (st.hmax dir) } _ _ _ _ _ _ (hb1.sub (by omega) (by omega) fun i h1 h2 => g0.good.perm.outside (by omega)) e1
              split at h
              · simp only [bind_ok, pure_ok, Prod.exists, Prod.mk.injEq] at h
                obtain ⟨st3, s2, e2, t', et, rfl, rfl, rfl⟩ := h
                have g2 := regularInterface_good _ _ _ _ _ _ _ _ _ _ _ e2
                exact ⟨(threeD hclf hsum hr.sep hr.conn g0 g1 g2 et).perm_left hperm, rfl⟩
              · rename_i hn2
                simp only [bind_ok, pure_ok, Prod.mk.injEq] at h
                obtain ⟨t', et, rfl, rfl, rfl⟩ := h
                exact ⟨(twoD hclf (by omega) hr.sep g0 g1 et).perm_left hperm, rfl⟩
            · split at h
              · simp [throw_ne_ok] at h
              · rw [hr.flags] at h
                simp only [bind_ok, pure_ok, Prod.exists, Prod.mk.injEq] at h
                obtain ⟨st1, fl1, s0, e0, t', et, rfl, rfl, rfl⟩ := h
                have hn : n0 = size := by omega
                rw [hn] at e0
                obtain ⟨g0, rfl⟩ := ih _ _ _ _ _ _ _ hb1 e0
                exact ⟨(oneD hclf g0 et).perm_left hperm, rfl⟩
          · rename_i hz
            split at h
            · simp only [bind_ok, pure_ok, Prod.exists, Prod.mk.injEq, cassert_ok, decide_eq_true_eq] at h
              obtain ⟨_, hz2, st1, fl1, s0, e0, t', et, rfl, rfl, rfl⟩ := h
              rw [hr.flags] at e0
              have hn : n0 = 0 := by omega
              rw [hn, Nat.add_zero, show r.2.1 = size by omega] at e0
              obtain ⟨g0, rfl⟩ := ih _ _ _ _ _ _ _ hb1 e0
              exact ⟨(oneD hclf g0 et).perm_left hperm, rfl⟩
            · simp [throw_ne_ok] at h
        · simp only [bind_ok, pure_ok, Prod.exists, Prod.mk.injEq] at h
          obtain ⟨st1, fl1, s0, e0, t', et, rfl, rfl, rfl⟩ := h
          obtain ⟨g0, rfl⟩ := ih _ _ _ _ _ _ _ hb e0
          exact ⟨oneD hclf g0 et, rfl⟩
    · rename_i hclf
      simp only [bind_ok, pure_ok, Prod.mk.injEq] at h
      obtain ⟨t', et, rfl, rfl, rfl⟩ := h
      exact ⟨leafD (.inl (by omega)) et, rfl⟩

end H2.CB
