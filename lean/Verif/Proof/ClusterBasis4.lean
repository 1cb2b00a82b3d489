import Verif.Proof.ClusterBasis3

/-! Transformations with a matrix in every cluster. -/

set_option linter.unusedSectionVars false

namespace H2
open Spec Dense

namespace CBas
open VSt
variable {G : Type _} {K : Type _} [Field K] [StarRing K]

theorem _root_.H2.Spec.CbLay.k_le {cb : CBas G} (h : CbLay cb) : cb.k ≤ cb.ktree := by
  cases cb with
  | mk t k kt kb V E n son =>
    obtain ⟨h1, h2, _⟩ := h
    show k ≤ kt
    by_cases h0 : n = 0
    · have := h1 h0; omega
    · have := h2 (by omega); omega

theorem full_frame {S : Nat → Prop} {m m' : Mem K} (hf : Frame S m m') : ∀ {cb : CBas G}, CbFull m cb →
    Disj (CbVCell cb) S → CbFull m' cb := by
  intro cb
  induction cb with
  | mk t k kt kb V E n son ih =>
    rintro ⟨h1, h2, h3, h4⟩ hd
    exact ⟨h1, h2, Rk.frame_valid hf (fun c hc => hd c (.inl hc)) h3,
      fun i => ih i (h4 i) fun c hc => hd c (.inr ⟨i, hc⟩)⟩

theorem isCoeffsV_y {m : Mem K} : ∀ {cb : CBas G}, CbLay cb → ∀ {X X' Y Y' : Nat → K}, (∀ r, In cb.t r → X' r = X r) →
    (∀ q < cb.ktree, Y' q = Y q) → IsCoeffsV m cb X Y → IsCoeffsV m cb X' Y' := by
  intro cb
  induction cb with
  | mk t k kt kb V E n son ih =>
    rintro ho X X' Y Y' hX hY ⟨c1, c2, c3⟩
    replace hX : ∀ r, In t r → X' r = X r := hX
    replace hY : ∀ q < kt, Y' q = Y q := hY
    have hk : k ≤ kt := CbLay.k_le ho
    obtain ⟨h1, h2, h3⟩ := ho
    refine ⟨fun l hl => ?_, fun h0 i hi => ?_, fun i => ?_⟩
    · rw [hY l (by omega), c1 l hl]
      exact Finset.sum_congr rfl fun i hi => by rw [hX _ (In.add (Finset.mem_range.mp hi))]
    · have := h1 h0
      rw [hY _ (by omega), c2 h0 i hi, hX _ (In.add hi)]
    · have hn : 0 < n := Nat.lt_of_le_of_lt (Nat.zero_le _) i.2
      obtain ⟨g1, g2⟩ := h2 hn
      refine ih i (h3 i) (fun r hr => hX r (In.son g1 hr)) (fun q hq => ?_) (c3 i)
      have := segs_le (fun i => (son i).ktree) i
      exact hY _ (by omega)

theorem isCoeffsV_frame {S : Nat → Prop} {m m' : Mem K} (hf : Frame S m m') : ∀ {cb : CBas G}, CbFull m cb →
    Disj (CbVCell cb) S → ∀ {X Y : Nat → K}, IsCoeffsV m' cb X Y ↔ IsCoeffsV m cb X Y := by
  intro cb
  induction cb with
  | mk t k kt kb V E n son ih =>
    rintro ⟨h1, h2, h3, h4⟩ hd X Y
    unfold IsCoeffsV
    refine and_congr (forall_congr' fun l => forall_congr' fun hl => ?_) (and_congr Iff.rfl (forall_congr' fun i =>
      ih i (h4 i) fun c hc => hd c (.inr ⟨i, hc⟩)))
    have : ∑ i ∈ Finset.range t.cl.size, star (V.val m' i l) * X (t.cl.off + i) =
        ∑ i ∈ Finset.range t.cl.size, star (V.val m i l) * X (t.cl.off + i) :=
      Finset.sum_congr rfl fun i hi => by
        rw [Rk.frame_val hf (fun c hc => hd c (.inl hc)) (by rw [h1]; exact Finset.mem_range.mp hi) (by omega)]
    rw [this]

theorem synthV_frame {S : Nat → Prop} {m m' : Mem K} (hf : Frame S m m') : ∀ {cb : CBas G}, CbFull m cb →
    Disj (CbVCell cb) S → ∀ (Y : Nat → K) r, synthV m' cb Y r = synthV m cb Y r := by
  intro cb
  induction cb with
  | mk t k kt kb V E n son ih =>
    rintro ⟨h1, h2, h3, h4⟩ hd Y r
    rw [synthV, synthV]
    by_cases hr : In t r
    · rw [if_pos hr, if_pos hr]
      congr 1
      · congr 1
        refine Finset.sum_congr rfl fun l hl => ?_
        rw [Rk.frame_val hf (fun c hc => hd c (.inl hc)) (by unfold In at hr; omega)
          (by have := Finset.mem_range.mp hl; omega)]
      · exact Finset.sum_congr rfl fun i _ => ih i (h4 i) (fun c hc => hd c (.inr ⟨i, hc⟩)) _ _
    · rw [if_neg hr, if_neg hr]

theorem synthV_out {m : Mem K} {cb : CBas G} {Y : Nat → K} {r : Nat} (h : ¬ In cb.t r) : synthV m cb Y r = 0 := by
  cases cb with
  | mk t k kt kb V E n son => replace h : ¬ In t r := h; rw [synthV, if_neg h]

theorem synthV_y {m : Mem K} : ∀ {cb : CBas G}, CbLay cb → ∀ {Y Y' : Nat → K}, (∀ q < cb.ktree, Y' q = Y q) → ∀ r,
    synthV m cb Y' r = synthV m cb Y r := by
  intro cb
  induction cb with
  | mk t k kt kb V E n son ih =>
    intro ho Y Y' hY r
    replace hY : ∀ q < kt, Y' q = Y q := hY
    have hk : k ≤ kt := CbLay.k_le ho
    obtain ⟨h1, h2, h3⟩ := ho
    rw [synthV, synthV]
    by_cases hr : In t r
    · rw [if_pos hr, if_pos hr]
      congr 1
      · congr 1
        · exact Finset.sum_congr rfl fun l hl => by rw [hY l (by have := Finset.mem_range.mp hl; omega)]
        · by_cases h0 : n = 0
          · rw [if_pos h0, if_pos h0]
            have := h1 h0
            unfold In at hr
            exact hY _ (by omega)
          · rw [if_neg h0, if_neg h0]
      · refine Finset.sum_congr rfl fun i _ => ih i (h3 i) (fun q hq => ?_) r
        have hn : 0 < n := Nat.lt_of_le_of_lt (Nat.zero_le _) i.2
        have := (h2 hn).2
        have := segs_le (fun i => (son i).ktree) i
        exact hY _ (by omega)
    · rw [if_neg hr, if_neg hr]

theorem pick2_tot {idx : Arr Nat} {t : CRef G} {x xp xt1 : Vec} {m : Mem K} (hi : IdxOk idx t x.dim) (hx : x.Valid m)
    (hp : xp.Valid m) (ht : xt1.Valid m) (hd : Disj x.Cell xp.Cell) (hd1 : Disj x.Cell xt1.Cell)
    (hd2 : Disj xp.Cell xt1.Cell) (hdim : xp.dim = t.cl.size) (hdim1 : xt1.dim = t.cl.size) :
    Tot (pick2 idx t x xp xt1 m) fun m' => xp.Valid m' ∧ xt1.Valid m' ∧ Frame (fun c => xp.Cell c ∨ xt1.Cell c) m m' ∧
      ∀ i < t.cl.size, xp.val m' i = x.val m (idx.v (t.cl.off + i)) ∧ xt1.val m' i = x.val m (idx.v (t.cl.off + i)) := by
  unfold pick2
  refine forUp_tot (fun j m' => xp.Valid m' ∧ xt1.Valid m' ∧ Frame (fun c => xp.Cell c ∨ xt1.Cell c) m m' ∧
      ∀ i < j, xp.val m' i = x.val m (idx.v (t.cl.off + i)) ∧ xt1.val m' i = x.val m (idx.v (t.cl.off + i)))
    (Nat.zero_le _) ⟨hp, ht, fun _ _ => rfl, fun i hi => absurd hi (Nat.not_lt_zero _)⟩ ?_
  rintro j m' - hj ⟨v1, v2, hf, he⟩
  have hip := hi.2 _ (In.add hj)
  rw [Arr.get_ok (by have := hi.1; omega), ok_bind, cassert_true (by simpa using hip), ok_bind]
  have hr : m'.read (x.addr (idx.v (t.cl.off + j))) = .ok (x.val m (idx.v (t.cl.off + j))) := by
    apply Mem.read_ok
    rw [hf _ (fun h => h.elim (hd _ (Vec.cell_addr hip)) (hd1 _ (Vec.cell_addr hip)))]
    exact hx.some hip
  rw [hr, ok_bind, Mem.write_some _ (v1 j (by omega)), ok_bind, Mem.read_ok (Mem.upd_same _ _ _), ok_bind]
  have hne : xt1.addr j ≠ xp.addr j := fun e => hd2 _ (Vec.cell_addr (by omega)) (e ▸ Vec.cell_addr (by omega))
  rw [Mem.write_some _ (by rw [Mem.upd_ne hne]; exact v2 j (by omega))]
  have hpt : ∀ i < t.cl.size, ∀ i' < t.cl.size, xp.addr i ≠ xt1.addr i' := fun i h i' h' e =>
    hd2 _ (Vec.cell_addr (show i < xp.dim by omega)) (by rw [e]; exact Vec.cell_addr (by omega))
  refine ⟨_, rfl, fun i hi' => ?_, fun i hi' => ?_, fun c hc => ?_, fun i hi' => ?_⟩
  · rw [Mem.upd_ne (hpt i (by omega) j hj)]
    by_cases e : xp.addr i = xp.addr j
    · rw [e, Mem.upd_same]; rfl
    · rw [Mem.upd_ne e]; exact v1 i hi'
  · by_cases e : xt1.addr i = xt1.addr j
    · rw [e, Mem.upd_same]; rfl
    · rw [Mem.upd_ne e, Mem.upd_ne (fun e => hpt j hj i (by omega) e.symm)]; exact v2 i hi'
  · have c1 : c ≠ xt1.addr j := fun e => hc (.inr (by rw [e]; exact Vec.cell_addr (by omega)))
    have c2 : c ≠ xp.addr j := fun e => hc (.inl (by rw [e]; exact Vec.cell_addr (by omega)))
    rw [Mem.upd_ne c1, Mem.upd_ne c2]
    exact hf c hc
  · unfold Vec.val
    rw [Mem.upd_ne (hpt i (by omega) j hj)]
    by_cases e : i = j
    · subst e
      rw [Mem.upd_same, Mem.upd_same]; exact ⟨rfl, rfl⟩
    · rw [Mem.upd_ne (fun h => e (Vec.addr_inj h)), Mem.upd_ne (fun h => e (Vec.addr_inj h)),
        Mem.upd_ne (fun e => hpt j hj i (by omega) e.symm)]
      exact he i (by omega)

/-- what `forward_notransfer` achieves -/
def FwdPostV (s : VSt K) (cb : CBas G) (X : Nat → K) (xt xp : Vec) (s' : VSt K) : Prop :=
  s'.act = s.act + cbLeaves cb ∧ xt.Valid s'.mem ∧ xp.Valid s'.mem ∧
  Frame (fun c => xt.Cell c ∨ xp.Cell c) s.mem s'.mem ∧
  (∀ i < xp.dim, xp.val s'.mem i = X (cb.t.cl.off + i)) ∧ IsCoeffsV s.mem cb X (xt.val s'.mem)

theorem pos_in_son {t : CRef G} {n : Nat} {R : Fin n → CRef G} (g1 : Segments t R) {p : Nat} (hp : p < t.cl.size) :
    ∃ j, In (R j) (t.cl.off + p) := by
  by_contra hno
  push Not at hno
  have := sum_segments g1 (fun r => if r = t.cl.off + p then (1 : Nat) else 0)
  rw [Finset.sum_eq_zero (s := Finset.univ)] at this
  · rw [Finset.sum_eq_zero_iff] at this
    have := this p (Finset.mem_range.mpr (by omega))
    simp at this
  · intro j _
    refine Finset.sum_eq_zero fun i hi => if_neg fun e => hno j ?_
    rw [← e]
    exact In.add (Finset.mem_range.mp hi)

theorem forwardNotransferRec_tot {idx : Arr Nat} : ∀ {cb : CBas G} {x xt xp : Vec} {s : VSt K}, CbLay cb →
    CbFull s.mem cb → Disj (CbVCell cb) xt.Cell → Disj (CbVCell cb) xp.Cell → x.Valid s.mem → Disj x.Cell xt.Cell →
    Disj x.Cell xp.Cell → Disj xp.Cell xt.Cell → xt.Valid s.mem → xp.Valid s.mem → xt.dim = cb.ktree →
    xp.dim = cb.size → IdxOk idx cb.t x.dim →
    Tot (forwardNotransferRec idx cb x xt xp s) (FwdPostV s cb (fun r => x.val s.mem (idx.v r)) xt xp) := by
  intro cb
  induction cb with
  | mk t k kt kb V E n son ih =>
    rintro x xt xp ⟨m, a⟩ ho hv hd hdp hx hxt hxp hpt hxv hpv hdim hpd hidx
    replace hdim : xt.dim = kt := hdim
    replace hpd : xp.dim = t.cl.size := hpd
    replace hidx : IdxOk idx t x.dim := hidx
    have hk : k ≤ kt := CbLay.k_le ho
    simp only at hv hx hxv hpv ⊢
    obtain ⟨xc, exc⟩ : ∃ xc, initSubVec xt k 0 = .ok xc := ⟨_, initSubVec_ok.mpr ⟨by omega, rfl⟩⟩
    unfold forwardNotransferRec
    refine Tot.cassert (by simpa using hpd) ?_
    refine Tot.cassert (by simpa using hdim) ?_
    rw [openSub_eq exc, ok_bind]
    simp only
    refine Tot.bind (run_tot (clearVec_tot (sub_valid exc hxv))) fun s1 _ h1 => ?_
    obtain ⟨m1, a1⟩ := s1
    obtain ⟨ha1, hc1⟩ := h1
    simp only at ha1 hc1
    subst ha1
    have hf1 : Frame xt.Cell m m1 := sub_frame exc hc1.2.2
    have hv1 : xt.Valid m1 := sub_revalid exc hxv hc1.1 hc1.2.2
    have hp1 : xp.Valid m1 := Rk.frame_vvalid hf1 hpt hpv
    have hz1 : ∀ l < k, xt.val m1 l = 0 := fun l hl => by
      have := hc1.2.1 l (by rw [sub_dim exc]; exact hl)
      rw [sub_val exc] at this; simpa using this
    have hf1' : Frame (fun c => xt.Cell c ∨ xp.Cell c) m m1 := hf1.mono fun c h => .inl h
    have dx : Disj x.Cell (fun c => xt.Cell c ∨ xp.Cell c) := fun c h h' => h'.elim (hxt c h) (hxp c h)
    have dV : Disj (CbVCell (.mk t k kt kb V E n son)) (fun c => xt.Cell c ∨ xp.Cell c) :=
      fun c h h' => h'.elim (hd c h) (hdp c h)
    obtain ⟨o1, o2, o3⟩ := ho
    obtain ⟨w1, w2, w3, w4⟩ := hv
    refine Tot.bind (P := fun (s' : VSt K) => s'.act = a + 1 + cbLeaves (.mk t k kt kb V E n son) ∧ xt.Valid s'.mem ∧
        xp.Valid s'.mem ∧ Frame (fun c => xt.Cell c ∨ xp.Cell c) m s'.mem ∧ (∀ l < k, xt.val s'.mem l = 0) ∧
        (∀ i < t.cl.size, xp.val s'.mem i = x.val m (idx.v (t.cl.off + i))) ∧
        (n = 0 → ∀ i < t.cl.size, xt.val s'.mem (k + i) = x.val m (idx.v (t.cl.off + i))) ∧
        ∀ i, IsCoeffsV m (son i) (fun r => x.val m (idx.v r))
          (fun q => xt.val s'.mem (k + ofs (fun i => (son i).ktree) i + q))) ?_ ?_
    · by_cases h0 : n = 0
      · subst h0
        rw [if_neg (lt_irrefl _)]
        have e3 := o1 rfl
        obtain ⟨x1, ex1⟩ : ∃ x1, initSubVec xt t.cl.size k = .ok x1 := ⟨_, initSubVec_ok.mpr ⟨by omega, rfl⟩⟩
        rw [openSub_eq ex1, ok_bind]
        simp only
        refine (run_tot (pick2_tot hidx (Rk.frame_vvalid hf1 hxt hx) hp1 (sub_valid ex1 hv1) hxp
          (fun c h1 h2 => hxt c h1 (sub_cell ex1 h2)) (fun c h1 h2 => hpt c h1 (sub_cell ex1 h2)) hpd
          (sub_dim ex1))).mono ?_
        rintro ⟨m2, a2⟩ ⟨ha2, q1, q2, q3, q4⟩
        simp only at ha2 q1 q2 q3 q4
        subst ha2
        have hf2 : Frame (fun c => xt.Cell c ∨ xp.Cell c) m1 m2 := q3.mono fun c h => h.elim .inr fun h => .inl (sub_cell ex1 h)
        have vx : ∀ i < t.cl.size, x.val m1 (idx.v (t.cl.off + i)) = x.val m (idx.v (t.cl.off + i)) := fun i hi =>
          Rk.frame_vval hf1 hxt (hidx.2 _ (In.add hi))
        refine ⟨?_, ?_, q1, hf1'.trans hf2, ?_, ?_, ?_, fun i => i.elim0⟩
        · simp [cbLeaves]
        · intro i hi
          by_cases hc : x1.Cell (xt.addr i)
          · obtain ⟨z, hz, e⟩ := hc
            simp only; rw [e]; exact q2 z hz
          · simp only
            rw [q3 _ (fun h => h.elim (fun h => hpt _ h (Vec.cell_addr hi)) hc)]; exact hv1 i hi
        · intro l hl
          rw [← hz1 l hl]
          unfold Vec.val
          simp only
          rw [q3]
          rintro (h | h)
          · exact hpt _ h (Vec.cell_addr (by omega))
          · obtain ⟨e5, e6⟩ := initSubVec_ok.mp ex1
            subst e6
            obtain ⟨z, hz, e⟩ := h
            simp only [Vec.addr] at e
            omega
        · intro i hi; simp only; rw [(q4 i hi).1, vx i hi]
        · intro _ i hi; simp only; rw [← sub_val ex1, (q4 i hi).2, vx i hi]
      · have hn : 0 < n := by omega
        obtain ⟨g1, g2⟩ := o2 hn
        rw [if_pos hn]
        refine Tot.bind (foldFinM_tot (fun j (st : VSt K × Nat × Nat) =>
          st.1.act = a + 1 + pre (fun i => cbLeaves (son i)) j ∧
          st.2.1 = k + pre (fun i => (son i).ktree) j ∧ st.2.2 = pre (fun i => (son i).t.cl.size) j ∧
          xt.Valid st.1.mem ∧ xp.Valid st.1.mem ∧ Frame (fun c => xt.Cell c ∨ xp.Cell c) m st.1.mem ∧
          (∀ l < k, xt.val st.1.mem l = 0) ∧
          (∀ i : Fin n, i.1 < j → ∀ p < t.cl.size, In (son i).t (t.cl.off + p) →
            xp.val st.1.mem p = x.val m (idx.v (t.cl.off + p))) ∧
          ∀ i : Fin n, i.1 < j → IsCoeffsV m (son i) (fun r => x.val m (idx.v r))
            (fun q => xt.val st.1.mem (k + ofs (fun i => (son i).ktree) i + q))) ?_ ?_) ?_
        · exact ⟨by simp [pre_zero], by simp [pre_zero], by simp [pre_zero], hv1, hp1, hf1', hz1,
            fun i hi => absurd hi (Nat.not_lt_zero _), fun i hi => absurd hi (Nat.not_lt_zero _)⟩
        · rintro i ⟨⟨m2, a2⟩, o, o'⟩ ⟨ha2, ho2, ho2', hv2, hp2, hf2, hq2, hx2, hc2⟩
          simp only at ha2 ho2 ho2' hv2 hp2 hf2 hq2 hx2 hc2
          subst ha2 ho2 ho2'
          have hle := segs_le (fun i => (son i).ktree) i
          obtain ⟨b1, b2⟩ := HMat.Segments.bounds g1 i
          rw [← ofs_eq (fun i => (son i).ktree)]
          obtain ⟨x1, ex1⟩ : ∃ x1, initSubVec xt (son i).ktree (k + ofs (fun i => (son i).ktree) i) = .ok x1 :=
            ⟨_, initSubVec_ok.mpr ⟨by omega, rfl⟩⟩
          obtain ⟨p1, ep1⟩ : ∃ p1, initSubVec xp (son i).size (pre (fun i => (son i).t.cl.size) i.1) = .ok p1 :=
            ⟨_, initSubVec_ok.mpr ⟨by have : (son i).size = (son i).t.cl.size := rfl
                                      omega, rfl⟩⟩
          simp only
          rw [openSub_eq ex1, ok_bind]
          simp only
          rw [openSub_eq ep1, ok_bind]
          simp only
          have dS : Disj (CbVCell (son i)) (fun c => xt.Cell c ∨ xp.Cell c) := fun c h => dV c (.inr ⟨i, h⟩)
          refine Tot.bind (ih i (x := x) (xt := x1) (xp := p1) (s := ⟨m2, _⟩) (o3 i) (full_frame hf2 (w4 i) dS)
            (fun c h1 h2 => dS c h1 (.inl (sub_cell ex1 h2))) (fun c h1 h2 => dS c h1 (.inr (sub_cell ep1 h2)))
            (Rk.frame_vvalid hf2 dx hx) (fun c h1 h2 => hxt c h1 (sub_cell ex1 h2))
            (fun c h1 h2 => hxp c h1 (sub_cell ep1 h2)) (fun c h1 h2 => hpt c (sub_cell ep1 h1) (sub_cell ex1 h2))
            (sub_valid ex1 hv2) (sub_valid ep1 hp2) (sub_dim ex1) (sub_dim ep1) (IdxOk.son hidx g1 i))
            fun s3 _ h3 => ?_
          obtain ⟨m3, a3⟩ := s3
          obtain ⟨ha3, hv3, hp3, hf3, hx3, hc3⟩ := h3
          simp only at ha3 hv3 hp3 hf3 hx3 hc3
          subst ha3
          have hf3' : Frame (fun c => xt.Cell c ∨ xp.Cell c) m m3 :=
            hf2.trans (hf3.mono fun c h => h.imp (sub_cell ex1) (sub_cell ep1))
          rw [show a + 1 + pre (fun i => cbLeaves (son i)) i.1 + 1 + 1 + cbLeaves (son i) =
            (a + 1 + pre (fun i => cbLeaves (son i)) i.1 + cbLeaves (son i) + 1) + 1 by omega, uninit_eq, ok_bind,
            uninit_eq, ok_bind]
          have keepx : ∀ q < xt.dim, ¬ (k + ofs (fun i => (son i).ktree) i ≤ q ∧
              q < k + ofs (fun i => (son i).ktree) i + (son i).ktree) → m3 (xt.addr q) = m2 (xt.addr q) := by
            intro q hq hn'
            rw [hf3]
            rintro (h | h)
            · obtain ⟨e5, e6⟩ := initSubVec_ok.mp ex1
              subst e6
              obtain ⟨z, hz, e⟩ := h
              have hz : z < (son i).ktree := hz
              simp only [Vec.addr] at e
              omega
            · exact hpt _ (sub_cell ep1 h) (Vec.cell_addr hq)
          have keepp : ∀ q < xp.dim, ¬ In (son i).t (t.cl.off + q) → m3 (xp.addr q) = m2 (xp.addr q) := by
            intro q hq hn'
            rw [hf3]
            rintro (h | h)
            · exact hpt _ (Vec.cell_addr hq) (sub_cell ex1 h)
            · obtain ⟨e5, e6⟩ := initSubVec_ok.mp ep1
              subst e6
              obtain ⟨z, hz, e⟩ := h
              have hz : z < (son i).t.cl.size := hz
              simp only [Vec.addr] at e
              apply hn'
              unfold In
              omega
          refine Tot.pure ⟨?_, ?_, ?_, ?_, ?_, hf3', ?_, ?_, ?_⟩
          · simp only
            rw [pre_succ]; omega
          · simp only
            rw [pre_succ, ofs_eq, Nat.add_assoc]
          · simp only
            rw [pre_succ]; rfl
          · intro q hq
            simp only
            by_cases hc : x1.Cell (xt.addr q)
            · obtain ⟨z, hz, e⟩ := hc
              rw [e]; exact hv3 z hz
            · rw [hf3 _ (fun h => h.elim hc fun h => hpt _ (sub_cell ep1 h) (Vec.cell_addr hq))]
              exact hv2 q hq
          · intro q hq
            simp only
            by_cases hc : p1.Cell (xp.addr q)
            · obtain ⟨z, hz, e⟩ := hc
              rw [e]; exact hp3 z hz
            · rw [hf3 _ (fun h => h.elim (fun h => hpt _ (Vec.cell_addr hq) (sub_cell ex1 h)) hc)]
              exact hp2 q hq
          · intro l hl
            simp only
            rw [← hq2 l hl]
            unfold Vec.val
            rw [keepx l (by omega) (by omega)]
          · intro j hj p hp hin
            simp only at hj ⊢
            by_cases e : j = i
            · subst e
              have hin' := hin
              unfold In at hin'
              have := hx3 (t.cl.off + p - (son j).t.cl.off) (by
                rw [sub_dim ep1]; have : (son j).size = (son j).t.cl.size := rfl
                omega)
              rw [sub_val ep1, show pre (fun i => (son i).t.cl.size) j.1 +
                (t.cl.off + p - (son j).t.cl.off) = p by omega,
                show (son j).t.cl.off + (t.cl.off + p - (son j).t.cl.off) = t.cl.off + p by omega] at this
              rw [this]
              exact Rk.frame_vval hf2 dx (hidx.2 _ (In.add hp))
            · rw [← hx2 j (by have : j.1 ≠ i.1 := fun h => e (Fin.ext h); omega) p hp hin]
              unfold Vec.val
              rw [keepp p (by omega) fun h => e (In.unique g1 hin h)]
          · intro j hj
            simp only at hj ⊢
            by_cases e : j = i
            · subst e
              refine isCoeffsV_y (o3 j) (fun r hr => ?_) (fun q hq => ?_)
                ((isCoeffsV_frame hf2 (w4 j) dS).mp hc3)
              · exact (Rk.frame_vval hf2 dx (hidx.2 _ (In.son g1 hr))).symm
              · rw [sub_val ex1]
            · have hji : j.1 < i.1 := by have : j.1 ≠ i.1 := fun h => e (Fin.ext h); omega
              refine isCoeffsV_y (o3 j) (fun r hr => rfl) (fun q hq => ?_) (hc2 j hji)
              have := ofs_mono (fun i => (son i).ktree) hji
              unfold Vec.val
              rw [keepx _ (by omega) (by omega)]
        · rintro ⟨⟨m2, a2⟩, o, o'⟩ - ⟨ha2, ho2, ho2', hv2, hp2, hf2, hq2, hx2, hc2⟩
          simp only at ha2 ho2 ho2' hv2 hp2 hf2 hq2 hx2 hc2 ⊢
          refine Tot.cassert (by rw [ho2, pre_all]; simp [g2]) ?_
          refine Tot.cassert (by rw [ho2', pre_all]; simpa using g1.2) ?_
          refine Tot.pure ⟨?_, hv2, hp2, hf2, hq2, fun p hp => ?_, fun h => absurd h h0, fun i => hc2 i i.2⟩
          · rw [ha2, pre_all]; simp [cbLeaves, h0]
          · obtain ⟨j, hj⟩ := pos_in_son g1 hp
            exact hx2 j j.2 p hp hj
    · rintro ⟨m2, a2⟩ - ⟨ha, p1, p2, p3, p4, p5, p6, p7⟩
      simp only at ha p1 p2 p3 p4 p5 p6 p7
      subst ha
      refine Tot.bind (run_tot (addevaltrans_tot (Rk.frame_valid p3 (fun c h => dV c (.inl h)) w3) p2 (sub_valid exc p1)
        (fun c h1 h2 => hd c (.inl h1) (sub_cell exc h2)) (fun c h1 h2 => hpt c h1 (sub_cell exc h2))
        (by omega) (by rw [sub_dim exc]; omega) 1)) fun s3 _ h3 => ?_
      obtain ⟨m3, a3⟩ := s3
      obtain ⟨ha3, hc3⟩ := h3
      simp only at ha3 hc3
      subst ha3
      rw [show a + 1 + cbLeaves (.mk t k kt kb V E n son) = a + cbLeaves (.mk t k kt kb V E n son) + 1 by omega, uninit_eq]
      have hfc : Frame xt.Cell m2 m3 := sub_frame exc hc3.2.2
      refine ⟨_, rfl, rfl, sub_revalid exc p1 hc3.1 hc3.2.2, Rk.frame_vvalid hfc hpt p2,
        p3.trans (hfc.mono fun c h => .inl h), fun i hi => ?_, fun l hl => ?_, fun h0 i hi => ?_, fun i => ?_⟩
      · simp only
        rw [Rk.frame_vval hfc hpt hi, p5 i (by omega)]; rfl
      · have := hc3.2.1 l (by rw [sub_dim exc]; exact hl)
        simp only at this ⊢
        rw [sub_val exc, sub_val exc, zero_add, p4 l hl, zero_add, if_pos (by omega), one_mul, w1] at this
        rw [this]
        refine Finset.sum_congr rfl fun i hi => ?_
        have hi' := Finset.mem_range.mp hi
        rw [p5 i hi', Rk.frame_val p3 (fun c h => dV c (.inl h)) (by omega) (by omega)]
      · simp only
        rw [sub_keep exc hc3.2.2 (by omega), p6 h0 i hi]
      · refine isCoeffsV_y (o3 i) (fun _ _ => rfl) (fun q hq => ?_) (p7 i)
        simp only
        rw [sub_keep exc hc3.2.2 (by omega)]

end CBas
end H2
