import Verif.Proof.ClusterBasis4

/-! Transformations with a matrix in every cluster, continued. -/

set_option linter.unusedSectionVars false

namespace H2
open Spec Dense

/-! ### temporary vectors -/
section
variable {K : Type _}

theorem alloc_frame (m : Mem K) (p n : Nat) (junk : Nat → K) : Frame (Vec.Cell ⟨p, n⟩) m (m.alloc p n junk) := by
  intro c hc
  rw [HMat.vcell_iff] at hc
  unfold Mem.alloc
  exact if_neg hc

theorem fresh_none {m : Mem K} {p n : Nat} (h : Fresh m p n) {c : Nat} (hc : Vec.Cell ⟨p, n⟩ c) : m c = none := by
  rw [HMat.vcell_iff] at hc; exact h c hc.1 hc.2

theorem free_frame {A : Nat → Prop} {m m1 m2 : Mem K} {p n : Nat} (h : Fresh m p n) (h1 : Frame (Vec.Cell ⟨p, n⟩) m m1)
    (h2 : Frame (fun c => A c ∨ Vec.Cell ⟨p, n⟩ c) m1 m2) : Frame A m (m2.free p n) := by
  intro c hc
  by_cases hp : Vec.Cell ⟨p, n⟩ c
  · rw [fresh_none h hp]
    rw [HMat.vcell_iff] at hp
    unfold Mem.free; exact if_pos hp
  · have e : m2.free p n c = m2 c := by
      rw [HMat.vcell_iff] at hp
      unfold Mem.free; exact if_neg hp
    rw [e, h2 c (fun h => h.elim hc hp), h1 c hp]

theorem free_eq {m2 : Mem K} {p n c : Nat} (hc : ¬ Vec.Cell ⟨p, n⟩ c) : m2.free p n c = m2 c := by
  rw [HMat.vcell_iff] at hc
  unfold Mem.free; exact if_neg hc

theorem fresh_vdisj {m : Mem K} {p n : Nat} (h : Fresh m p n) {v : Vec} (hv : v.Valid m) :
    Disj v.Cell (Vec.Cell ⟨p, n⟩) := by
  rintro c ⟨i, hi, rfl⟩ hc
  have := hv i hi
  rw [fresh_none h hc] at this
  exact absurd this (by simp)

theorem fresh_mdisj {m : Mem K} {p n : Nat} (h : Fresh m p n) {a : Mat} (ha : a.Valid m) :
    Disj a.Cell (Vec.Cell ⟨p, n⟩) := by
  rintro c ⟨i, hi, j, hj, rfl⟩ hc
  have := ha.2 i hi j hj
  rw [fresh_none h hc] at this
  exact absurd this (by simp)
end

namespace CBas
open VSt
variable {G : Type _} {K : Type _} [Field K] [StarRing K]

theorem fresh_cbdisj {m : Mem K} {p n : Nat} (h : Fresh m p n) : ∀ {cb : CBas G}, CbFull m cb →
    Disj (CbVCell cb) (Vec.Cell ⟨p, n⟩) := by
  intro cb
  induction cb with
  | mk t k kt kb V E ns son ih =>
    rintro ⟨h1, h2, h3, h4⟩ c (hc | ⟨i, hc⟩)
    · exact fresh_mdisj h h3 c hc
    · exact ih i (h4 i) c hc

theorem forwardNotransfer_tot {idx : Arr Nat} {p : Nat} {junk : Nat → K} {cb : CBas G} {x xt : Vec} {s : VSt K}
    (ho : CbLay cb) (hv : CbFull s.mem cb) (hd : Disj (CbVCell cb) xt.Cell) (hx : x.Valid s.mem)
    (hxt : Disj x.Cell xt.Cell) (hxv : xt.Valid s.mem) (hdim : xt.dim = cb.ktree) (hidx : IdxOk idx cb.t x.dim)
    (hf : Fresh s.mem p cb.size) :
    Tot (forwardNotransfer idx p junk cb x xt s) fun s' => s'.act = s.act + cbLeaves cb ∧ xt.Valid s'.mem ∧
      Frame xt.Cell s.mem s'.mem ∧ IsCoeffsV s.mem cb (fun r => x.val s.mem (idx.v r)) (xt.val s'.mem) := by
  obtain ⟨m, a⟩ := s
  simp only at hv hx hxv hf ⊢
  unfold forwardNotransfer openNew
  simp only
  have f1 := alloc_frame m p cb.size junk
  have dx := fresh_vdisj hf hx
  have dt := fresh_vdisj hf hxv
  have dc := fresh_cbdisj hf hv
  refine Tot.bind (forwardNotransferRec_tot (idx := idx) (cb := cb) (x := x) (xt := xt) (xp := ⟨p, cb.size⟩)
    (s := ⟨m.alloc p cb.size junk, a + 1⟩) ho (full_frame f1 hv dc) hd dc (Rk.frame_vvalid f1 dx hx) hxt dx
    (fun c h1 h2 => dt c h2 h1) (Rk.frame_vvalid f1 dt hxv) HMat.alloc_vvalid hdim rfl hidx) ?_
  rintro ⟨m2, a2⟩ - ⟨q1, q2, q3, q4, q5, q6⟩
  simp only at q1 q2 q3 q4 q5 q6
  unfold uninitOwner
  refine Tot.cassert (by simp [q1]) (Tot.pure ⟨?_, ?_, free_frame hf f1 q4, ?_⟩)
  · simp only [q1]; omega
  · intro i hi
    simp only
    rw [free_eq (dt _ (Vec.cell_addr hi))]
    exact q2 i hi
  · refine isCoeffsV_y ho (fun r hr => ?_) (fun q hq => ?_) ((isCoeffsV_frame f1 hv dc).mp q6)
    · exact (Rk.frame_vval f1 dx (hidx.2 r hr)).symm
    · unfold Vec.val
      simp only
      rw [free_eq (dt _ (Vec.cell_addr (by omega)))]

theorem putback2_tot {idx : Arr Nat} {t : CRef G} {y yp yt1 : Vec} {m : Mem K} (hi : IdxOk idx t y.dim) (hy : y.Valid m)
    (hp : yp.Valid m) (ht : yt1.Valid m) (hd : Disj yp.Cell y.Cell) (hd1 : Disj yt1.Cell y.Cell)
    (hdim : yp.dim = t.cl.size) (hdim1 : yt1.dim = t.cl.size) :
    Tot (putback2 idx t y yp yt1 m)
      (VAdd y m (addAt idx t (fun r => yp.val m (r - t.cl.off) + yt1.val m (r - t.cl.off)))) := by
  unfold putback2
  refine (forUp_tot (fun j m' => VAdd y m (fun p => ∑ i ∈ Finset.range j,
    if idx.v (t.cl.off + i) = p then yp.val m i + yt1.val m i else 0) m') (Nat.zero_le _)
    ((VAdd.refl hy).congr fun i _ => by simp) ?_).mono fun m' h => h.congr fun p _ => ?_
  · intro j m' _ hj h
    have hip := hi.2 _ (In.add hj)
    rw [Arr.get_ok (by have := hi.1; omega), ok_bind, cassert_true (by simpa using hip), ok_bind]
    have hr : m'.read (yp.addr j) = .ok (yp.val m j) := by
      apply Mem.read_ok
      rw [h.2.2 _ (hd _ (Vec.cell_addr (by omega)))]
      exact hp.some (by omega)
    have hr1 : m'.read (yt1.addr j) = .ok (yt1.val m j) := by
      apply Mem.read_ok
      rw [h.2.2 _ (hd1 _ (Vec.cell_addr (by omega)))]
      exact ht.some (by omega)
    rw [hr, ok_bind, hr1, ok_bind]
    refine (incr_val h.1 hip _).mono fun m'' h' => (h.trans h').congr fun p _ => ?_
    rw [Finset.sum_range_succ]
  · unfold addAt
    refine Finset.sum_congr rfl fun i _ => ?_
    simp only [Nat.add_sub_cancel_left]

/-- what `backward_notransfer` achieves -/
def BwdPostV (idx : Arr Nat) (s : VSt K) (cb : CBas G) (yt y yp : Vec) (s' : VSt K) : Prop :=
  s'.act = s.act + cbLeaves cb ∧ y.Valid s'.mem ∧ yp.Valid s'.mem ∧ Frame (fun c => y.Cell c ∨ yp.Cell c) s.mem s'.mem ∧
  ∀ p < y.dim, y.val s'.mem p = y.val s.mem p +
    addAt idx cb.t (fun r => yp.val s.mem (r - cb.t.cl.off) + synthV s.mem cb (yt.val s.mem) r) p

theorem synthV_node {m : Mem K} {t : CRef G} {k kt kb : Nat} {V E : Mat} {n : Nat} {son : Fin n → CBas G}
    (g1 : Segments t (fun i => (son i).t)) (j : Fin n) {r : Nat} (hr : In (son j).t r) (Y : Nat → K) :
    synthV m (.mk t k kt kb V E n son) Y r = ∑ l ∈ Finset.range k, V.val m (r - t.cl.off) l * Y l +
      synthV m (son j) (fun q => Y (k + ofs (fun i => (son i).ktree) j + q)) r := by
  have hn : 0 < n := Nat.lt_of_le_of_lt (Nat.zero_le _) j.2
  rw [synthV, if_pos (In.son g1 hr), if_neg (by omega), add_zero]
  congr 1
  rw [Finset.sum_eq_single j]
  · intro i _ hi
    exact synthV_out fun h => hi (In.unique g1 h hr)
  · intro h; exact absurd (Finset.mem_univ _) h

theorem backwardNotransferRec_tot {idx : Arr Nat} : ∀ {cb : CBas G} {yt y yp : Vec} {s : VSt K}, CbLay cb →
    CbFull s.mem cb → Disj (CbVCell cb) y.Cell → Disj (CbVCell cb) yp.Cell → y.Valid s.mem → Disj yt.Cell y.Cell →
    Disj yp.Cell y.Cell → Disj yt.Cell yp.Cell → yt.Valid s.mem → yp.Valid s.mem → yt.dim = cb.ktree →
    yp.dim = cb.size → IdxOk idx cb.t y.dim →
    Tot (backwardNotransferRec idx cb yt y yp s) (BwdPostV idx s cb yt y yp) := by
  intro cb
  induction cb with
  | mk t k kt kb V E n son ih =>
    rintro yt y yp ⟨m, a⟩ ho hv hdy hdp hy hty hpy htp htv hpv hdim hpd hidx
    replace hdim : yt.dim = kt := hdim
    replace hpd : yp.dim = t.cl.size := hpd
    replace hidx : IdxOk idx t y.dim := hidx
    have hk : k ≤ kt := CbLay.k_le ho
    simp only at hv hy htv hpv ⊢
    obtain ⟨yc, eyc⟩ : ∃ yc, initSubVec yt k 0 = .ok yc := ⟨_, initSubVec_ok.mpr ⟨by omega, rfl⟩⟩
    unfold backwardNotransferRec
    refine Tot.cassert (by simpa using hpd) ?_
    refine Tot.cassert (by simpa using hdim) ?_
    rw [openSub_eq eyc, ok_bind]
    simp only
    obtain ⟨o1, o2, o3⟩ := ho
    obtain ⟨w1, w2, w3, w4⟩ := hv
    refine Tot.bind (run_tot (addeval_tot w3 (sub_valid eyc htv) hpv (fun c h => hdp c (.inl h))
      (fun c h1 h2 => htp c (sub_cell eyc h1) h2) (by rw [sub_dim eyc]; omega) (by omega) 1)) fun s1 _ h1 => ?_
    obtain ⟨m1, a1⟩ := s1
    obtain ⟨ha1, hc1⟩ := h1
    simp only at ha1 hc1
    subst ha1
    have hf1 : Frame yp.Cell m m1 := hc1.2.2
    have hf1' : Frame (fun c => y.Cell c ∨ yp.Cell c) m m1 := hf1.mono fun c h => .inr h
    have dyp : Disj y.Cell yp.Cell := fun c h1 h2 => hpy c h2 h1
    have hy1 : y.Valid m1 := Rk.frame_vvalid hf1 dyp hy
    have ht1 : yt.Valid m1 := Rk.frame_vvalid hf1 htp htv
    have dV : Disj (CbVCell (.mk t k kt kb V E n son)) (fun c => y.Cell c ∨ yp.Cell c) :=
      fun c h h' => h'.elim (hdy c h) (hdp c h)
    have dT : Disj yt.Cell (fun c => y.Cell c ∨ yp.Cell c) := fun c h h' => h'.elim (hty c h) (htp c h)
    have e1 : ∀ i < t.cl.size, yp.val m1 i = yp.val m i + ∑ l ∈ Finset.range k, V.val m i l * yt.val m l := by
      intro i hi
      have := hc1.2.1 i (by omega)
      simp only at this
      rw [this, if_pos (by omega), one_mul, w2]
      congr 1
      exact Finset.sum_congr rfl fun l _ => by rw [sub_val eyc, zero_add]
    refine Tot.bind (P := fun (s' : VSt K) => s'.act = a + 1 + cbLeaves (.mk t k kt kb V E n son) ∧ y.Valid s'.mem ∧
        yp.Valid s'.mem ∧ Frame (fun c => y.Cell c ∨ yp.Cell c) m s'.mem ∧ ∀ p < y.dim, y.val s'.mem p = y.val m p +
          addAt idx t (fun r => yp.val m (r - t.cl.off) + synthV m (.mk t k kt kb V E n son) (yt.val m) r) p) ?_ ?_
    · by_cases h0 : n = 0
      · subst h0
        rw [if_neg (lt_irrefl _)]
        have e3 := o1 rfl
        obtain ⟨y1, ey1⟩ : ∃ y1, initSubVec yt t.cl.size k = .ok y1 := ⟨_, initSubVec_ok.mpr ⟨by omega, rfl⟩⟩
        rw [openSub_eq ey1, ok_bind]
        simp only
        refine (run_tot (putback2_tot hidx hy1 hc1.1 (sub_valid ey1 ht1) hpy
          (fun c h1 h2 => hty c (sub_cell ey1 h1) h2) hpd (sub_dim ey1))).mono ?_
        rintro ⟨m2, a2⟩ ⟨ha2, q1, q2, q3⟩
        simp only at ha2 q1 q2 q3
        subst ha2
        refine ⟨by simp [cbLeaves], q1, Rk.frame_vvalid q3 hpy hc1.1, hf1'.trans (Frame.mono q3 fun c h => .inl h),
          fun p hp => ?_⟩
        simp only
        rw [q2 p hp, Rk.frame_vval hf1 dyp hp]
        congr 1
        unfold addAt
        refine Finset.sum_congr rfl fun i hi => if_congr Iff.rfl ?_ rfl
        have hi := Finset.mem_range.mp hi
        simp only
        rw [synthV, if_pos (In.add hi), if_pos rfl, Nat.add_sub_cancel_left, e1 i hi, sub_val ey1,
          Rk.frame_vval hf1 htp (by omega)]
        simp only [Finset.univ_eq_empty, Finset.sum_empty, add_zero]
        rw [add_assoc]
      · have hn : 0 < n := by omega
        obtain ⟨g1, g2⟩ := o2 hn
        rw [if_pos hn]
        refine Tot.bind (foldFinM_tot (fun j (st : VSt K × Nat × Nat) =>
          st.1.act = a + 1 + pre (fun i => cbLeaves (son i)) j ∧
          st.2.1 = k + pre (fun i => (son i).ktree) j ∧ st.2.2 = pre (fun i => (son i).t.cl.size) j ∧
          y.Valid st.1.mem ∧ yp.Valid st.1.mem ∧ Frame (fun c => y.Cell c ∨ yp.Cell c) m st.1.mem ∧
          (∀ i : Fin n, j ≤ i.1 → ∀ q < (son i).t.cl.size,
            yp.val st.1.mem (pre (fun i => (son i).t.cl.size) i.1 + q) =
              yp.val m1 (pre (fun i => (son i).t.cl.size) i.1 + q)) ∧
          ∀ p < y.dim, y.val st.1.mem p = y.val m p + pre (fun i => addAt idx (son i).t (fun r =>
            yp.val m1 (r - t.cl.off) +
            synthV m (son i) (fun q => yt.val m (k + ofs (fun i => (son i).ktree) i + q)) r) p) j) ?_ ?_) ?_
        · exact ⟨by simp [pre_zero], by simp [pre_zero], by simp [pre_zero], hy1, hc1.1, hf1', fun i _ q _ => rfl,
            fun p hp => by rw [pre_zero, add_zero]; exact Rk.frame_vval hf1 dyp hp⟩
        · rintro i ⟨⟨m2, a2⟩, o, o'⟩ ⟨ha2, ho2, ho2', hv2, hp2, hf2, hx2, hr2⟩
          simp only at ha2 ho2 ho2' hv2 hp2 hf2 hx2 hr2
          subst ha2 ho2 ho2'
          have hle := segs_le (fun i => (son i).ktree) i
          obtain ⟨b1, b2⟩ := HMat.Segments.bounds g1 i
          rw [← ofs_eq (fun i => (son i).ktree)]
          have hsz : (son i).size = (son i).t.cl.size := rfl
          obtain ⟨y1, ey1⟩ : ∃ y1, initSubVec yt (son i).ktree (k + ofs (fun i => (son i).ktree) i) = .ok y1 :=
            ⟨_, initSubVec_ok.mpr ⟨by omega, rfl⟩⟩
          obtain ⟨p1, ep1⟩ : ∃ p1, initSubVec yp (son i).size (pre (fun i => (son i).t.cl.size) i.1) = .ok p1 :=
            ⟨_, initSubVec_ok.mpr ⟨by omega, rfl⟩⟩
          simp only
          rw [openSub_eq ey1, ok_bind]
          simp only
          rw [openSub_eq ep1, ok_bind]
          simp only
          have dS : Disj (CbVCell (son i)) (fun c => y.Cell c ∨ yp.Cell c) := fun c h => dV c (.inr ⟨i, h⟩)
          refine Tot.bind (ih i (yt := y1) (y := y) (yp := p1) (s := ⟨m2, _⟩) (o3 i) (full_frame hf2 (w4 i) dS)
            (fun c h1 h2 => dS c h1 (.inl h2)) (fun c h1 h2 => dS c h1 (.inr (sub_cell ep1 h2))) hv2
            (fun c h1 h2 => hty c (sub_cell ey1 h1) h2) (fun c h1 h2 => hpy c (sub_cell ep1 h1) h2)
            (fun c h1 h2 => htp c (sub_cell ey1 h1) (sub_cell ep1 h2))
            (sub_valid ey1 (Rk.frame_vvalid hf2 dT htv)) (sub_valid ep1 hp2) (sub_dim ey1) (sub_dim ep1)
            (IdxOk.son hidx g1 i)) fun s3 _ h3 => ?_
          obtain ⟨m3, a3⟩ := s3
          obtain ⟨ha3, hv3, hp3, hf3, hr3⟩ := h3
          simp only at ha3 hv3 hp3 hf3 hr3
          subst ha3
          rw [show a + 1 + pre (fun i => cbLeaves (son i)) i.1 + 1 + 1 + cbLeaves (son i) =
            (a + 1 + pre (fun i => cbLeaves (son i)) i.1 + cbLeaves (son i) + 1) + 1 by omega, uninit_eq, ok_bind,
            uninit_eq, ok_bind]
          refine Tot.pure ⟨?_, ?_, ?_, hv3, ?_, hf2.trans (hf3.mono fun c h => h.imp id (sub_cell ep1)), ?_, ?_⟩
          · simp only
            rw [pre_succ]; omega
          · simp only
            rw [pre_succ, ofs_eq, Nat.add_assoc]
          · simp only
            rw [pre_succ]; rfl
          · intro q hq
            simp only
            by_cases hc : p1.Cell (yp.addr q)
            · obtain ⟨z, hz, e⟩ := hc
              rw [e]; exact hp3 z hz
            · rw [hf3 _ (fun h => h.elim (fun h => hpy _ (Vec.cell_addr hq) h) hc)]
              exact hp2 q hq
          · intro j hj q hq
            have hm := ofs_mono (fun i => (son i).t.cl.size) (a := i) (b := j) (by omega)
            rw [ofs_eq, ofs_eq] at hm
            obtain ⟨c1, c2⟩ := HMat.Segments.bounds g1 j
            simp only
            rw [← hx2 j (by omega) q hq]
            unfold Vec.val
            rw [hf3]
            rintro (h | h)
            · exact hpy _ (Vec.cell_addr (by omega)) h
            · obtain ⟨e5, e6⟩ := initSubVec_ok.mp ep1
              subst e6
              obtain ⟨z, hz, e⟩ := h
              have hz : z < (son i).t.cl.size := hz
              simp only [Vec.addr] at e
              omega
          · intro p hp
            simp only
            rw [hr3 p hp, hr2 p hp, pre_succ, add_assoc]
            congr 2
            unfold addAt
            refine Finset.sum_congr rfl fun x hx => if_congr Iff.rfl ?_ rfl
            have hx := Finset.mem_range.mp hx
            simp only
            congr 1
            · rw [sub_val ep1, Nat.add_sub_cancel_left, hx2 i le_rfl x hx]
              congr 1; omega
            · rw [synthV_frame hf2 (w4 i) dS]
              refine synthV_y (o3 i) (fun q hq => ?_) _
              rw [sub_val ey1, Rk.frame_vval hf2 dT (by omega)]
        · rintro ⟨⟨m2, a2⟩, o, o'⟩ - ⟨ha2, ho2, ho2', hv2, hp2, hf2, hx2, hr2⟩
          simp only at ha2 ho2 ho2' hv2 hp2 hf2 hx2 hr2 ⊢
          refine Tot.cassert (by rw [ho2, pre_all]; simp [g2]) ?_
          refine Tot.cassert (by rw [ho2', pre_all]; simpa using g1.2) ?_
          refine Tot.pure ⟨?_, hv2, hp2, hf2, fun p hp => ?_⟩
          · rw [ha2, pre_all]; simp [cbLeaves, h0]
          · rw [hr2 p hp, pre_all]
            congr 1
            unfold addAt
            rw [sum_segments g1 (fun r => if idx.v r = p then yp.val m (r - t.cl.off) +
              synthV m (.mk t k kt kb V E n son) (yt.val m) r else 0)]
            refine Finset.sum_congr rfl fun j _ => Finset.sum_congr rfl fun x hx => if_congr Iff.rfl ?_ rfl
            have hin := In.add (Finset.mem_range.mp hx)
            have hin' := In.son g1 hin
            simp only
            rw [synthV_node g1 j hin, e1 _ (by unfold In at hin'; omega), add_assoc]
    · rintro ⟨m2, a2⟩ - ⟨ha, p1, p2, p3, p4⟩
      simp only at ha p1 p2 p3 p4
      subst ha
      rw [show a + 1 + cbLeaves (.mk t k kt kb V E n son) = a + cbLeaves (.mk t k kt kb V E n son) + 1 by omega, uninit_eq]
      exact ⟨_, rfl, rfl, p1, p2, p3, p4⟩

theorem backwardNotransfer_tot {idx : Arr Nat} {p : Nat} {junk : Nat → K} {cb : CBas G} {yt y : Vec} {s : VSt K}
    (ho : CbLay cb) (hv : CbFull s.mem cb) (hd : Disj (CbVCell cb) y.Cell) (hy : y.Valid s.mem)
    (hty : Disj yt.Cell y.Cell) (htv : yt.Valid s.mem) (hdim : yt.dim = cb.ktree) (hidx : IdxOk idx cb.t y.dim)
    (hf : Fresh s.mem p cb.size) :
    Tot (backwardNotransfer idx p junk cb yt y s) fun s' => s'.act = s.act + cbLeaves cb ∧
      VecBecomes y s.mem (fun q => y.val s.mem q + addAt idx cb.t (synthV s.mem cb (yt.val s.mem)) q) s'.mem := by
  obtain ⟨m, a⟩ := s
  simp only at hv hy htv hf ⊢
  unfold backwardNotransfer openNew
  simp only
  have f1 := alloc_frame m p cb.size junk
  have dx := fresh_vdisj hf hy
  have dt := fresh_vdisj hf htv
  have dc := fresh_cbdisj hf hv
  refine Tot.bind (run_tot (clearVec_tot HMat.alloc_vvalid)) ?_
  rintro ⟨m1, a1⟩ - ⟨ha1, r1, r2, r3⟩
  simp only at ha1 r1 r2 r3
  subst ha1
  have f2 : Frame (Vec.Cell ⟨p, cb.size⟩) m m1 := f1.trans r3
  refine Tot.bind (backwardNotransferRec_tot (idx := idx) (cb := cb) (y := y) (yt := yt) (yp := ⟨p, cb.size⟩)
    (s := ⟨m1, a + 1⟩) ho (full_frame f2 hv dc) hd dc (Rk.frame_vvalid f2 dx hy) hty (fun c h1 h2 => dx c h2 h1)
    dt (Rk.frame_vvalid f2 dt htv) r1 hdim rfl hidx) ?_
  rintro ⟨m2, a2⟩ - ⟨q1, q2, q3, q4, q5⟩
  simp only at q1 q2 q3 q4 q5
  unfold uninitOwner
  refine Tot.cassert (by simp [q1]) (Tot.pure ⟨?_, ?_, ?_, free_frame hf f2 q4⟩)
  · simp only [q1]; omega
  · intro i hi
    simp only
    rw [free_eq (dx _ (Vec.cell_addr hi))]
    exact q2 i hi
  · intro i hi
    have : y.val (m2.free p cb.size) i = y.val m2 i := by
      unfold Vec.val
      rw [free_eq (dx _ (Vec.cell_addr hi))]
    simp only
    rw [this, q5 i hi, Rk.frame_vval f2 dx hi]
    congr 1
    unfold addAt
    refine Finset.sum_congr rfl fun j hj => if_congr Iff.rfl ?_ rfl
    have hj := Finset.mem_range.mp hj
    simp only
    rw [Nat.add_sub_cancel_left, r2 j hj, zero_add, synthV_frame f2 hv dc]
    exact synthV_y ho (fun q hq => Rk.frame_vval f2 dt (by omega)) _

end CBas
end H2
