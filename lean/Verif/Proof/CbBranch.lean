import Verif.Proof.ClusterBasis3
import Verif.Model.CbBranch
import Verif.Spec.CbBranch

/-! Multiplication by a single cluster basis matrix. -/

set_option linter.unusedSectionVars false

namespace H2
open Spec Dense

namespace CBas
open VSt
variable {G : Type} {K : Type} [Field K] [StarRing K]

theorem branch_k {cb : CBas G} (h : BranchOk cb) : cb.k ≤ cb.kbranch := by
  cases cb; exact h.1

theorem compress_tot : ∀ {cb : CBas G} {xp xt : Vec} {s : VSt K}, CbOk cb → BranchOk cb → CbValid s.mem cb →
    Disj (CbCell cb) xt.Cell → xp.Valid s.mem → Disj xp.Cell xt.Cell → xt.Valid s.mem → xt.dim = cb.kbranch →
    xp.dim = cb.size →
    Tot (compress cb xp xt s) fun s' => s'.act = s.act ∧ xt.Valid s'.mem ∧ Frame xt.Cell s.mem s'.mem ∧
      ∀ l < cb.k, xt.val s'.mem l = ∑ i ∈ Finset.range cb.size, star (basis s.mem cb (cb.t.cl.off + i) l) * xp.val s.mem i := by
  intro cb
  induction cb with
  | mk t k kt kb V E n son ih =>
    rintro xp xt ⟨m, a⟩ ho hbr hv hd hx hxt hxv hdim hpd
    replace hdim : xt.dim = kb := hdim
    replace hpd : xp.dim = t.cl.size := hpd
    have hk : k ≤ kb := hbr.1
    simp only at hv hx hxv ⊢
    obtain ⟨xc, exc⟩ : ∃ xc, initSubVec xt k 0 = .ok xc := ⟨_, initSubVec_ok.mpr ⟨by omega, rfl⟩⟩
    unfold compress
    refine Tot.cassert (by simpa using hdim) ?_
    rw [openSub_eq exc, ok_bind]
    simp only
    refine Tot.bind (run_tot (clearVec_tot (sub_valid exc hxv))) fun s1 _ h1 => ?_
    obtain ⟨m1, a1⟩ := s1
    obtain ⟨ha1, hc1⟩ := h1
    simp only at ha1 hc1
    subst ha1
    have hf1 : Frame xt.Cell m m1 := sub_frame exc hc1.2.2
    have hv1 : xt.Valid m1 := sub_revalid exc hxv hc1.1 hc1.2.2
    have hz1 : ∀ l < k, xt.val m1 l = 0 := fun l hl => by
      have := hc1.2.1 l (by rw [sub_dim exc]; exact hl)
      rw [sub_val exc] at this; simpa using this
    obtain ⟨o1, o2, o3⟩ := ho
    refine Tot.bind (P := fun (s' : VSt K) => s'.act = a + 1 ∧ xt.Valid s'.mem ∧ Frame xt.Cell m s'.mem ∧
        ∀ l < k, xt.val s'.mem l = ∑ i ∈ Finset.range t.cl.size,
          star (basis m (.mk t k kt kb V E n son) (t.cl.off + i) l) * xp.val m i) ?_ ?_
    · by_cases h0 : n = 0
      · subst h0
        obtain ⟨e1, e2, e3⟩ := o1 rfl
        rw [if_neg (lt_irrefl _)]
        have dV : Disj V.Cell xt.Cell := fun c hc => hd c (.inl ⟨rfl, hc⟩)
        refine (run_tot (addevaltrans_tot (Rk.frame_valid hf1 dV (hv.1 rfl)) (Rk.frame_vvalid hf1 hxt hx)
          (sub_valid exc hv1) (fun c h1 h2 => dV c h1 (sub_cell exc h2)) (fun c h1 h2 => hxt c h1 (sub_cell exc h2))
          (by omega) (by rw [sub_dim exc]; omega) 1)).mono fun s3 h3 => ?_
        obtain ⟨m3, a3⟩ := s3
        obtain ⟨ha3, hc3⟩ := h3
        simp only at ha3 hc3
        refine ⟨ha3, sub_revalid exc hv1 hc3.1 hc3.2.2, hf1.trans (sub_frame exc hc3.2.2), fun l hl => ?_⟩
        have := hc3.2.1 l (by rw [sub_dim exc]; exact hl)
        simp only at this ⊢
        rw [sub_val exc, sub_val exc, zero_add, if_pos (by omega), one_mul] at this
        rw [this, hz1 l hl, zero_add, e1]
        refine Finset.sum_congr rfl fun i hi => ?_
        have hi' := Finset.mem_range.mp hi
        rw [basis_leaf _ hi', Rk.frame_val hf1 dV (by omega) (by omega), Rk.frame_vval hf1 hxt (by omega)]
      · have hn : 0 < n := by omega
        obtain ⟨g1, g2⟩ := o2 hn
        rw [if_pos hn]
        refine Tot.bind (foldFinM_tot (fun j (st : VSt K × Nat) => st.1.act = a + 1 ∧
          st.2 = pre (fun i => (son i).t.cl.size) j ∧ xt.Valid st.1.mem ∧ Frame xt.Cell m st.1.mem ∧
          ∀ l < k, xt.val st.1.mem l = pre (fun i => ∑ r ∈ Finset.range (son i).t.cl.size,
            star (basis m (.mk t k kt kb V E n son) ((son i).t.cl.off + r) l) * xp.val m ((son i).t.cl.off + r - t.cl.off)) j) ?_ ?_) ?_
        · exact ⟨rfl, by simp [pre_zero], hv1, hf1, fun l hl => by rw [pre_zero, hz1 l hl]⟩
        · rintro i ⟨⟨m2, a2⟩, o⟩ ⟨ha2, ho2, hv2, hf2, hq2⟩
          simp only at ha2 ho2 hv2 hf2 hq2
          subst ha2 ho2
          have hle := (hbr.2 i).1
          have hki := branch_k (hbr.2 i).2
          obtain ⟨b1, b2⟩ := HMat.Segments.bounds g1 i
          obtain ⟨x1, ex1⟩ : ∃ x1, initSubVec xt (son i).kbranch k = .ok x1 :=
            ⟨_, initSubVec_ok.mpr ⟨by omega, rfl⟩⟩
          obtain ⟨p1, ep1⟩ : ∃ p1, initSubVec xp (son i).size (pre (fun i => (son i).t.cl.size) i.1) = .ok p1 :=
            ⟨_, initSubVec_ok.mpr ⟨by unfold CBas.size; omega, rfl⟩⟩
          simp only
          rw [openSub_eq ex1, ok_bind]
          simp only
          rw [openSub_eq ep1, ok_bind]
          simp only
          have dS : Disj (CbCell (son i)) xt.Cell := fun c hc => hd c (.inr ⟨i, .inr hc⟩)
          have dE : Disj (son i).E.Cell xt.Cell := fun c hc => hd c (.inr ⟨i, .inl hc⟩)
          obtain ⟨hvS, hbS⟩ := frame_basis hf2 (o3 i).2.2 (hv.2 i).2 dS
          refine Tot.bind (ih i (xp := p1) (xt := x1) (s := ⟨m2, a + 1 + 1 + 1⟩) (o3 i).2.2 (hbr.2 i).2 hvS
            (fun c h1 h2 => dS c h1 (sub_cell ex1 h2)) (sub_valid ep1 (Rk.frame_vvalid hf2 hxt hx))
            (fun c h1 h2 => hxt c (sub_cell ep1 h1) (sub_cell ex1 h2)) (sub_valid ex1 hv2) (sub_dim ex1) (sub_dim ep1))
            fun s3 _ h3 => ?_
          obtain ⟨m3, a3⟩ := s3
          obtain ⟨ha3, hv3, hf3, hc3⟩ := h3
          simp only at ha3 hv3 hf3 hc3
          subst ha3
          have hf3' : Frame xt.Cell m m3 := hf2.trans (sub_frame ex1 hf3)
          have hv3' : xt.Valid m3 := sub_revalid ex1 hv2 hv3 hf3
          refine Tot.bind (run_tot (addevaltrans_tot (Rk.frame_valid hf3' dE (hv.2 i).1) (sub_valid ex1 hv3')
            (sub_valid exc hv3') (fun c h1 h2 => dE c h1 (sub_cell exc h2)) (sub_disj ex1 exc (.inr (by omega)))
            (by rw [sub_dim ex1, (o3 i).1]; exact hki) (by rw [sub_dim exc, (o3 i).2.1]) 1)) fun s4 _ h4 => ?_
          obtain ⟨m4, a4⟩ := s4
          obtain ⟨ha4, hc4⟩ := h4
          simp only at ha4 hc4
          subst ha4
          rw [uninit_eq, ok_bind, uninit_eq, ok_bind]
          refine Tot.pure ⟨rfl, ?_, sub_revalid exc hv3' hc4.1 hc4.2.2, hf3'.trans (sub_frame exc hc4.2.2), ?_⟩
          · simp only
            rw [pre_succ]; rfl
          · intro l hl
            have := hc4.2.1 l (by rw [sub_dim exc]; exact hl)
            simp only at this ⊢
            rw [sub_val exc, sub_val exc, zero_add, if_pos (by rw [(o3 i).2.1]; exact hl), one_mul] at this
            rw [this, sub_keep ex1 hf3 (by omega), hq2 l hl, pre_succ]
            congr 1
            rw [(o3 i).1]
            have e : ∀ nu ∈ Finset.range (son i).k, star ((son i).E.val m3 nu l) * x1.val m3 nu =
                ∑ r ∈ Finset.range (son i).t.cl.size, star ((son i).E.val m nu l) *
                  (star (basis m (son i) ((son i).t.cl.off + r) nu) * xp.val m ((son i).t.cl.off + r - t.cl.off)) := by
              intro nu hnu
              have hnu := Finset.mem_range.mp hnu
              rw [hc3 nu hnu, Rk.frame_val hf3' dE (by rw [(o3 i).1]; exact hnu) (by rw [(o3 i).2.1]; exact hl), Finset.mul_sum]
              refine Finset.sum_congr rfl fun r hr => ?_
              have hr : r < (son i).t.cl.size := Finset.mem_range.mp hr
              rw [hbS _ nu hnu, sub_val ep1, Rk.frame_vval hf2 hxt (by omega),
                show pre (fun i => (son i).t.cl.size) i.1 + r = (son i).t.cl.off + r - t.cl.off by omega]
            rw [Finset.sum_congr rfl e, Finset.sum_comm]
            refine Finset.sum_congr rfl fun r hr => ?_
            rw [basis_son ⟨o1, o2, o3⟩ i (In.add (Finset.mem_range.mp hr)), star_sum, Finset.sum_mul]
            refine Finset.sum_congr rfl fun nu _ => ?_
            rw [star_mul']; ring
        · rintro ⟨⟨m2, a2⟩, o⟩ - ⟨ha2, ho2, hv2, hf2, hq2⟩
          simp only at ha2 ho2 hv2 hf2 hq2 ⊢
          refine Tot.cassert (by rw [ho2, pre_all]; simpa using g1.2) ?_
          refine Tot.pure ⟨ha2, hv2, hf2, fun l hl => ?_⟩
          rw [hq2 l hl, pre_all, ← sum_segments g1 (fun r => star (basis m (.mk t k kt kb V E n son) r l) * xp.val m (r - t.cl.off))]
          refine Finset.sum_congr rfl fun i _ => ?_
          rw [Nat.add_sub_cancel_left]
    · rintro ⟨m2, a2⟩ - ⟨ha, p1, p2, p3⟩
      simp only at ha p1 p2 p3
      subst ha
      rw [uninit_eq]
      exact ⟨_, rfl, rfl, p1, p2, p3⟩

theorem expand_tot : ∀ {cb : CBas G} {yt yp : Vec} {s : VSt K}, CbOk cb → BranchOk cb → CbValid s.mem cb →
    Disj (CbCell cb) yt.Cell → Disj (CbCell cb) yp.Cell → yp.Valid s.mem → Disj yt.Cell yp.Cell → yt.Valid s.mem →
    yt.dim = cb.kbranch → yp.dim = cb.size → Tot (expand cb yt yp s) fun s' => s'.act = s.act ∧ yt.Valid s'.mem ∧ yp.Valid s'.mem ∧
      Frame (fun c => yt.Cell c ∨ yp.Cell c) s.mem s'.mem ∧
      (∀ l < cb.k, yt.val s'.mem l = yt.val s.mem l) ∧
      ∀ i < yp.dim, yp.val s'.mem i = yp.val s.mem i + ∑ l ∈ Finset.range cb.k, basis s.mem cb (cb.t.cl.off + i) l * yt.val s.mem l := by
  intro cb
  induction cb with
  | mk t k kt kb V E n son ih =>
    rintro yt y ⟨m, a⟩ ho hbr hv hd hdy hy hyt hyv hdim hpd
    replace hdim : yt.dim = kb := hdim
    replace hpd : y.dim = t.cl.size := hpd
    have hk : k ≤ kb := hbr.1
    simp only at hv hy hyv ⊢
    obtain ⟨yc, eyc⟩ : ∃ yc, initSubVec yt k 0 = .ok yc := ⟨_, initSubVec_ok.mpr ⟨by omega, rfl⟩⟩
    unfold expand
    refine Tot.cassert (by simpa using hdim) ?_
    rw [openSub_eq eyc, ok_bind]
    simp only
    obtain ⟨o1, o2, o3⟩ := ho
    refine Tot.bind (P := fun (s' : VSt K) => s'.act = a + 1 ∧ yt.Valid s'.mem ∧ y.Valid s'.mem ∧
      Frame (fun c => yt.Cell c ∨ y.Cell c) m s'.mem ∧ (∀ l < k, yt.val s'.mem l = yt.val m l) ∧
      ∀ i < y.dim, y.val s'.mem i = y.val m i +
        ∑ l ∈ Finset.range k, basis m (.mk t k kt kb V E n son) (t.cl.off + i) l * yt.val m l) ?_ ?_
    · by_cases h0 : n = 0
      · subst h0
        obtain ⟨e1, e2, e3⟩ := o1 rfl
        rw [if_neg (lt_irrefl _)]
        have dV : Disj V.Cell y.Cell := fun c hc => hdy c (.inl ⟨rfl, hc⟩)
        refine (run_tot (addeval_tot (hv.1 rfl) (sub_valid eyc hyv) hy dV (fun c h1 h2 => hyt c (sub_cell eyc h1) h2)
          (by rw [sub_dim eyc]; omega) (by omega) 1)).mono fun s1 h1 => ?_
        obtain ⟨m1, a1⟩ := s1
        obtain ⟨ha1, hc1⟩ := h1
        simp only at ha1 hc1
        refine ⟨ha1, Rk.frame_vvalid hc1.2.2 hyt hyv, hc1.1, Frame.mono hc1.2.2 fun c h => .inr h, fun l hl =>
          Rk.frame_vval hc1.2.2 hyt (by omega), fun p hp => ?_⟩
        have := hc1.2.1 p hp
        simp only at this ⊢
        rw [this, if_pos (by omega), one_mul, e2]
        congr 1
        exact Finset.sum_congr rfl fun l _ => by rw [basis_leaf _ (by omega), sub_val eyc, zero_add]
      · have hn : 0 < n := by omega
        obtain ⟨g1, g2⟩ := o2 hn
        rw [if_pos hn]
        refine Tot.bind (foldFinM_tot (fun j (st : VSt K × Nat) => st.1.act = a + 1 ∧
          st.2 = pre (fun i => (son i).t.cl.size) j ∧ yt.Valid st.1.mem ∧ y.Valid st.1.mem ∧
          Frame (fun c => yt.Cell c ∨ y.Cell c) m st.1.mem ∧
          (∀ l < k, yt.val st.1.mem l = yt.val m l) ∧
          ∀ p < y.dim, y.val st.1.mem p = y.val m p +
            pre (fun i => ∑ nu ∈ Finset.range (son i).k, basis m (son i) (t.cl.off + p) nu *
              ∑ l ∈ Finset.range k, (son i).E.val m nu l * yt.val m l) j) ?_ ?_) ?_
        · exact ⟨rfl, by simp [pre_zero], hyv, hy, fun _ _ => rfl, fun l _ => rfl, fun p _ => by rw [pre_zero, add_zero]⟩
        · rintro i ⟨⟨m2, a2⟩, o⟩ ⟨ha2, ho2, hv2, hy2, hf2, hq2, hr2⟩
          simp only at ha2 ho2 hv2 hy2 hf2 hq2 hr2
          subst ha2 ho2
          have hle := (hbr.2 i).1
          have hki := branch_k (hbr.2 i).2
          obtain ⟨b1, b2⟩ := HMat.Segments.bounds g1 i
          obtain ⟨y1, ey1⟩ : ∃ y1, initSubVec yt (son i).kbranch k = .ok y1 := ⟨_, initSubVec_ok.mpr ⟨by omega, rfl⟩⟩
          obtain ⟨y2, ey2⟩ : ∃ y2, initSubVec yt (son i).k k = .ok y2 := ⟨_, initSubVec_ok.mpr ⟨by omega, rfl⟩⟩
          obtain ⟨p1, ep1⟩ : ∃ p1, initSubVec y (son i).size (pre (fun i => (son i).t.cl.size) i.1) = .ok p1 :=
            ⟨_, initSubVec_ok.mpr ⟨by unfold CBas.size; omega, rfl⟩⟩
          simp only
          rw [openSub_eq ey2, ok_bind]
          simp only
          have dS : Disj (CbCell (son i)) (fun c => yt.Cell c ∨ y.Cell c) := fun c hc h => h.elim
            (hd c (.inr ⟨i, .inr hc⟩)) (hdy c (.inr ⟨i, .inr hc⟩))
          have dE : Disj (son i).E.Cell (fun c => yt.Cell c ∨ y.Cell c) := fun c hc h => h.elim
            (hd c (.inr ⟨i, .inl hc⟩)) (hdy c (.inr ⟨i, .inl hc⟩))
          refine Tot.bind (run_tot (clearVec_tot (sub_valid ey2 hv2))) fun s3 _ h3 => ?_
          obtain ⟨m3, a3⟩ := s3
          obtain ⟨ha3, hc3⟩ := h3
          simp only at ha3 hc3
          subst ha3
          have hf3 : Frame (fun c => yt.Cell c ∨ y.Cell c) m m3 :=
            hf2.trans (Frame.mono (sub_frame ey2 hc3.2.2) fun c h => .inl h)
          have hv3 : yt.Valid m3 := sub_revalid ey2 hv2 hc3.1 hc3.2.2
          refine Tot.bind (run_tot (addeval_tot (Rk.frame_valid hf3 dE (hv.2 i).1) (sub_valid eyc hv3)
            (sub_valid ey2 hv3) (fun c h1 h2 => dE c h1 (.inl (sub_cell ey2 h2)))
            (sub_disj eyc ey2 (.inl (by omega))) (by rw [sub_dim eyc, (o3 i).2.1])
            (by rw [sub_dim ey2, (o3 i).1]) 1)) fun s4 _ h4 => ?_
          obtain ⟨m4, a4⟩ := s4
          obtain ⟨ha4, hc4⟩ := h4
          simp only at ha4 hc4
          subst ha4
          rw [uninit_eq, ok_bind, openSub_eq ey1, ok_bind]
          simp only
          rw [openSub_eq ep1, ok_bind]
          simp only
          have hfy : Frame yt.Cell m2 m4 := Frame.trans (sub_frame ey2 hc3.2.2) (sub_frame ey2 hc4.2.2)
          have hf4 : Frame (fun c => yt.Cell c ∨ y.Cell c) m m4 := hf2.trans (Frame.mono hfy fun c h => .inl h)
          have hv4 : yt.Valid m4 := sub_revalid ey2 hv3 hc4.1 hc4.2.2
          have hyty : Disj y.Cell yt.Cell := fun c h1 h2 => hyt c h2 h1
          have hy4 : y.Valid m4 := Rk.frame_vvalid hfy hyty hy2
          have hq4 : ∀ l < k, yt.val m4 l = yt.val m l := fun l hl => by
            rw [sub_keep ey2 hc4.2.2 (by omega), sub_keep ey2 hc3.2.2 (by omega), hq2 l hl]
          have hn4 : ∀ nu < (son i).k, yt.val m4 (k + nu) = ∑ l ∈ Finset.range k, (son i).E.val m nu l * yt.val m l := by
            intro nu hnu
            have h5 := hc4.2.1 nu (by rw [sub_dim ey2]; exact hnu)
            have h6 := hc3.2.1 nu (by rw [sub_dim ey2]; exact hnu)
            simp only at h5 h6
            rw [(o3 i).1, if_pos hnu, one_mul, h6, zero_add, (o3 i).2.1, sub_val ey2] at h5
            rw [h5]
            refine Finset.sum_congr rfl fun l hl => ?_
            have hl := Finset.mem_range.mp hl
            rw [sub_val eyc, zero_add, sub_keep ey2 hc3.2.2 (by omega), hq2 l hl,
              Rk.frame_val hf3 dE (by rw [(o3 i).1]; exact hnu) (by rw [(o3 i).2.1]; exact hl)]
          obtain ⟨hvS, hbS⟩ := frame_basis hf4 (o3 i).2.2 (hv.2 i).2 dS
          refine Tot.bind (ih i (yt := y1) (yp := p1) (s := ⟨m4, a + 1 + 1 + 1⟩) (o3 i).2.2 (hbr.2 i).2 hvS
            (fun c h1 h2 => dS c h1 (.inl (sub_cell ey1 h2))) (fun c h1 h2 => dS c h1 (.inr (sub_cell ep1 h2)))
            (sub_valid ep1 hy4)
            (fun c h1 h2 => hyt c (sub_cell ey1 h1) (sub_cell ep1 h2)) (sub_valid ey1 hv4) (sub_dim ey1) (sub_dim ep1))
            fun s5 _ h5 => ?_
          obtain ⟨m5, a5⟩ := s5
          obtain ⟨ha5, hv5, hy5, hf5, -, hr5⟩ := h5
          simp only at ha5 hv5 hy5 hf5 hr5
          subst ha5
          rw [uninit_eq, ok_bind, uninit_eq, ok_bind]
          have hf5' : Frame (fun c => yt.Cell c ∨ y.Cell c) m4 m5 :=
            hf5.mono fun c h => h.imp (sub_cell ey1) (sub_cell ep1)
          have keep : ∀ l < k, yt.val m5 l = yt.val m4 l := by
            intro q hq
            unfold Vec.val
            rw [hf5]
            rintro (h | h)
            · obtain ⟨e5, e6⟩ := initSubVec_ok.mp ey1
              subst e6
              obtain ⟨z, hz, e⟩ := h
              simp only [Vec.addr] at e
              omega
            · exact hyt _ (Vec.cell_addr (by omega)) (sub_cell ep1 h)
          have keepy : ∀ q < y.dim, ¬ In (son i).t (t.cl.off + q) → m5 (y.addr q) = m4 (y.addr q) := by
            intro q hq hn'
            rw [hf5]
            rintro (h | h)
            · exact hyt _ (sub_cell ey1 h) (Vec.cell_addr hq)
            · obtain ⟨e5, e6⟩ := initSubVec_ok.mp ep1
              subst e6
              obtain ⟨z, hz, e⟩ := h
              have hz : z < (son i).t.cl.size := hz
              simp only [Vec.addr] at e
              apply hn'
              unfold In
              omega
          refine Tot.pure ⟨rfl, ?_, ?_, ?_, hf4.trans hf5', ?_, ?_⟩
          · simp only
            rw [pre_succ]; rfl
          · intro q hq
            simp only
            by_cases hc : y1.Cell (yt.addr q)
            · obtain ⟨z, hz, e⟩ := hc
              rw [e]; exact hv5 z hz
            · rw [hf5 _ (fun h => h.elim hc fun h => (hyt _ (Vec.cell_addr hq)) (sub_cell ep1 h))]
              exact hv4 q hq
          · intro q hq
            simp only
            by_cases hc : p1.Cell (y.addr q)
            · obtain ⟨z, hz, e⟩ := hc
              rw [e]; exact hy5 z hz
            · rw [hf5 _ (fun h => h.elim (fun h => hyt _ (sub_cell ey1 h) (Vec.cell_addr hq)) hc)]
              exact hy4 q hq
          · intro l hl
            rw [keep l hl]
            exact hq4 l hl
          · intro p hp
            simp only
            rw [pre_succ, ← add_assoc, ← hr2 p hp, ← Rk.frame_vval hfy hyty hp]
            by_cases hin : In (son i).t (t.cl.off + p)
            · have hin' := hin
              unfold In at hin'
              have := hr5 (t.cl.off + p - (son i).t.cl.off) (by rw [sub_dim ep1]; unfold CBas.size; omega)
              rw [sub_val ep1, sub_val ep1, show pre (fun i => (son i).t.cl.size) i.1 +
                (t.cl.off + p - (son i).t.cl.off) = p by omega] at this
              rw [this, show (son i).t.cl.off + (t.cl.off + p - (son i).t.cl.off) = t.cl.off + p by omega]
              congr 1
              refine Finset.sum_congr rfl fun nu hnu => ?_
              have hnu := Finset.mem_range.mp hnu
              rw [hbS _ nu hnu, sub_val ey1, hn4 nu hnu]
            · rw [Finset.sum_eq_zero fun nu _ => by rw [basis_zero (o3 i).2.2 nu hin, zero_mul], add_zero]
              unfold Vec.val
              rw [keepy p hp hin]
        · rintro ⟨⟨m2, a2⟩, o⟩ - ⟨ha2, ho2, hv2, hy2, hf2, hq2, hr2⟩
          simp only at ha2 ho2 hv2 hy2 hf2 hq2 hr2 ⊢
          refine Tot.cassert (by rw [ho2, pre_all]; simpa using g1.2) ?_
          refine Tot.pure ⟨ha2, hv2, hy2, hf2, hq2, fun p hp => ?_⟩
          rw [hr2 p hp, pre_all]
          congr 1
          have e : ∀ l ∈ Finset.range k, basis m (.mk t k kt kb V E n son) (t.cl.off + p) l * yt.val m l =
              ∑ i, ∑ nu ∈ Finset.range (son i).k, basis m (son i) (t.cl.off + p) nu * ((son i).E.val m nu l * yt.val m l) := by
            intro l _
            rw [basis_node hn, Finset.sum_mul]
            refine Finset.sum_congr rfl fun i _ => ?_
            rw [Finset.sum_mul]
            exact Finset.sum_congr rfl fun nu _ => mul_assoc _ _ _
          rw [Finset.sum_congr rfl e, Finset.sum_comm]
          refine Finset.sum_congr rfl fun i _ => ?_
          rw [Finset.sum_comm]
          exact Finset.sum_congr rfl fun nu _ => Finset.mul_sum _ _ _
    · rintro ⟨m2, a2⟩ - ⟨ha, p1, p2, p3, p4, p5⟩
      simp only at ha p1 p2 p3 p4 p5
      subst ha
      rw [uninit_eq]
      exact ⟨_, rfl, rfl, p1, p2, p3, p4, p5⟩

end CBas
end H2
