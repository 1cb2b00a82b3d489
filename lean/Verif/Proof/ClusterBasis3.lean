import Verif.Proof.ClusterBasis2

/-! Transformations without permutation. -/

set_option linter.unusedSectionVars false

namespace H2
open Spec Dense

namespace CBas
open VSt
variable {G : Type _} {K : Type _} [Field K] [StarRing K]

theorem forwardNoperm_tot : ∀ {cb : CBas G} {xp xt : Vec} {s : VSt K}, CbOk cb → CbSons cb → CbValid s.mem cb →
    Disj (CbCell cb) xt.Cell → xp.Valid s.mem → Disj xp.Cell xt.Cell → xt.Valid s.mem → xt.dim = cb.ktree →
    xp.dim = cb.size →
    Tot (forwardNoperm cb xp xt s) (FwdPost s cb (fun r => xp.val s.mem (r - cb.t.cl.off)) xt) := by
  intro cb
  induction cb with
  | mk t k kt kb V E n son ih =>
    rintro xp xt ⟨m, a⟩ ho hsn hv hd hx hxt hxv hdim hpd
    replace hdim : xt.dim = kt := hdim
    replace hpd : xp.dim = t.cl.size := hpd
    have hk : k ≤ kt := k_le_ktree ho
    simp only at hv hx hxv ⊢
    obtain ⟨xc, exc⟩ : ∃ xc, initSubVec xt k 0 = .ok xc := ⟨_, initSubVec_ok.mpr ⟨by omega, rfl⟩⟩
    unfold forwardNoperm
    refine Tot.cassert (by simpa using hpd) ?_
    refine Tot.cassert (by simpa using hdim) ?_
    rw [openSub_eq exc, ok_bind]
    simp only
    refine Tot.bind (run_tot (clearVec_tot (sub_valid exc hxv))) fun s1 _ h1 => ?_
    obtain ⟨m1, a1⟩ := s1
    obtain ⟨ha1, hc1⟩ := h1
    simp only at ha1 hc1
    subst ha1
    have hf1 : Frame xt.Cell m m1 := sub_frame exc hc1.2.2
    have hv1 : xt.Valid m1 := sub_revalid exc hxv hc1.1 hc1.2.2
    have hz1 : ∀ l < k, xt.val m1 l = 0 := fun l hl => by
      have := hc1.2.1 l (by rw [sub_dim exc]; exact hl)
      rw [sub_val exc] at this; simpa using this
    obtain ⟨o1, o2, o3⟩ := ho
    refine Tot.bind (P := fun (s' : VSt K) => s'.act = a + 1 ∧ xt.Valid s'.mem ∧ Frame xt.Cell m s'.mem ∧
        IsCoeffs m (.mk t k kt kb V E n son) (fun r => xp.val m (r - t.cl.off)) (xt.val s'.mem)) ?_ ?_
    · by_cases h0 : n = 0
      · subst h0
        obtain ⟨e1, e2, e3⟩ := o1 rfl
        rw [if_neg (lt_irrefl _)]
        obtain ⟨x1, ex1⟩ : ∃ x1, initSubVec xt t.cl.size k = .ok x1 := ⟨_, initSubVec_ok.mpr ⟨by omega, rfl⟩⟩
        rw [openSub_eq ex1, ok_bind]
        simp only
        have hx1 : xp.Valid m1 := Rk.frame_vvalid hf1 hxt hx
        have dxp : Disj xp.Cell x1.Cell := fun c h1 h2 => hxt c h1 (sub_cell ex1 h2)
        refine Tot.bind (run_tot (copyVec_tot hx1 (sub_valid ex1 hv1) dxp (by rw [sub_dim ex1, hpd]))) fun s2 _ h2 => ?_
        obtain ⟨m2, a2⟩ := s2
        obtain ⟨ha2, hc2⟩ := h2
        simp only at ha2 hc2
        subst ha2
        have hf2 : Frame xt.Cell m m2 := hf1.trans (sub_frame ex1 hc2.2.2)
        have hv2 : xt.Valid m2 := sub_revalid ex1 hv1 hc2.1 hc2.2.2
        have dV : Disj V.Cell xt.Cell := fun c hc => hd c (.inl ⟨rfl, hc⟩)
        refine Tot.bind (run_tot (addevaltrans_tot (Rk.frame_valid hf2 dV (hv.1 rfl)) (sub_valid ex1 hv2)
          (sub_valid exc hv2) (fun c h1 h2 => dV c h1 (sub_cell exc h2)) (sub_disj ex1 exc (.inr (by omega)))
          (by rw [sub_dim ex1]; omega) (by rw [sub_dim exc]; omega) 1)) fun s3 _ h3 => ?_
        obtain ⟨m3, a3⟩ := s3
        obtain ⟨ha3, hc3⟩ := h3
        simp only at ha3 hc3
        subst ha3
        rw [uninit_eq]
        refine ⟨_, rfl, rfl, sub_revalid exc hv2 hc3.1 hc3.2.2, hf2.trans (sub_frame exc hc3.2.2), ?_, ?_, fun i => i.elim0⟩
        · intro l hl
          have := hc3.2.1 l (by rw [sub_dim exc]; exact hl)
          simp only at this ⊢
          rw [sub_val exc, sub_val exc, zero_add, if_pos (by omega), one_mul] at this
          rw [this, sub_keep ex1 hc2.2.2 (by omega), hz1 l hl, zero_add, e1]
          refine Finset.sum_congr rfl fun i hi => ?_
          have hi' := Finset.mem_range.mp hi
          rw [basis_leaf _ hi', Rk.frame_val hf2 dV (by omega) (by omega)]
          have := hc2.2.1 i (by rw [sub_dim ex1]; exact hi')
          simp only at this
          rw [this, Nat.add_sub_cancel_left, Rk.frame_vval hf1 hxt (by omega)]
        · intro _ i hi
          have := hc2.2.1 i (by rw [sub_dim ex1]; exact hi)
          simp only at this ⊢
          rw [sub_keep exc hc3.2.2 (by omega), ← sub_val ex1, this, Nat.add_sub_cancel_left,
            Rk.frame_vval hf1 hxt (by omega)]
      · have hn : 0 < n := by omega
        obtain ⟨g1, g2⟩ := o2 hn
        obtain ⟨eN, hts⟩ := hsn.1 hn
        rw [if_pos hn]
        refine Tot.bind (foldFinM_tot (fun j (st : VSt K × Nat × Nat) => st.1.act = a + 1 ∧
          st.2.1 = pre (fun i => (son i).t.cl.size) j ∧
          st.2.2 = k + pre (fun i => (son i).ktree) j ∧ xt.Valid st.1.mem ∧ Frame xt.Cell m st.1.mem ∧
          (∀ l < k, xt.val st.1.mem l = pre (fun i => ∑ nu ∈ Finset.range (son i).k, star ((son i).E.val m nu l) *
            xt.val st.1.mem (k + ofs (fun i => (son i).ktree) i + nu)) j) ∧
          ∀ i : Fin n, i.1 < j → IsCoeffs m (son i) (fun r => xp.val m (r - t.cl.off))
            (fun q => xt.val st.1.mem (k + ofs (fun i => (son i).ktree) i + q))) ?_ ?_) ?_
        · exact ⟨rfl, by simp [pre_zero], by simp [pre_zero], hv1, hf1, fun l hl => by rw [pre_zero, hz1 l hl],
            fun i hi => absurd hi (Nat.not_lt_zero _)⟩
        · rintro i ⟨⟨m2, a2⟩, o, o'⟩ ⟨ha2, ho2, ho2', hv2, hf2, hq2, hc2⟩
          simp only at ha2 ho2 ho2' hv2 hf2 hq2 hc2
          subst ha2 ho2 ho2'
          have hle := segs_le (fun i => (son i).ktree) i
          obtain ⟨b1, b2⟩ := HMat.Segments.bounds g1 i
          rw [← ofs_eq (fun i => (son i).ktree)]
          obtain ⟨x1, ex1⟩ : ∃ x1, initSubVec xt (son i).ktree (k + ofs (fun i => (son i).ktree) i) = .ok x1 :=
            ⟨_, initSubVec_ok.mpr ⟨by omega, rfl⟩⟩
          obtain ⟨x2, ex2⟩ : ∃ x2, initSubVec xt (son i).k (k + ofs (fun i => (son i).ktree) i) = .ok x2 :=
            ⟨_, initSubVec_ok.mpr ⟨by have := k_le_ktree (o3 i).2.2; omega, rfl⟩⟩
          obtain ⟨p1, ep1⟩ : ∃ p1, initSubVec xp (son i).t.cl.size (pre (fun i => (son i).t.cl.size) i.1) = .ok p1 :=
            ⟨_, initSubVec_ok.mpr ⟨by omega, rfl⟩⟩
          have hlt : i.1 < t.nsons := by rw [← eN]; exact i.2
          have hsz : (t.son ⟨i.1, hlt⟩).cl.size = (son i).t.cl.size := by rw [hts i]; rfl
          simp only
          rw [dif_pos hlt, hsz, openSub_eq ep1, ok_bind]
          simp only
          rw [openSub_eq ex1, ok_bind]
          simp only
          have dS : Disj (CbCell (son i)) xt.Cell := fun c hc => hd c (.inr ⟨i, .inr hc⟩)
          have dE : Disj (son i).E.Cell xt.Cell := fun c hc => hd c (.inr ⟨i, .inl hc⟩)
          obtain ⟨hvS, _⟩ := frame_basis hf2 (o3 i).2.2 (hv.2 i).2 dS
          refine Tot.bind (ih i (xp := p1) (xt := x1) (s := ⟨m2, a + 1 + 1 + 1⟩) (o3 i).2.2 (hsn.2 i) hvS
            (fun c h1 h2 => dS c h1 (sub_cell ex1 h2)) (sub_valid ep1 (Rk.frame_vvalid hf2 hxt hx))
            (fun c h1 h2 => hxt c (sub_cell ep1 h1) (sub_cell ex1 h2)) (sub_valid ex1 hv2) (sub_dim ex1) (sub_dim ep1))
            fun s3 _ h3 => ?_
          obtain ⟨m3, a3⟩ := s3
          obtain ⟨ha3, hv3, hf3, hc3⟩ := h3
          simp only at ha3 hv3 hf3 hc3
          subst ha3
          have hf3' : Frame xt.Cell m m3 := hf2.trans (sub_frame ex1 hf3)
          have hv3' : xt.Valid m3 := sub_revalid ex1 hv2 hv3 hf3
          have hki := k_le_ktree (o3 i).2.2
          rw [uninit_eq, ok_bind, uninit_eq, ok_bind, openSub_eq ex2, ok_bind]
          simp only
          refine Tot.bind (run_tot (addevaltrans_tot (Rk.frame_valid hf3' dE (hv.2 i).1) (sub_valid ex2 hv3')
            (sub_valid exc hv3') (fun c h1 h2 => dE c h1 (sub_cell exc h2)) (sub_disj ex2 exc (.inr (by omega)))
            (by rw [sub_dim ex2, (o3 i).1]) (by rw [sub_dim exc, (o3 i).2.1]) 1)) fun s4 _ h4 => ?_
          obtain ⟨m4, a4⟩ := s4
          obtain ⟨ha4, hc4⟩ := h4
          simp only at ha4 hc4
          subst ha4
          rw [uninit_eq, ok_bind]
          have keep : ∀ j : Fin n, j.1 < i.1 + 1 → ∀ q < (son j).ktree,
              xt.val m4 (k + ofs (fun i => (son i).ktree) j + q) =
              if j = i then xt.val m3 (k + ofs (fun i => (son i).ktree) j + q)
              else xt.val m2 (k + ofs (fun i => (son i).ktree) j + q) := by
            intro j hj q hq
            rw [sub_keep exc hc4.2.2 (by omega)]
            by_cases e : j = i
            · rw [if_pos e]
            · rw [if_neg e]
              have : j.1 < i.1 := by have : j.1 ≠ i.1 := fun h => e (Fin.ext h); omega
              have := ofs_mono (fun i => (son i).ktree) this
              rw [sub_keep ex1 hf3 (by omega)]
          refine Tot.pure ⟨rfl, ?_, ?_, sub_revalid exc hv3' hc4.1 hc4.2.2, hf3'.trans (sub_frame exc hc4.2.2), ?_, ?_⟩
          · simp only
            rw [pre_succ]
          · simp only
            rw [pre_succ, ofs_eq, Nat.add_assoc]
          · intro l hl
            have := hc4.2.1 l (by rw [sub_dim exc]; exact hl)
            simp only at this ⊢
            rw [sub_val exc, sub_val exc, zero_add, if_pos (by rw [(o3 i).2.1]; exact hl), one_mul] at this
            rw [this, sub_keep ex1 hf3 (by omega), hq2 l hl, pre_succ]
            congr 1
            · unfold pre
              refine Finset.sum_congr rfl fun j _ => ?_
              by_cases hj : j.1 < i.1
              · rw [if_pos hj, if_pos hj]
                refine Finset.sum_congr rfl fun nu hnu => ?_
                have hnu := Finset.mem_range.mp hnu
                have := k_le_ktree (o3 j).2.2
                rw [keep j (by omega) nu (by omega), if_neg (fun e => by rw [e] at hj; omega)]
              · rw [if_neg hj, if_neg hj]
            · rw [(o3 i).1]
              refine Finset.sum_congr rfl fun nu hnu => ?_
              have hnu := Finset.mem_range.mp hnu
              rw [keep i (by omega) nu (by omega), if_pos rfl,
                Rk.frame_val hf3' dE (by rw [(o3 i).1]; exact hnu) (by rw [(o3 i).2.1]; exact hl), sub_val ex2]
          · intro j hj
            simp only at hj ⊢
            by_cases e : j = i
            · subst e
              refine isCoeffs_y (o3 j).2.2 (fun r hr => ?_) (fun q hq => ?_)
                ((isCoeffs_frame hf2 (o3 j).2.2 (hv.2 j).2 dS).mp hc3)
              · unfold In at hr
                rw [sub_val ep1, show pre (fun i => (son i).t.cl.size) j.1 + (r - (son j).t.cl.off) = r - t.cl.off by omega]
                exact (Rk.frame_vval hf2 hxt (by omega)).symm
              · rw [keep j (by omega) q hq, if_pos rfl, sub_val ex1]
            · refine isCoeffs_y (o3 j).2.2 (fun r hr => rfl) (fun q hq => ?_)
                (hc2 j (by have : j.1 ≠ i.1 := fun h => e (Fin.ext h); omega))
              rw [keep j (by omega) q hq, if_neg e]
        · rintro ⟨⟨m2, a2⟩, o, o'⟩ - ⟨ha2, ho2, ho2', hv2, hf2, hq2, hc2⟩
          simp only at ha2 ho2 ho2' hv2 hf2 hq2 hc2 ⊢
          refine Tot.cassert (by rw [ho2, pre_all]; simpa using g1.2) ?_
          refine Tot.cassert (by rw [ho2', pre_all]; simp [g2]) ?_
          refine Tot.pure ⟨ha2, hv2, hf2, fun l hl => ?_, fun h => absurd h h0, fun i => hc2 i i.2⟩
          rw [hq2 l hl, pre_all]
          exact coeff_node ⟨o1, o2, o3⟩ hn fun i => hc2 i i.2
    · rintro ⟨m2, a2⟩ - ⟨ha, p1, p2, p3⟩
      simp only at ha p1 p2 p3
      subst ha
      rw [uninit_eq]
      exact ⟨_, rfl, rfl, p1, p2, p3⟩

/-- what the backward transformation without permutation achieves -/
def BwdPostN (s : VSt K) (cb : CBas G) (yt yp : Vec) (s' : VSt K) : Prop :=
  s'.act = s.act ∧ yt.Valid s'.mem ∧ yp.Valid s'.mem ∧ Frame (fun c => yt.Cell c ∨ yp.Cell c) s.mem s'.mem ∧
  ∀ i < yp.dim, yp.val s'.mem i = yp.val s.mem i + synth s.mem cb (yt.val s.mem) (cb.t.cl.off + i)

theorem backwardNoperm_tot : ∀ {cb : CBas G} {yt yp : Vec} {s : VSt K}, CbOk cb → CbSons cb → CbValid s.mem cb →
    Disj (CbCell cb) yt.Cell → Disj (CbCell cb) yp.Cell → yp.Valid s.mem → Disj yt.Cell yp.Cell → yt.Valid s.mem →
    yt.dim = cb.ktree → yp.dim = cb.size → Tot (backwardNoperm cb yt yp s) (BwdPostN s cb yt yp) := by
  intro cb
  induction cb with
  | mk t k kt kb V E n son ih =>
    rintro yt y ⟨m, a⟩ ho hsn hv hd hdy hy hyt hyv hdim hpd
    replace hdim : yt.dim = kt := hdim
    replace hpd : y.dim = t.cl.size := hpd
    have hk : k ≤ kt := k_le_ktree ho
    simp only at hv hy hyv ⊢
    obtain ⟨yc, eyc⟩ : ∃ yc, initSubVec yt k 0 = .ok yc := ⟨_, initSubVec_ok.mpr ⟨by omega, rfl⟩⟩
    unfold backwardNoperm
    refine Tot.cassert (by simpa using hpd) ?_
    refine Tot.cassert (by simpa using hdim) ?_
    rw [openSub_eq eyc, ok_bind]
    simp only
    obtain ⟨o1, o2, o3⟩ := ho
    refine Tot.bind (P := fun (s' : VSt K) => s'.act = a + 1 ∧ yt.Valid s'.mem ∧ y.Valid s'.mem ∧
      Frame (fun c => yt.Cell c ∨ y.Cell c) m s'.mem ∧ ∀ i < y.dim, y.val s'.mem i = y.val m i +
        synth m (.mk t k kt kb V E n son) (yt.val m) (t.cl.off + i)) ?_ ?_
    · by_cases h0 : n = 0
      · subst h0
        obtain ⟨e1, e2, e3⟩ := o1 rfl
        rw [if_neg (lt_irrefl _)]
        obtain ⟨yp, eyp⟩ : ∃ yp, initSubVec yt t.cl.size k = .ok yp := ⟨_, initSubVec_ok.mpr ⟨by omega, rfl⟩⟩
        rw [openSub_eq eyp, ok_bind]
        simp only
        have dV : Disj V.Cell yt.Cell := fun c hc => hd c (.inl ⟨rfl, hc⟩)
        refine Tot.bind (run_tot (addeval_tot (hv.1 rfl) (sub_valid eyc hyv) (sub_valid eyp hyv)
          (fun c h1 h2 => dV c h1 (sub_cell eyp h2)) (sub_disj eyc eyp (.inl (by omega)))
          (by rw [sub_dim eyc]; omega) (by rw [sub_dim eyp]; omega) 1)) fun s1 _ h1 => ?_
        obtain ⟨m1, a1⟩ := s1
        obtain ⟨ha1, hc1⟩ := h1
        simp only at ha1 hc1
        subst ha1
        have hf1 : Frame yt.Cell m m1 := sub_frame eyp hc1.2.2
        have hy1 : y.Valid m1 := Rk.frame_vvalid hf1 (fun c h1 h2 => hyt c h2 h1) hy
        refine Tot.bind (run_tot (addVec_tot hc1.1 hy1 (fun c h1 h2 => hyt c (sub_cell eyp h1) h2)
          (by rw [sub_dim eyp]; omega) 1)) fun s2 _ h2 => ?_
        obtain ⟨m2, a2⟩ := s2
        obtain ⟨ha2, hc2⟩ := h2
        simp only at ha2 hc2
        subst ha2
        rw [uninit_eq]
        refine ⟨_, rfl, rfl, ?_, hc2.1, ?_, fun p hp => ?_⟩
        · exact Rk.frame_vvalid hc2.2.2 hyt (sub_revalid eyp hyv hc1.1 hc1.2.2)
        · exact Frame.trans (hf1.mono fun c h => .inl h) (Frame.mono hc2.2.2 fun c h => .inr h)
        · have := hc2.2.1 p hp
          simp only at this ⊢
          rw [sub_dim eyp, if_pos (by omega), one_mul] at this
          rw [this, Rk.frame_vval hf1 (fun c h1 h2 => hyt c h2 h1) hp]
          congr 1
          have := hc1.2.1 p (by rw [sub_dim eyp]; omega)
          simp only at this
          rw [synth_leaf _ (by omega), this, if_pos (by omega), one_mul, sub_val eyp, e2, add_comm]
          congr 1
          exact Finset.sum_congr rfl fun l _ => by rw [sub_val eyc, zero_add]
      · have hn : 0 < n := by omega
        obtain ⟨g1, g2⟩ := o2 hn
        obtain ⟨eN, hts⟩ := hsn.1 hn
        rw [if_pos hn]
        let Y' : Fin n → Nat → K := fun i q => yt.val m (k + ofs (fun i => (son i).ktree) i + q) +
          if q < (son i).k then ∑ l ∈ Finset.range k, (son i).E.val m q l * yt.val m l else 0
        refine Tot.bind (foldFinM_tot (fun j (st : VSt K × Nat × Nat) => st.1.act = a + 1 ∧
          st.2.1 = pre (fun i => (son i).t.cl.size) j ∧
          st.2.2 = k + pre (fun i => (son i).ktree) j ∧ yt.Valid st.1.mem ∧ y.Valid st.1.mem ∧
          Frame (fun c => yt.Cell c ∨ y.Cell c) m st.1.mem ∧
          (∀ l < k, yt.val st.1.mem l = yt.val m l) ∧
          (∀ i : Fin n, j ≤ i.1 → ∀ q < (son i).ktree, yt.val st.1.mem (k + ofs (fun i => (son i).ktree) i + q) =
            yt.val m (k + ofs (fun i => (son i).ktree) i + q)) ∧
          ∀ p < y.dim, y.val st.1.mem p = y.val m p +
            pre (fun i => synth m (son i) (Y' i) (t.cl.off + p)) j) ?_ ?_) ?_
        · exact ⟨rfl, by simp [pre_zero], by simp [pre_zero], hyv, hy, fun _ _ => rfl, fun l _ => rfl, fun i _ q _ => rfl,
            fun p _ => by rw [pre_zero, add_zero]⟩
        · rintro i ⟨⟨m2, a2⟩, o, o'⟩ ⟨ha2, ho2, ho2', hv2, hy2, hf2, hq2, hc2, hr2⟩
          simp only at ha2 ho2 ho2' hv2 hy2 hf2 hq2 hc2 hr2
          subst ha2 ho2 ho2'
          have hle := segs_le (fun i => (son i).ktree) i
          obtain ⟨b1, b2⟩ := HMat.Segments.bounds g1 i
          rw [← ofs_eq (fun i => (son i).ktree)]
          obtain ⟨y1, ey1⟩ : ∃ y1, initSubVec yt (son i).ktree (k + ofs (fun i => (son i).ktree) i) = .ok y1 :=
            ⟨_, initSubVec_ok.mpr ⟨by omega, rfl⟩⟩
          obtain ⟨y2, ey2⟩ : ∃ y2, initSubVec yt (son i).k (k + ofs (fun i => (son i).ktree) i) = .ok y2 :=
            ⟨_, initSubVec_ok.mpr ⟨by have := k_le_ktree (o3 i).2.2; omega, rfl⟩⟩
          obtain ⟨p1, ep1⟩ : ∃ p1, initSubVec y (son i).t.cl.size (pre (fun i => (son i).t.cl.size) i.1) = .ok p1 :=
            ⟨_, initSubVec_ok.mpr ⟨by omega, rfl⟩⟩
          have hlt : i.1 < t.nsons := by rw [← eN]; exact i.2
          have hsz : (t.son ⟨i.1, hlt⟩).cl.size = (son i).t.cl.size := by rw [hts i]; rfl
          simp only
          rw [dif_pos hlt, hsz, openSub_eq ey2, ok_bind]
          simp only
          have dS : Disj (CbCell (son i)) (fun c => yt.Cell c ∨ y.Cell c) := fun c hc h => h.elim
            (hd c (.inr ⟨i, .inr hc⟩)) (hdy c (.inr ⟨i, .inr hc⟩))
          have dE : Disj (son i).E.Cell (fun c => yt.Cell c ∨ y.Cell c) := fun c hc h => h.elim
            (hd c (.inr ⟨i, .inl hc⟩)) (hdy c (.inr ⟨i, .inl hc⟩))
          have hki := k_le_ktree (o3 i).2.2
          refine Tot.bind (run_tot (addeval_tot (Rk.frame_valid hf2 dE (hv.2 i).1) (sub_valid eyc hv2)
            (sub_valid ey2 hv2) (fun c h1 h2 => dE c h1 (.inl (sub_cell ey2 h2)))
            (sub_disj eyc ey2 (.inl (by omega))) (by rw [sub_dim eyc, (o3 i).2.1])
            (by rw [sub_dim ey2, (o3 i).1]) 1)) fun s3 _ h3 => ?_
          obtain ⟨m3, a3⟩ := s3
          obtain ⟨ha3, hc3⟩ := h3
          simp only at ha3 hc3
          subst ha3
          rw [uninit_eq, ok_bind, openSub_eq ep1, ok_bind]
          simp only
          rw [openSub_eq ey1, ok_bind]
          simp only
          have hf3 : Frame (fun c => yt.Cell c ∨ y.Cell c) m m3 :=
            hf2.trans (Frame.mono (sub_frame ey2 hc3.2.2) fun c h => .inl h)
          have hv3 : yt.Valid m3 := sub_revalid ey2 hv2 hc3.1 hc3.2.2
          have hy3 : y.Valid m3 := Rk.frame_vvalid (sub_frame ey2 hc3.2.2) (fun c h1 h2 => hyt c h2 h1) hy2
          obtain ⟨hvS, _⟩ := frame_basis hf3 (o3 i).2.2 (hv.2 i).2 dS
          refine Tot.bind (ih i (yt := y1) (yp := p1) (s := ⟨m3, a + 1 + 1 + 1⟩) (o3 i).2.2 (hsn.2 i) hvS
            (fun c h1 h2 => dS c h1 (.inl (sub_cell ey1 h2))) (fun c h1 h2 => dS c h1 (.inr (sub_cell ep1 h2)))
            (sub_valid ep1 hy3)
            (fun c h1 h2 => hyt c (sub_cell ey1 h1) (sub_cell ep1 h2)) (sub_valid ey1 hv3) (sub_dim ey1) (sub_dim ep1))
            fun s4 _ h4 => ?_
          obtain ⟨m4, a4⟩ := s4
          obtain ⟨ha4, hv4, hy4, hf4, hr4⟩ := h4
          simp only at ha4 hv4 hy4 hf4 hr4
          subst ha4
          rw [uninit_eq, ok_bind, uninit_eq, ok_bind]
          have hf4' : Frame (fun c => yt.Cell c ∨ y.Cell c) m3 m4 :=
            hf4.mono fun c h => h.imp (sub_cell ey1) (sub_cell ep1)
          have keep : ∀ q < yt.dim, ¬ (k + ofs (fun i => (son i).ktree) i ≤ q ∧
              q < k + ofs (fun i => (son i).ktree) i + (son i).ktree) → yt.val m4 q = yt.val m2 q := by
            intro q hq hn'
            rw [← sub_keep ey2 hc3.2.2 (i := q) (by omega)]
            unfold Vec.val
            rw [hf4]
            rintro (h | h)
            · obtain ⟨e5, e6⟩ := initSubVec_ok.mp ey1
              subst e6
              obtain ⟨z, hz, e⟩ := h
              have hz : z < (son i).ktree := hz
              simp only [Vec.addr] at e
              omega
            · exact hyt _ (Vec.cell_addr hq) (sub_cell ep1 h)
          have keepy : ∀ q < y.dim, ¬ In (son i).t (t.cl.off + q) → m4 (y.addr q) = m3 (y.addr q) := by
            intro q hq hn'
            rw [hf4]
            rintro (h | h)
            · exact hyt _ (sub_cell ey1 h) (Vec.cell_addr hq)
            · obtain ⟨e5, e6⟩ := initSubVec_ok.mp ep1
              subst e6
              obtain ⟨z, hz, e⟩ := h
              have hz : z < (son i).t.cl.size := hz
              simp only [Vec.addr] at e
              apply hn'
              unfold In
              omega
          refine Tot.pure ⟨rfl, ?_, ?_, ?_, ?_, hf3.trans hf4', ?_, ?_, ?_⟩
          · simp only
            rw [pre_succ]
          · simp only
            rw [pre_succ, ofs_eq, Nat.add_assoc]
          · intro q hq
            simp only
            by_cases hc : y1.Cell (yt.addr q)
            · obtain ⟨z, hz, e⟩ := hc
              rw [e]; exact hv4 z hz
            · rw [hf4 _ (fun h => h.elim hc fun h => (hyt _ (Vec.cell_addr hq)) (sub_cell ep1 h))]
              exact hv3 q hq
          · intro q hq
            simp only
            by_cases hc : p1.Cell (y.addr q)
            · obtain ⟨z, hz, e⟩ := hc
              rw [e]; exact hy4 z hz
            · rw [hf4 _ (fun h => h.elim (fun h => hyt _ (sub_cell ey1 h) (Vec.cell_addr hq)) hc)]
              exact hy3 q hq
          · intro l hl
            rw [keep l (by omega) (by omega)]
            exact hq2 l hl
          · intro j hj q hq
            have := ofs_mono (fun i => (son i).ktree) (a := i) (b := j) (by omega)
            have := segs_le (fun i => (son i).ktree) j
            simp only
            rw [keep _ (by omega) (by omega)]
            exact hc2 j (by omega) q hq
          · intro p hp
            simp only
            rw [pre_succ, ← add_assoc, ← hr2 p hp, ← Rk.frame_vval (sub_frame ey2 hc3.2.2) (fun c h1 h2 => hyt c h2 h1) hp]
            by_cases hin : In (son i).t (t.cl.off + p)
            · have hin' := hin
              unfold In at hin'
              have := hr4 (t.cl.off + p - (son i).t.cl.off) (by rw [sub_dim ep1]; omega)
              rw [sub_val ep1, sub_val ep1, show pre (fun i => (son i).t.cl.size) i.1 +
                (t.cl.off + p - (son i).t.cl.off) = p by omega] at this
              rw [this, show (son i).t.cl.off + (t.cl.off + p - (son i).t.cl.off) = t.cl.off + p by omega]
              congr 1
              rw [synth_frame hf3 (o3 i).2.2 (hv.2 i).2 dS]
              refine synth_y (o3 i).2.2 (fun q hq => ?_) _
              rw [sub_val ey1]
              simp only [Y']
              by_cases hqk : q < (son i).k
              · have := hc3.2.1 q (by rw [sub_dim ey2]; exact hqk)
                simp only at this
                rw [(o3 i).1, if_pos hqk, one_mul, sub_val ey2, sub_val ey2, hc2 i le_rfl q hq, (o3 i).2.1] at this
                rw [this, if_pos hqk]
                congr 1
                refine Finset.sum_congr rfl fun l hl => ?_
                have hl := Finset.mem_range.mp hl
                rw [sub_val eyc, zero_add, hq2 l hl,
                  Rk.frame_val hf2 dE (by rw [(o3 i).1]; exact hqk) (by rw [(o3 i).2.1]; exact hl)]
              · rw [if_neg hqk, add_zero, sub_keep ey2 hc3.2.2 (by omega), hc2 i le_rfl q hq]
            · rw [synth_out hin, add_zero]
              unfold Vec.val
              rw [keepy p hp hin]
        · rintro ⟨⟨m2, a2⟩, o, o'⟩ - ⟨ha2, ho2, ho2', hv2, hy2, hf2, hq2, hc2, hr2⟩
          simp only at ha2 ho2 ho2' hv2 hy2 hf2 hq2 hc2 hr2 ⊢
          refine Tot.cassert (by rw [ho2, pre_all]; simpa using g1.2) ?_
          refine Tot.cassert (by rw [ho2', pre_all]; simp [g2]) ?_
          refine Tot.pure ⟨ha2, hv2, hy2, hf2, fun p hp => ?_⟩
          rw [hr2 p hp, pre_all]
          congr 1
          -- the son that contains the position
          obtain ⟨j, hj⟩ : ∃ j, In (son j).t (t.cl.off + p) := by
            by_contra hno
            push Not at hno
            have := sum_segments g1 (fun r => if r = t.cl.off + p then (1 : Nat) else 0)
            rw [Finset.sum_eq_zero (s := Finset.univ)] at this
            · rw [Finset.sum_eq_zero_iff] at this
              have := this p (Finset.mem_range.mpr (by omega))
              simp at this
            · intro j _
              refine Finset.sum_eq_zero fun i hi => if_neg fun e => hno j ?_
              rw [← e]
              exact In.add (Finset.mem_range.mp hi)
          rw [synth_son ⟨o1, o2, o3⟩ j hj (Y' := Y' j) (fun nu hnu => ?_) (fun q h1 h2 => ?_)]
          · refine Finset.sum_eq_single j (fun i _ hi => synth_out fun h => hi (In.unique g1 h hj))
              fun h => absurd (Finset.mem_univ _) h
          · simp only [Y']; rw [if_pos hnu]
          · simp only [Y']; rw [if_neg (by omega), add_zero]
    · rintro ⟨m2, a2⟩ - ⟨ha, p1, p2, p3, p4⟩
      simp only at ha p1 p2 p3 p4
      subst ha
      rw [uninit_eq]
      exact ⟨_, rfl, rfl, p1, p2, p3, p4⟩

end CBas
end H2
