import Verif.Proof.CbMatrix
import Verif.Proof.CbBranch

/-! Compression of matrices. -/

set_option linter.unusedSectionVars false

namespace H2
open Spec Dense

namespace CBas
open VSt
variable {G : Type} {K : Type} [Field K] [StarRing K]

theorem compressMat_tot : ∀ {cb : CBas G} {xp xt : Mat} {s : VSt K}, CbOk cb → CbSons cb → BranchOk cb → CbValid s.mem cb →
    Disj (CbCell cb) xt.Cell → xp.Valid s.mem → Disj xp.Cell xt.Cell → xt.Valid s.mem → cb.kbranch ≤ xt.rows →
    xp.rows = cb.size → xp.cols = xt.cols →
    Tot (compressMat cb xp xt s) fun s' => s'.act = s.act ∧ xt.Valid s'.mem ∧ Frame xt.Cell s.mem s'.mem ∧
      ∀ l < cb.k, ∀ c < xt.cols, xt.val s'.mem l c =
        ∑ i ∈ Finset.range cb.size, star (basis s.mem cb (cb.t.cl.off + i) l) * xp.val s.mem i c := by
  intro cb
  induction cb with
  | mk t k kt kb V E n son ih =>
    rintro xp xt ⟨m, a⟩ ho hsn hbr hv hd hx hxt hxv hdim hpd hcl
    replace hdim : kb ≤ xt.rows := hdim
    replace hpd : xp.rows = t.cl.size := hpd
    have hk : k ≤ kb := hbr.1
    simp only at hv hx hxv ⊢
    have hld := hxv.1
    have bc : 0 + k ≤ xt.rows := by omega
    have b0 : 0 + xt.cols ≤ xt.cols := by omega
    unfold compressMat
    refine Tot.cassert (by simpa using hpd.ge) ?_
    refine Tot.cassert (by simpa using hdim) ?_
    rw [openMat_eq bc b0, ok_bind]
    simp only
    refine Tot.bind (run_tot (clear_tot (win_valid hxv bc b0))) fun s1 _ h1 => ?_
    obtain ⟨m1, a1⟩ := s1
    obtain ⟨ha1, hc1⟩ := h1
    simp only at ha1 hc1
    subst ha1
    have hf1 : Frame xt.Cell m m1 := wframe bc b0 hc1.2.2
    have hv1 : xt.Valid m1 := wrevalid hxv hc1.1 hc1.2.2
    have hz1 : ∀ l < k, ∀ c < xt.cols, xt.val m1 l c = 0 := fun l hl c hc => by
      have := hc1.2.1 l hl c hc
      rw [win_val, zero_add, zero_add] at this; exact this
    obtain ⟨o1, o2, o3⟩ := ho
    refine Tot.bind (P := fun (s' : VSt K) => s'.act = a + 1 ∧ xt.Valid s'.mem ∧ Frame xt.Cell m s'.mem ∧
        ∀ l < k, ∀ c < xt.cols, xt.val s'.mem l c = ∑ i ∈ Finset.range t.cl.size,
          star (basis m (.mk t k kt kb V E n son) (t.cl.off + i) l) * xp.val m i c) ?_ ?_
    · by_cases h0 : n = 0
      · subst h0
        obtain ⟨e1, e2, e3⟩ := o1 rfl
        rw [if_neg (lt_irrefl _)]
        have dV : Disj V.Cell xt.Cell := fun c hc => hd c (.inl ⟨rfl, hc⟩)
        refine (run_tot (addmul_tot (Rk.frame_valid hf1 dV (hv.1 rfl)) (Rk.frame_valid hf1 hxt hx)
          (win_valid hv1 bc b0) (fun c h1 h2 => dV c h1 (wcell bc b0 h2)) (fun c h1 h2 => hxt c h1 (wcell bc b0 h2))
          true false (show V.rows = xp.rows by omega) (show V.cols ≤ k by omega) (show xp.cols ≤ xt.cols by omega) 1)).mono fun s3 h3 => ?_
        obtain ⟨m3, a3⟩ := s3
        obtain ⟨ha3, hc3⟩ := h3
        simp only at ha3 hc3
        refine ⟨ha3, wrevalid hv1 hc3.1 hc3.2.2, hf1.trans (wframe bc b0 hc3.2.2), fun l hl c hc => ?_⟩
        have := hc3.2.1 l hl c hc
        beta_reduce at this
        rw [win_val, win_val, zero_add, zero_add, if_pos (show l < opRows true V ∧ c < opCols false xp from
          ⟨show l < V.cols by omega, show c < xp.cols by omega⟩), one_mul] at this
        rw [this, hz1 l hl c hc, zero_add]
        show ∑ i ∈ Finset.range V.rows, star (V.val m1 i l) * xp.val m1 i c = _
        rw [e1]
        refine Finset.sum_congr rfl fun i hi => ?_
        have hi' := Finset.mem_range.mp hi
        rw [basis_leaf _ hi', Rk.frame_val hf1 dV (by omega) (by omega), Rk.frame_val hf1 hxt (by omega) (by omega)]
      · have hn : 0 < n := by omega
        obtain ⟨g1, g2⟩ := o2 hn
        obtain ⟨eN, hts⟩ := hsn.1 hn
        rw [if_pos hn]
        refine Tot.bind (foldFinM_tot (fun j (st : VSt K × Nat) => st.1.act = a + 1 ∧
          st.2 = pre (fun i => (son i).t.cl.size) j ∧ xt.Valid st.1.mem ∧ Frame xt.Cell m st.1.mem ∧
          ∀ l < k, ∀ c < xt.cols, xt.val st.1.mem l c = pre (fun i => ∑ r ∈ Finset.range (son i).t.cl.size,
            star (basis m (.mk t k kt kb V E n son) ((son i).t.cl.off + r) l) * xp.val m ((son i).t.cl.off + r - t.cl.off) c) j) ?_ ?_) ?_
        · exact ⟨rfl, by simp [pre_zero], hv1, hf1, fun l hl c hc => by rw [pre_zero, hz1 l hl c hc]⟩
        · rintro i ⟨⟨m2, a2⟩, o⟩ ⟨ha2, ho2, hv2, hf2, hq2⟩
          simp only at ha2 ho2 hv2 hf2 hq2
          subst ha2 ho2
          have hle := (hbr.2 i).1
          have hki := branch_k (hbr.2 i).2
          obtain ⟨b1, b2⟩ := HMat.Segments.bounds g1 i
          have b3 : k + (son i).kbranch ≤ xt.rows := by omega
          have b4 : k + (son i).k ≤ xt.rows := by omega
          have b5 : pre (fun i => (son i).t.cl.size) i.1 + (son i).t.cl.size ≤ xp.rows := by omega
          have b6 : 0 + xp.cols ≤ xp.cols := by omega
          have hlt : i.1 < t.nsons := by rw [← eN]; exact i.2
          have hsz : (t.son ⟨i.1, hlt⟩).cl.size = (son i).t.cl.size := by rw [hts i]; rfl
          simp only
          rw [dif_pos hlt, hsz, openMat_eq b5 b6, ok_bind]
          simp only
          rw [openMat_eq b3 b0, ok_bind]
          simp only
          have dS : Disj (CbCell (son i)) xt.Cell := fun c hc => hd c (.inr ⟨i, .inr hc⟩)
          have dE : Disj (son i).E.Cell xt.Cell := fun c hc => hd c (.inr ⟨i, .inl hc⟩)
          obtain ⟨hvS, hbS⟩ := frame_basis hf2 (o3 i).2.2 (hv.2 i).2 dS
          refine Tot.bind (ih i (xp := win xp (son i).t.cl.size (pre (fun i => (son i).t.cl.size) i.1) xp.cols 0)
            (xt := win xt (son i).kbranch k xt.cols 0) (s := ⟨m2, a + 1 + 1 + 1⟩) (o3 i).2.2 (hsn.2 i) (hbr.2 i).2 hvS
            (fun c h1 h2 => dS c h1 (wcell b3 b0 h2)) (win_valid (Rk.frame_valid hf2 hxt hx) b5 b6)
            (fun c h1 h2 => hxt c (wcell b5 b6 h1) (wcell b3 b0 h2)) (win_valid hv2 b3 b0) le_rfl rfl hcl)
            fun s3 _ h3 => ?_
          obtain ⟨m3, a3⟩ := s3
          obtain ⟨ha3, hv3, hf3, hc3⟩ := h3
          simp only at ha3 hv3 hf3 hc3
          subst ha3
          have hf3' : Frame xt.Cell m m3 := hf2.trans (wframe b3 b0 hf3)
          have hv3' : xt.Valid m3 := wrevalid hv2 hv3 hf3
          rw [uninit_eq, ok_bind, uninit_eq, ok_bind, openMat_eq b4 b0, ok_bind]
          simp only
          refine Tot.bind (run_tot (addmul_tot (Rk.frame_valid hf3' dE (hv.2 i).1) (win_valid hv3' b4 b0)
            (win_valid hv3' bc b0) (fun c h1 h2 => dE c h1 (wcell bc b0 h2)) (win_disj hld b4 bc (.inr (.inl (by omega))))
            true false (o3 i).1 (show (son i).E.cols ≤ k by rw [(o3 i).2.1]) (show xt.cols ≤ xt.cols by omega) 1)) fun s4 _ h4 => ?_
          obtain ⟨m4, a4⟩ := s4
          obtain ⟨ha4, hc4⟩ := h4
          simp only at ha4 hc4
          subst ha4
          rw [uninit_eq, ok_bind]
          refine Tot.pure ⟨rfl, ?_, wrevalid hv3' hc4.1 hc4.2.2, hf3'.trans (wframe bc b0 hc4.2.2), ?_⟩
          · simp only
            rw [pre_succ]
          · intro l hl c hc
            have := hc4.2.1 l hl c hc
            beta_reduce at this
            rw [win_val, win_val, zero_add, zero_add, if_pos (show l < opRows true (son i).E ∧
              c < opCols false (win xt (son i).k k xt.cols 0) from
              ⟨show l < (son i).E.cols by rw [(o3 i).2.1]; exact hl, hc⟩), one_mul] at this
            rw [this, wkeep hld b3 hf3 (by omega) (by omega), hq2 l hl c hc, pre_succ]
            congr 1
            show ∑ nu ∈ Finset.range (son i).E.rows, star ((son i).E.val m3 nu l) * (win xt (son i).k k xt.cols 0).val m3 nu c = _
            rw [(o3 i).1]
            have e : ∀ nu ∈ Finset.range (son i).k, star ((son i).E.val m3 nu l) * (win xt (son i).k k xt.cols 0).val m3 nu c =
                ∑ r ∈ Finset.range (son i).t.cl.size, star ((son i).E.val m nu l) *
                  (star (basis m (son i) ((son i).t.cl.off + r) nu) * xp.val m ((son i).t.cl.off + r - t.cl.off) c) := by
              intro nu hnu
              have hnu := Finset.mem_range.mp hnu
              have := hc3 nu hnu c hc
              rw [win_val, zero_add] at this
              rw [win_val, zero_add, this, Rk.frame_val hf3' dE (by rw [(o3 i).1]; exact hnu) (by rw [(o3 i).2.1]; exact hl), Finset.mul_sum]
              refine Finset.sum_congr rfl fun r hr => ?_
              have hr : r < (son i).t.cl.size := Finset.mem_range.mp hr
              rw [hbS _ nu hnu, win_val, zero_add, Rk.frame_val hf2 hxt (by omega) (by omega),
                show pre (fun i => (son i).t.cl.size) i.1 + r = (son i).t.cl.off + r - t.cl.off by omega]
            rw [Finset.sum_congr rfl e, Finset.sum_comm]
            refine Finset.sum_congr rfl fun r hr => ?_
            rw [basis_son ⟨o1, o2, o3⟩ i (In.add (Finset.mem_range.mp hr)), star_sum, Finset.sum_mul]
            refine Finset.sum_congr rfl fun nu _ => ?_
            rw [star_mul']; ring
        · rintro ⟨⟨m2, a2⟩, o⟩ - ⟨ha2, ho2, hv2, hf2, hq2⟩
          simp only at ha2 ho2 hv2 hf2 hq2 ⊢
          refine Tot.cassert (by rw [ho2, pre_all]; simpa using g1.2) ?_
          refine Tot.pure ⟨ha2, hv2, hf2, fun l hl c hc => ?_⟩
          rw [hq2 l hl c hc, pre_all, ← sum_segments g1 (fun r => star (basis m (.mk t k kt kb V E n son) r l) * xp.val m (r - t.cl.off) c)]
          refine Finset.sum_congr rfl fun i _ => ?_
          rw [Nat.add_sub_cancel_left]
    · rintro ⟨m2, a2⟩ - ⟨ha, p1, p2, p3⟩
      simp only at ha p1 p2 p3
      subst ha
      rw [uninit_eq]
      exact ⟨_, rfl, rfl, p1, p2, p3⟩

end CBas
end H2
