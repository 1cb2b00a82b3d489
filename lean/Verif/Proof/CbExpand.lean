import Verif.Proof.CbMatrix3
import Verif.Model.CbExpand

set_option linter.unusedSectionVars false

namespace H2
open Spec Dense

namespace CBas
open VSt
variable {G : Type} {K : Type} [Field K] [StarRing K]

theorem expandMat_tot : ∀ {cb : CBas G} {yt y : Mat} {s : VSt K}, CbOk cb → BranchOk cb → CbValid s.mem cb →
    Disj (CbCell cb) yt.Cell → Disj (CbCell cb) y.Cell → y.Valid s.mem → Disj yt.Cell y.Cell → yt.Valid s.mem →
    yt.rows = cb.kbranch → y.rows = cb.size → y.cols = yt.cols → Tot (expandMat cb yt y s) fun s' => s'.act = s.act ∧ yt.Valid s'.mem ∧ y.Valid s'.mem ∧
      Frame (fun c => yt.Cell c ∨ y.Cell c) s.mem s'.mem ∧
      (∀ l < cb.k, ∀ c < yt.cols, yt.val s'.mem l c = yt.val s.mem l c) ∧
      ∀ i < y.rows, ∀ c < yt.cols, y.val s'.mem i c = y.val s.mem i c + ∑ l ∈ Finset.range cb.k, basis s.mem cb (cb.t.cl.off + i) l * yt.val s.mem l c := by
  intro cb
  induction cb with
  | mk t k kt kb V E n son ih =>
    rintro yt y ⟨m, a⟩ ho hbr hv hd hdy hy hyt hyv hdim hpd hcl
    replace hdim : yt.rows = kb := hdim
    replace hpd : y.rows = t.cl.size := hpd
    have hk : k ≤ kb := hbr.1
    simp only at hv hy hyv ⊢
    have hld := hyv.1
    have hldy := hy.1
    have bc : 0 + k ≤ yt.rows := by omega
    have b0 : 0 + yt.cols ≤ yt.cols := by omega
    have by0 : 0 + yt.cols ≤ y.cols := by omega
    unfold expandMat
    refine Tot.cassert (by simpa using hdim) ?_
    rw [openMat_eq bc b0, ok_bind]
    simp only
    obtain ⟨o1, o2, o3⟩ := ho
    refine Tot.bind (P := fun (s' : VSt K) => s'.act = a + 1 ∧ yt.Valid s'.mem ∧ y.Valid s'.mem ∧
      Frame (fun c => yt.Cell c ∨ y.Cell c) m s'.mem ∧ (∀ l < k, ∀ c < yt.cols, yt.val s'.mem l c = yt.val m l c) ∧
      ∀ i < y.rows, ∀ c < yt.cols, y.val s'.mem i c = y.val m i c +
        ∑ l ∈ Finset.range k, basis m (.mk t k kt kb V E n son) (t.cl.off + i) l * yt.val m l c) ?_ ?_
    · by_cases h0 : n = 0
      · subst h0
        obtain ⟨e1, e2, e3⟩ := o1 rfl
        rw [if_neg (lt_irrefl _)]
        have dV : Disj V.Cell y.Cell := fun c hc => hdy c (.inl ⟨rfl, hc⟩)
        refine (run_tot (addmul_tot (hv.1 rfl) (win_valid hyv bc b0) hy dV (fun c h1 h2 => hyt c (wcell bc b0 h1) h2)
          false false (show V.cols = k by omega) (show V.rows ≤ y.rows by omega) (show yt.cols ≤ y.cols by omega) 1)).mono fun s1 h1 => ?_
        obtain ⟨m1, a1⟩ := s1
        obtain ⟨ha1, hc1⟩ := h1
        simp only at ha1 hc1
        refine ⟨ha1, Rk.frame_valid hc1.2.2 hyt hyv, hc1.1, Frame.mono hc1.2.2 fun c h => .inr h, fun l hl c hc =>
          Rk.frame_val hc1.2.2 hyt (by omega) hc, fun p hp c hc => ?_⟩
        have := hc1.2.1 p hp c (by omega)
        beta_reduce at this
        rw [if_pos (show p < opRows false V ∧ c < opCols false (win yt k 0 yt.cols 0) from ⟨show p < V.rows by omega, hc⟩), one_mul] at this
        simp only
        rw [this]
        congr 1
        show ∑ l ∈ Finset.range V.cols, V.val m p l * (win yt k 0 yt.cols 0).val m l c = _
        rw [e2]
        exact Finset.sum_congr rfl fun l _ => by rw [basis_leaf _ (by omega), win_val, zero_add, zero_add]
      · have hn : 0 < n := by omega
        obtain ⟨g1, g2⟩ := o2 hn
        rw [if_pos hn]
        refine Tot.bind (foldFinM_tot (fun j (st : VSt K × Nat) => st.1.act = a + 1 ∧
          st.2 = pre (fun i => (son i).t.cl.size) j ∧ yt.Valid st.1.mem ∧ y.Valid st.1.mem ∧
          Frame (fun c => yt.Cell c ∨ y.Cell c) m st.1.mem ∧
          (∀ l < k, ∀ c < yt.cols, yt.val st.1.mem l c = yt.val m l c) ∧
          ∀ p < y.rows, ∀ c < yt.cols, y.val st.1.mem p c = y.val m p c +
            pre (fun i => ∑ nu ∈ Finset.range (son i).k, basis m (son i) (t.cl.off + p) nu *
              ∑ l ∈ Finset.range k, (son i).E.val m nu l * yt.val m l c) j) ?_ ?_) ?_
        · exact ⟨rfl, by simp [pre_zero], hyv, hy, fun _ _ => rfl, fun l _ _ _ => rfl, fun p _ _ _ => by rw [pre_zero, add_zero]⟩
        · rintro i ⟨⟨m2, a2⟩, o⟩ ⟨ha2, ho2, hv2, hy2, hf2, hq2, hr2⟩
          simp only at ha2 ho2 hv2 hy2 hf2 hq2 hr2
          subst ha2 ho2
          have hle := (hbr.2 i).1
          have hki := branch_k (hbr.2 i).2
          obtain ⟨b1, b2⟩ := HMat.Segments.bounds g1 i
          have b3 : k + (son i).kbranch ≤ yt.rows := by omega
          have b4 : k + (son i).k ≤ yt.rows := by omega
          have b5 : pre (fun i => (son i).t.cl.size) i.1 + (son i).size ≤ y.rows := by unfold CBas.size; omega
          simp only
          rw [openMat_eq b4 b0, ok_bind]
          simp only
          have dS : Disj (CbCell (son i)) (fun c => yt.Cell c ∨ y.Cell c) := fun c hc h => h.elim
            (hd c (.inr ⟨i, .inr hc⟩)) (hdy c (.inr ⟨i, .inr hc⟩))
          have dE : Disj (son i).E.Cell (fun c => yt.Cell c ∨ y.Cell c) := fun c hc h => h.elim
            (hd c (.inr ⟨i, .inl hc⟩)) (hdy c (.inr ⟨i, .inl hc⟩))
          refine Tot.bind (run_tot (clear_tot (win_valid hv2 b4 b0))) fun s3 _ h3 => ?_
          obtain ⟨m3, a3⟩ := s3
          obtain ⟨ha3, hc3⟩ := h3
          simp only at ha3 hc3
          subst ha3
          have hf3 : Frame (fun c => yt.Cell c ∨ y.Cell c) m m3 :=
            hf2.trans (Frame.mono (wframe b4 b0 hc3.2.2) fun c h => .inl h)
          have hv3 : yt.Valid m3 := wrevalid hv2 hc3.1 hc3.2.2
          refine Tot.bind (run_tot (addmul_tot (Rk.frame_valid hf3 dE (hv.2 i).1) (win_valid hv3 bc b0)
            (win_valid hv3 b4 b0) (fun c h1 h2 => dE c h1 (.inl (wcell b4 b0 h2)))
            (win_disj hld bc b4 (.inl (by omega))) false false (o3 i).2.1
            (show (son i).E.rows ≤ (son i).k by rw [(o3 i).1]) (show yt.cols ≤ yt.cols from le_rfl) 1)) fun s4 _ h4 => ?_
          obtain ⟨m4, a4⟩ := s4
          obtain ⟨ha4, hc4⟩ := h4
          simp only at ha4 hc4
          subst ha4
          rw [uninit_eq, ok_bind, openMat_eq b3 b0, ok_bind]
          simp only
          rw [openMat_eq b5 by0, ok_bind]
          simp only
          have hfy : Frame yt.Cell m2 m4 := Frame.trans (wframe b4 b0 hc3.2.2) (wframe b4 b0 hc4.2.2)
          have hf4 : Frame (fun c => yt.Cell c ∨ y.Cell c) m m4 := hf2.trans (Frame.mono hfy fun c h => .inl h)
          have hv4 : yt.Valid m4 := wrevalid hv3 hc4.1 hc4.2.2
          have hyty : Disj y.Cell yt.Cell := fun c h1 h2 => hyt c h2 h1
          have hy4 : y.Valid m4 := Rk.frame_valid hfy hyty hy2
          have hq4 : ∀ l < k, ∀ c < yt.cols, yt.val m4 l c = yt.val m l c := fun l hl c hc => by
            rw [wkeep hld b4 hc4.2.2 (by omega) (by omega), wkeep hld b4 hc3.2.2 (by omega) (by omega), hq2 l hl c hc]
          have hn4 : ∀ nu < (son i).k, ∀ c < yt.cols, yt.val m4 (k + nu) c = ∑ l ∈ Finset.range k, (son i).E.val m nu l * yt.val m l c := by
            intro nu hnu c hc
            have h5 := hc4.2.1 nu hnu c hc
            have h6 := hc3.2.1 nu hnu c hc
            beta_reduce at h5 h6
            rw [if_pos (show nu < opRows false (son i).E ∧ c < opCols false (win yt k 0 yt.cols 0) from
              ⟨show nu < (son i).E.rows by rw [(o3 i).1]; exact hnu, hc⟩), one_mul, h6, zero_add, win_val, zero_add] at h5
            rw [h5]
            show ∑ l ∈ Finset.range (son i).E.cols, (son i).E.val m3 nu l * (win yt k 0 yt.cols 0).val m3 l c = _
            rw [(o3 i).2.1]
            refine Finset.sum_congr rfl fun l hl => ?_
            have hl : l < k := Finset.mem_range.mp hl
            rw [win_val, zero_add, zero_add, wkeep hld b4 hc3.2.2 (by omega) (by omega), hq2 l hl c hc,
              Rk.frame_val hf3 dE (by rw [(o3 i).1]; exact hnu) (by rw [(o3 i).2.1]; exact hl)]
          obtain ⟨hvS, hbS⟩ := frame_basis hf4 (o3 i).2.2 (hv.2 i).2 dS
          refine Tot.bind (ih i (yt := win yt (son i).kbranch k yt.cols 0)
            (y := win y (son i).size (pre (fun i => (son i).t.cl.size) i.1) yt.cols 0) (s := ⟨m4, a + 1 + 1 + 1⟩) (o3 i).2.2 (hbr.2 i).2 hvS
            (fun c h1 h2 => dS c h1 (.inl (wcell b3 b0 h2))) (fun c h1 h2 => dS c h1 (.inr (wcell b5 by0 h2)))
            (win_valid hy4 b5 by0)
            (fun c h1 h2 => hyt c (wcell b3 b0 h1) (wcell b5 by0 h2)) (win_valid hv4 b3 b0) rfl rfl rfl)
            fun s5 _ h5 => ?_
          obtain ⟨m5, a5⟩ := s5
          obtain ⟨ha5, hv5, hy5, hf5, -, hr5⟩ := h5
          simp only at ha5 hv5 hy5 hf5 hr5
          subst ha5
          rw [uninit_eq, ok_bind, uninit_eq, ok_bind]
          have hf5' : Frame (fun c => yt.Cell c ∨ y.Cell c) m4 m5 :=
            hf5.mono fun c h => h.imp (wcell b3 b0) (wcell b5 by0)
          have keep : ∀ l < k, ∀ c < yt.cols, yt.val m5 l c = yt.val m4 l c := by
            intro q hq c hc
            unfold Mat.val
            rw [hf5]
            rintro (⟨i', hi', j', hj', e⟩ | h)
            · simp only [win] at hi' hj'
              rw [win_addr] at e
              have := Mat.addr_inj hld (show q < yt.rows by omega) (show k + i' < yt.rows by omega) e
              omega
            · exact hyt _ (Mat.cell_addr (by omega) hc) (wcell b5 by0 h)
          have keepy : ∀ q < y.rows, ∀ c < yt.cols, ¬ In (son i).t (t.cl.off + q) → m5 (y.addr q c) = m4 (y.addr q c) := by
            intro q hq c hc hn'
            rw [hf5]
            rintro (h | ⟨i', hi', j', hj', e⟩)
            · exact hyt _ (wcell b3 b0 h) (Mat.cell_addr hq (by omega))
            · simp only [win] at hi' hj'
              have hi' : i' < (son i).t.cl.size := hi'
              rw [win_addr] at e
              have := Mat.addr_inj hldy hq (show pre (fun i => (son i).t.cl.size) i.1 + i' < y.rows by unfold CBas.size at b5; omega) e
              apply hn'
              unfold In
              omega
          refine Tot.pure ⟨rfl, ?_, ?_, ?_, hf4.trans hf5', ?_, ?_⟩
          · simp only
            rw [pre_succ]; rfl
          · refine ⟨hld, fun q hq c hc => ?_⟩
            simp only
            by_cases hc' : (win yt (son i).kbranch k yt.cols 0).Cell (yt.addr q c)
            · obtain ⟨i', hi', j', hj', e⟩ := hc'
              rw [e]; exact hv5.2 i' hi' j' hj'
            · rw [hf5 _ (fun h => h.elim hc' fun h => (hyt _ (Mat.cell_addr hq hc)) (wcell b5 by0 h))]
              exact hv4.2 q hq c hc
          · refine ⟨hldy, fun q hq c hc => ?_⟩
            simp only
            by_cases hc' : (win y (son i).size (pre (fun i => (son i).t.cl.size) i.1) yt.cols 0).Cell (y.addr q c)
            · obtain ⟨i', hi', j', hj', e⟩ := hc'
              rw [e]; exact hy5.2 i' hi' j' hj'
            · rw [hf5 _ (fun h => h.elim (fun h => hyt _ (wcell b3 b0 h) (Mat.cell_addr hq hc)) hc')]
              exact hy4.2 q hq c hc
          · intro l hl c hc
            rw [keep l hl c hc]
            exact hq4 l hl c hc
          · intro p hp c hc
            simp only
            rw [pre_succ, ← add_assoc, ← hr2 p hp c hc, ← Rk.frame_val hfy hyty hp (by omega)]
            by_cases hin : In (son i).t (t.cl.off + p)
            · have hin' := hin
              unfold In at hin'
              have := hr5 (t.cl.off + p - (son i).t.cl.off) (show t.cl.off + p - (son i).t.cl.off < (son i).t.cl.size by omega) c hc
              rw [win_val, win_val, show pre (fun i => (son i).t.cl.size) i.1 +
                (t.cl.off + p - (son i).t.cl.off) = p by omega, zero_add] at this
              rw [this, show (son i).t.cl.off + (t.cl.off + p - (son i).t.cl.off) = t.cl.off + p by omega]
              congr 1
              refine Finset.sum_congr rfl fun nu hnu => ?_
              have hnu := Finset.mem_range.mp hnu
              rw [hbS _ nu hnu, win_val, zero_add, hn4 nu hnu c hc]
            · rw [Finset.sum_eq_zero fun nu _ => by rw [basis_zero (o3 i).2.2 nu hin, zero_mul], add_zero]
              unfold Mat.val
              rw [keepy p hp c hc hin]
        · rintro ⟨⟨m2, a2⟩, o⟩ - ⟨ha2, ho2, hv2, hy2, hf2, hq2, hr2⟩
          simp only at ha2 ho2 hv2 hy2 hf2 hq2 hr2 ⊢
          refine Tot.cassert (by rw [ho2, pre_all]; simpa using g1.2) ?_
          refine Tot.pure ⟨ha2, hv2, hy2, hf2, hq2, fun p hp c hc => ?_⟩
          rw [hr2 p hp c hc, pre_all]
          congr 1
          have e : ∀ l ∈ Finset.range k, basis m (.mk t k kt kb V E n son) (t.cl.off + p) l * yt.val m l c =
              ∑ i, ∑ nu ∈ Finset.range (son i).k, basis m (son i) (t.cl.off + p) nu * ((son i).E.val m nu l * yt.val m l c) := by
            intro l _
            rw [basis_node hn, Finset.sum_mul]
            refine Finset.sum_congr rfl fun i _ => ?_
            rw [Finset.sum_mul]
            exact Finset.sum_congr rfl fun nu _ => mul_assoc _ _ _
          rw [Finset.sum_congr rfl e, Finset.sum_comm]
          refine Finset.sum_congr rfl fun i _ => ?_
          rw [Finset.sum_comm]
          exact Finset.sum_congr rfl fun nu _ => Finset.mul_sum _ _ _
    · rintro ⟨m2, a2⟩ - ⟨ha, p1, p2, p3, p4, p5⟩
      simp only at ha p1 p2 p3 p4 p5
      subst ha
      rw [uninit_eq]
      exact ⟨_, rfl, rfl, p1, p2, p3, p4, p5⟩

end CBas
end H2
