import Verif.Proof.ClusterBasis3
import Verif.Proof.FactorBlocks
import Verif.Model.CbMatrix

/-! Forward transformation of matrices. -/

set_option linter.unusedSectionVars false

namespace H2
open Spec Dense

section
variable {K : Type} [Field K] [StarRing K]

theorem wcell {a : Mat} {rs ro cs co : Nat} (h1 : ro + rs ≤ a.rows) (h2 : co + cs ≤ a.cols) {c : Nat}
    (h : (win a rs ro cs co).Cell c) : a.Cell c := by
  obtain ⟨i, hi, j, hj, rfl⟩ := h
  simp only [win] at hi hj
  rw [win_addr]
  exact Mat.cell_addr (by omega) (by omega)

theorem wframe {a : Mat} {rs ro cs co : Nat} (h1 : ro + rs ≤ a.rows) (h2 : co + cs ≤ a.cols) {m m' : Mem K}
    (h : Frame (win a rs ro cs co).Cell m m') : Frame a.Cell m m' := h.mono fun _ => wcell h1 h2

theorem wkeep {a : Mat} {rs ro cs co : Nat} {m m' : Mem K} (hld : a.rows ≤ a.ld) (h1 : ro + rs ≤ a.rows)
    (h : Frame (win a rs ro cs co).Cell m m') {i j : Nat} (hi : i < a.rows) (hn : ¬ (ro ≤ i ∧ i < ro + rs)) :
    a.val m' i j = a.val m i j := by
  unfold Mat.val
  rw [h]
  rintro ⟨i', hi', j', hj', e⟩
  simp only [win] at hi' hj'
  rw [win_addr] at e
  have := Mat.addr_inj hld hi (show ro + i' < a.rows by omega) e
  omega

theorem wrevalid {a : Mat} {rs ro cs co : Nat} {m m' : Mem K} (ha : a.Valid m)
    (hw : (win a rs ro cs co).Valid m') (h : Frame (win a rs ro cs co).Cell m m') : a.Valid m' := by
  refine ⟨ha.1, fun i hi j hj => ?_⟩
  by_cases hc : (win a rs ro cs co).Cell (a.addr i j)
  · obtain ⟨i', hi', j', hj', e⟩ := hc
    rw [e]; exact hw.2 i' hi' j' hj'
  · rw [h _ hc]; exact ha.2 i hi j hj

/-- the rows (or, with `tr`, columns) of a son -/
def part (tr : Bool) (a : Mat) (sz off : Nat) : Mat := if tr then win a a.rows 0 sz off else win a sz off a.cols 0

theorem part_rows (tr : Bool) (a : Mat) (sz off : Nat) : opRows tr (part tr a sz off) = sz := by cases tr <;> rfl
theorem part_cols (tr : Bool) (a : Mat) (sz off : Nat) : opCols tr (part tr a sz off) = opCols tr a := by cases tr <;> rfl
theorem part_op (tr : Bool) (a : Mat) (sz off : Nat) (m : Mem K) (i j : Nat) :
    op tr ((part tr a sz off).val m) i j = op tr (a.val m) (off + i) j := by
  cases tr
  · show (win a sz off a.cols 0).val m i j = _
    rw [win_val, zero_add]; rfl
  · show star ((win a a.rows 0 sz off).val m j i) = _
    rw [win_val, zero_add]; rfl
theorem part_valid {tr : Bool} {a : Mat} {sz off : Nat} {m : Mem K} (ha : a.Valid m) (h : off + sz ≤ opRows tr a) :
    (part tr a sz off).Valid m := by
  cases tr
  · exact win_valid ha h (by omega)
  · exact win_valid ha (by omega) h
theorem part_cell {tr : Bool} {a : Mat} {sz off : Nat} (h : off + sz ≤ opRows tr a) {c : Nat}
    (hc : (part tr a sz off).Cell c) : a.Cell c := by
  cases tr
  · exact wcell h (by omega) hc
  · exact wcell (by omega) h hc
end

namespace VSt
variable {K : Type} [Field K] [StarRing K]

theorem openMat_eq {a : Mat} {rs ro cs co : Nat} (h1 : ro + rs ≤ a.rows) (h2 : co + cs ≤ a.cols) (m : Mem K) (n : Nat) :
    openMat a rs ro cs co ⟨m, n⟩ = .ok (win a rs ro cs co, ⟨m, n + 1⟩) := by
  unfold openMat; rw [initSub_win h1 h2]; rfl

theorem openPart_eq {tr : Bool} {a : Mat} {sz off : Nat} (h : off + sz ≤ opRows tr a) (m : Mem K) (n : Nat) :
    CBas.openPart tr a sz off ⟨m, n⟩ = .ok (part tr a sz off, ⟨m, n + 1⟩) := by
  unfold CBas.openPart part
  cases tr
  · exact openMat_eq h (by omega) m n
  · exact openMat_eq (by omega) h m n
end VSt

namespace CBas
open VSt
variable {G : Type} {K : Type} [Field K] [StarRing K]

theorem forwardMat_tot (tr : Bool) : ∀ {cb : CBas G} {xp xt : Mat} {s : VSt K}, CbOk cb → CbSons cb → CbValid s.mem cb →
    Disj (CbCell cb) xt.Cell → xp.Valid s.mem → Disj xp.Cell xt.Cell → xt.Valid s.mem → xt.rows = cb.ktree →
    opRows tr xp = cb.size → opCols tr xp = xt.cols →
    Tot (forwardMat tr cb xp xt s) fun s' => s'.act = s.act ∧ xt.Valid s'.mem ∧ Frame xt.Cell s.mem s'.mem ∧
      ∀ c < xt.cols, IsCoeffs s.mem cb (fun r => op tr (xp.val s.mem) (r - cb.t.cl.off) c) (fun q => xt.val s'.mem q c) := by
  intro cb
  induction cb with
  | mk t k kt kb V E n son ih =>
    rintro xp xt ⟨m, a⟩ ho hsn hv hd hx hxt hxv hdim hpd hcl
    replace hdim : xt.rows = kt := hdim
    replace hpd : opRows tr xp = t.cl.size := hpd
    have hk : k ≤ kt := k_le_ktree ho
    simp only at hv hx hxv ⊢
    have hld := hxv.1
    have bc : 0 + k ≤ xt.rows := by omega
    have b0 : 0 + xt.cols ≤ xt.cols := by omega
    unfold forwardMat
    refine Tot.cassert (by simpa [opRows] using hpd) ?_
    refine Tot.cassert (by simpa using hdim) ?_
    refine Tot.cassert (by simpa [opCols] using hcl) ?_
    rw [openMat_eq bc b0, ok_bind]
    simp only
    refine Tot.bind (run_tot (clear_tot (win_valid hxv bc b0))) fun s1 _ h1 => ?_
    obtain ⟨m1, a1⟩ := s1
    obtain ⟨ha1, hc1⟩ := h1
    simp only at ha1 hc1
    subst ha1
    have hf1 : Frame xt.Cell m m1 := wframe bc b0 hc1.2.2
    have hv1 : xt.Valid m1 := wrevalid hxv hc1.1 hc1.2.2
    have hz1 : ∀ l < k, ∀ c < xt.cols, xt.val m1 l c = 0 := fun l hl c hc => by
      have := hc1.2.1 l hl c hc
      rw [win_val, zero_add, zero_add] at this; exact this
    obtain ⟨o1, o2, o3⟩ := ho
    have xval : ∀ {m2 : Mem K}, Frame xt.Cell m m2 → ∀ i < t.cl.size, ∀ c < xt.cols, op tr (xp.val m2) i c = op tr (xp.val m) i c := by
      intro m2 hf i hi c hc
      cases tr
      · have e1 : xp.rows = t.cl.size := hpd
        have e2 : xp.cols = xt.cols := hcl
        exact Rk.frame_val hf hxt (by omega) (by omega)
      · have e1 : xp.cols = t.cl.size := hpd
        have e2 : xp.rows = xt.cols := hcl
        exact congrArg star (Rk.frame_val hf hxt (by omega) (by omega))
    refine Tot.bind (P := fun (s' : VSt K) => s'.act = a + 1 ∧ xt.Valid s'.mem ∧ Frame xt.Cell m s'.mem ∧
        ∀ c < xt.cols, IsCoeffs m (.mk t k kt kb V E n son) (fun r => op tr (xp.val m) (r - t.cl.off) c) (fun q => xt.val s'.mem q c)) ?_ ?_
    · by_cases h0 : n = 0
      · subst h0
        obtain ⟨e1, e2, e3⟩ := o1 rfl
        rw [if_neg (lt_irrefl _)]
        have b1 : k + t.cl.size ≤ xt.rows := by omega
        rw [openMat_eq b1 b0, ok_bind]
        simp only
        have hx1 : xp.Valid m1 := Rk.frame_valid hf1 hxt hx
        have dxp : Disj xp.Cell (win xt t.cl.size k xt.cols 0).Cell := fun c h1 h2 => hxt c h1 (wcell b1 b0 h2)
        refine Tot.bind (run_tot (copy_tot hx1 (win_valid hv1 b1 b0) dxp tr hpd.symm hcl.symm)) fun s2 _ h2 => ?_
        obtain ⟨m2, a2⟩ := s2
        obtain ⟨ha2, hc2⟩ := h2
        simp only at ha2 hc2
        subst ha2
        have hf2 : Frame xt.Cell m m2 := hf1.trans (wframe b1 b0 hc2.2.2)
        have hv2 : xt.Valid m2 := wrevalid hv1 hc2.1 hc2.2.2
        have dV : Disj V.Cell xt.Cell := fun c hc => hd c (.inl ⟨rfl, hc⟩)
        refine Tot.bind (run_tot (addmul_tot (Rk.frame_valid hf2 dV (hv.1 rfl)) (win_valid hv2 b1 b0)
          (win_valid hv2 bc b0) (fun c h1 h2 => dV c h1 (wcell bc b0 h2)) (win_disj hld b1 bc (.inr (.inl (by omega))))
          true false e1 (show V.cols ≤ k by omega) (show xt.cols ≤ xt.cols by omega) 1)) fun s3 _ h3 => ?_
        obtain ⟨m3, a3⟩ := s3
        obtain ⟨ha3, hc3⟩ := h3
        simp only at ha3 hc3
        subst ha3
        rw [uninit_eq]
        refine ⟨_, rfl, rfl, wrevalid hv2 hc3.1 hc3.2.2, hf2.trans (wframe bc b0 hc3.2.2), fun c hc => ⟨?_, ?_, fun i => i.elim0⟩⟩
        · intro l hl
          have := hc3.2.1 l hl c hc
          simp only at this ⊢
          rw [win_val, win_val, zero_add, zero_add, if_pos (show l < opRows true V ∧ c < opCols false (win xt t.cl.size k xt.cols 0) from ⟨show l < V.cols by omega, hc⟩), one_mul] at this
          rw [this, wkeep hld b1 hc2.2.2 (by omega) (by omega), hz1 l hl c hc, zero_add]
          show ∑ i ∈ Finset.range V.rows, _ = _
          rw [e1]
          refine Finset.sum_congr rfl fun i hi => ?_
          have hi' := Finset.mem_range.mp hi
          show star (V.val m2 i l) * (win xt t.cl.size k xt.cols 0).val m2 i c = _
          rw [basis_leaf _ hi', Rk.frame_val hf2 dV (by omega) (by omega)]
          have := hc2.2.1 i hi' c hc
          rw [this, Nat.add_sub_cancel_left, xval hf1 i hi' c hc]
        · intro _ i hi
          have := hc2.2.1 i hi c hc
          simp only at this ⊢
          rw [win_val, zero_add] at this
          rw [wkeep hld bc hc3.2.2 (by omega) (by omega), this, Nat.add_sub_cancel_left, xval hf1 i hi c hc]
      · have hn : 0 < n := by omega
        obtain ⟨g1, g2⟩ := o2 hn
        obtain ⟨eN, hts⟩ := hsn.1 hn
        rw [if_pos hn]
        refine Tot.bind (foldFinM_tot (fun j (st : VSt K × Nat × Nat) => st.1.act = a + 1 ∧
          st.2.1 = pre (fun i => (son i).t.cl.size) j ∧
          st.2.2 = k + pre (fun i => (son i).ktree) j ∧ xt.Valid st.1.mem ∧ Frame xt.Cell m st.1.mem ∧
          (∀ c < xt.cols, ∀ l < k, xt.val st.1.mem l c = pre (fun i => ∑ nu ∈ Finset.range (son i).k, star ((son i).E.val m nu l) *
            xt.val st.1.mem (k + ofs (fun i => (son i).ktree) i + nu) c) j) ∧
          ∀ c < xt.cols, ∀ i : Fin n, i.1 < j → IsCoeffs m (son i) (fun r => op tr (xp.val m) (r - t.cl.off) c)
            (fun q => xt.val st.1.mem (k + ofs (fun i => (son i).ktree) i + q) c)) ?_ ?_) ?_
        · exact ⟨rfl, by simp [pre_zero], by simp [pre_zero], hv1, hf1, fun c hc l hl => by rw [pre_zero, hz1 l hl c hc],
            fun c _ i hi => absurd hi (Nat.not_lt_zero _)⟩
        · rintro i ⟨⟨m2, a2⟩, o, o'⟩ ⟨ha2, ho2, ho2', hv2, hf2, hq2, hc2⟩
          simp only at ha2 ho2 ho2' hv2 hf2 hq2 hc2
          subst ha2 ho2 ho2'
          have hle := segs_le (fun i => (son i).ktree) i
          obtain ⟨b1, b2⟩ := HMat.Segments.bounds g1 i
          rw [← ofs_eq (fun i => (son i).ktree)]
          have hki := k_le_ktree (o3 i).2.2
          have b3 : k + ofs (fun i => (son i).ktree) i + (son i).ktree ≤ xt.rows := by omega
          have b4 : k + ofs (fun i => (son i).ktree) i + (son i).k ≤ xt.rows := by omega
          have b5 : pre (fun i => (son i).t.cl.size) i.1 + (son i).t.cl.size ≤ opRows tr xp := by omega
          have hlt : i.1 < t.nsons := by rw [← eN]; exact i.2
          have hsz : (t.son ⟨i.1, hlt⟩).cl.size = (son i).t.cl.size := by rw [hts i]; rfl
          simp only
          rw [dif_pos hlt, hsz, openPart_eq b5, ok_bind]
          simp only
          rw [openMat_eq b3 b0, ok_bind]
          simp only
          have dS : Disj (CbCell (son i)) xt.Cell := fun c hc => hd c (.inr ⟨i, .inr hc⟩)
          have dE : Disj (son i).E.Cell xt.Cell := fun c hc => hd c (.inr ⟨i, .inl hc⟩)
          obtain ⟨hvS, _⟩ := frame_basis hf2 (o3 i).2.2 (hv.2 i).2 dS
          refine Tot.bind (ih i (xp := part tr xp (son i).t.cl.size (pre (fun i => (son i).t.cl.size) i.1))
            (xt := win xt (son i).ktree (k + ofs (fun i => (son i).ktree) i) xt.cols 0) (s := ⟨m2, a + 1 + 1 + 1⟩) (o3 i).2.2 (hsn.2 i) hvS
            (fun c h1 h2 => dS c h1 (wcell b3 b0 h2)) (part_valid (Rk.frame_valid hf2 hxt hx) b5)
            (fun c h1 h2 => hxt c (part_cell b5 h1) (wcell b3 b0 h2)) (win_valid hv2 b3 b0) rfl (part_rows _ _ _ _)
            ((part_cols _ _ _ _).trans hcl)) fun s3 _ h3 => ?_
          obtain ⟨m3, a3⟩ := s3
          obtain ⟨ha3, hv3, hf3, hc3⟩ := h3
          simp only at ha3 hv3 hf3 hc3
          subst ha3
          have hf3' : Frame xt.Cell m m3 := hf2.trans (wframe b3 b0 hf3)
          have hv3' : xt.Valid m3 := wrevalid hv2 hv3 hf3
          rw [uninit_eq, ok_bind, uninit_eq, ok_bind, openMat_eq b4 b0, ok_bind]
          simp only
          refine Tot.bind (run_tot (addmul_tot (Rk.frame_valid hf3' dE (hv.2 i).1) (win_valid hv3' b4 b0)
            (win_valid hv3' bc b0) (fun c h1 h2 => dE c h1 (wcell bc b0 h2)) (win_disj hld b4 bc (.inr (.inl (by omega))))
            true false (o3 i).1 (show (son i).E.cols ≤ k by rw [(o3 i).2.1]) (show xt.cols ≤ xt.cols by omega) 1)) fun s4 _ h4 => ?_
          obtain ⟨m4, a4⟩ := s4
          obtain ⟨ha4, hc4⟩ := h4
          simp only at ha4 hc4
          subst ha4
          rw [uninit_eq, ok_bind]
          have keep : ∀ c < xt.cols, ∀ j : Fin n, j.1 < i.1 + 1 → ∀ q < (son j).ktree,
              xt.val m4 (k + ofs (fun i => (son i).ktree) j + q) c =
              if j = i then xt.val m3 (k + ofs (fun i => (son i).ktree) j + q) c
              else xt.val m2 (k + ofs (fun i => (son i).ktree) j + q) c := by
            intro c hc j hj q hq
            have hlj := segs_le (fun i => (son i).ktree) j
            rw [wkeep hld bc hc4.2.2 (by omega) (by omega)]
            by_cases e : j = i
            · rw [if_pos e]
            · rw [if_neg e]
              have : j.1 < i.1 := by have : j.1 ≠ i.1 := fun h => e (Fin.ext h); omega
              have := ofs_mono (fun i => (son i).ktree) this
              rw [wkeep hld b3 hf3 (by omega) (by omega)]
          refine Tot.pure ⟨rfl, ?_, ?_, wrevalid hv3' hc4.1 hc4.2.2, hf3'.trans (wframe bc b0 hc4.2.2), ?_, ?_⟩
          · simp only
            rw [pre_succ]
          · simp only
            rw [pre_succ, ofs_eq, Nat.add_assoc]
          · intro c hc l hl
            have := hc4.2.1 l hl c hc
            simp only at this ⊢
            rw [win_val, win_val, zero_add, zero_add, if_pos (show l < opRows true (son i).E ∧
              c < opCols false (win xt (son i).k (k + ofs (fun i => (son i).ktree) i) xt.cols 0) from
              ⟨show l < (son i).E.cols by rw [(o3 i).2.1]; exact hl, hc⟩), one_mul] at this
            rw [this, wkeep hld b3 hf3 (by omega) (by omega), hq2 c hc l hl, pre_succ]
            congr 1
            · unfold pre
              refine Finset.sum_congr rfl fun j _ => ?_
              by_cases hj : j.1 < i.1
              · rw [if_pos hj, if_pos hj]
                refine Finset.sum_congr rfl fun nu hnu => ?_
                have hnu := Finset.mem_range.mp hnu
                have := k_le_ktree (o3 j).2.2
                rw [keep c hc j (by omega) nu (by omega), if_neg (fun e => by rw [e] at hj; omega)]
              · rw [if_neg hj, if_neg hj]
            · show ∑ nu ∈ Finset.range (son i).E.rows, _ = _
              rw [(o3 i).1]
              refine Finset.sum_congr rfl fun nu hnu => ?_
              have hnu := Finset.mem_range.mp hnu
              show star ((son i).E.val m3 nu l) * (win xt _ _ _ 0).val m3 nu c = _
              rw [keep c hc i (by omega) nu (by omega), if_pos rfl,
                Rk.frame_val hf3' dE (by rw [(o3 i).1]; exact hnu) (by rw [(o3 i).2.1]; exact hl), win_val, zero_add]
          · intro c hc j hj
            simp only at hj ⊢
            by_cases e : j = i
            · subst e
              refine isCoeffs_y (o3 j).2.2 (fun r hr => ?_) (fun q hq => ?_)
                ((isCoeffs_frame hf2 (o3 j).2.2 (hv.2 j).2 dS).mp (hc3 c hc))
              · unfold In at hr
                rw [part_op, show pre (fun i => (son i).t.cl.size) j.1 + (r - (son j).t.cl.off) = r - t.cl.off by omega]
                exact (xval hf2 _ (by omega) c hc).symm
              · rw [keep c hc j (by omega) q hq, if_pos rfl, win_val, zero_add]
            · refine isCoeffs_y (o3 j).2.2 (fun r hr => rfl) (fun q hq => ?_)
                (hc2 c hc j (by have : j.1 ≠ i.1 := fun h => e (Fin.ext h); omega))
              rw [keep c hc j (by omega) q hq, if_neg e]
        · rintro ⟨⟨m2, a2⟩, o, o'⟩ - ⟨ha2, ho2, ho2', hv2, hf2, hq2, hc2⟩
          simp only at ha2 ho2 ho2' hv2 hf2 hq2 hc2 ⊢
          refine Tot.cassert (by rw [ho2, pre_all]; simpa using g1.2) ?_
          refine Tot.cassert (by rw [ho2', pre_all]; simp [g2]) ?_
          refine Tot.pure ⟨ha2, hv2, hf2, fun c hc => ⟨fun l hl => ?_, fun h => absurd h h0, fun i => hc2 c hc i i.2⟩⟩
          show xt.val m2 l c = _
          rw [hq2 c hc l hl, pre_all]
          exact coeff_node (Y := fun q => xt.val m2 q c) ⟨o1, o2, o3⟩ hn fun i => hc2 c hc i i.2
    · rintro ⟨m2, a2⟩ - ⟨ha, p1, p2, p3⟩
      simp only at ha p1 p2 p3
      subst ha
      rw [uninit_eq]
      exact ⟨_, rfl, rfl, p1, p2, p3⟩

end CBas
end H2
