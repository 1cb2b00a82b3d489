import Verif.Proof.CbMatrix

/-! Backward transformation of matrices. -/

set_option linter.unusedSectionVars false

namespace H2
open Spec Dense

section
variable {K : Type} [Field K] [StarRing K]

theorem op_frame {tr : Bool} {a : Mat} {S : Nat → Prop} {m m' : Mem K} (h : Frame S m m') (hd : Disj a.Cell S) {i c : Nat}
    (hi : i < opRows tr a) (hc : c < opCols tr a) : op tr (a.val m') i c = op tr (a.val m) i c := by
  cases tr
  · exact Rk.frame_val h hd hi hc
  · exact congrArg star (Rk.frame_val h hd hc hi)

theorem part_keep {tr : Bool} {a : Mat} {sz off : Nat} {A : Nat → Prop} {m m' : Mem K} (hld : a.rows ≤ a.ld) (h1 : off + sz ≤ opRows tr a)
    (h : Frame (fun c => A c ∨ (part tr a sz off).Cell c) m m') (hd : Disj a.Cell A) {i c : Nat} (hi : i < opRows tr a)
    (hc : c < opCols tr a) (hn : ¬ (off ≤ i ∧ i < off + sz)) : op tr (a.val m') i c = op tr (a.val m) i c := by
  cases tr
  · have : m' (a.addr i c) = m (a.addr i c) := by
      refine h _ ?_
      rintro (h2 | ⟨i', hi', j', hj', e⟩)
      · exact hd _ (Mat.cell_addr hi hc) h2
      · have hi' : i' < sz := hi'
        replace h1 : off + sz ≤ a.rows := h1
        have e' : a.addr i c = a.addr (off + i') (0 + j') := e.trans (win_addr ..)
        have := Mat.addr_inj hld (show i < a.rows from hi) (show off + i' < a.rows by omega) e'
        omega
    show a.val m' i c = a.val m i c
    unfold Mat.val
    rw [this]
  · refine congrArg star ?_
    have : m' (a.addr c i) = m (a.addr c i) := by
      refine h _ ?_
      rintro (h2 | ⟨i', hi', j', hj', e⟩)
      · exact hd _ (Mat.cell_addr hc hi) h2
      · have hi' : i' < a.rows := hi'
        have hj' : j' < sz := hj'
        have e' : a.addr c i = a.addr (0 + i') (off + j') := e.trans (win_addr ..)
        have := Mat.addr_inj hld (show c < a.rows from hc) (show 0 + i' < a.rows by omega) e'
        omega
    unfold Mat.val
    rw [this]

theorem part_revalid {tr : Bool} {a : Mat} {sz off : Nat} {A : Nat → Prop} {m m' : Mem K} (ha : a.Valid m)
    (hw : (part tr a sz off).Valid m') (h : Frame (fun c => A c ∨ (part tr a sz off).Cell c) m m') (hd : Disj a.Cell A) : a.Valid m' := by
  refine ⟨ha.1, fun i hi j hj => ?_⟩
  by_cases hc : (part tr a sz off).Cell (a.addr i j)
  · obtain ⟨i', hi', j', hj', e⟩ := hc
    rw [e]; exact hw.2 i' hi' j' hj'
  · rw [h _ (fun h => h.elim (hd _ (Mat.cell_addr hi hj)) hc)]; exact ha.2 i hi j hj
end

namespace CBas
open VSt
variable {G : Type} {K : Type} [Field K] [StarRing K]

/-- what the backward transformation achieves -/
def BwdMat (tr : Bool) (s : VSt K) (cb : CBas G) (yt yp : Mat) (s' : VSt K) : Prop :=
  s'.act = s.act ∧ yt.Valid s'.mem ∧ yp.Valid s'.mem ∧ Frame (fun c => yt.Cell c ∨ yp.Cell c) s.mem s'.mem ∧
  ∀ i < cb.size, ∀ c < yt.cols, op tr (yp.val s'.mem) i c = op tr (yp.val s.mem) i c +
    synth s.mem cb (fun q => yt.val s.mem q c) (cb.t.cl.off + i)

/-- `call` is a backward transformation for `cb` -/
def BwdCall (tr : Bool) (cb : CBas G) (call : (Yt Yp : Mat) → VSt K → R (VSt K)) : Prop :=
  ∀ {yt yp : Mat} {s : VSt K}, CbValid s.mem cb →
    Disj (CbCell cb) yt.Cell → Disj (CbCell cb) yp.Cell → yp.Valid s.mem → Disj yt.Cell yp.Cell → yt.Valid s.mem →
    yt.rows = cb.ktree → opRows tr yp = cb.size → opCols tr yp = yt.cols → Tot (call yt yp s) (BwdMat tr s cb yt yp)

theorem backwardNode_tot (tr : Bool) {t : CRef G} {k kt kb : Nat} {V E : Mat} {n : Nat} {son : Fin n → CBas G}
    {call : Fin n → (Yt Yp : Mat) → VSt K → R (VSt K)} (ho : CbOk (.mk t k kt kb V E n son)) (hsn : CbSons (.mk t k kt kb V E n son))
    (ih : ∀ i, BwdCall tr (son i) (call i)) : BwdCall tr (.mk t k kt kb V E n son) (backwardNode tr t k kt V n son call) := by
  rintro yt y ⟨m, a⟩ hv hd hdy hy hyt hyv hdim hpd hcl
  replace hdim : yt.rows = kt := hdim
  replace hpd : opRows tr y = t.cl.size := hpd
  have hk : k ≤ kt := k_le_ktree ho
  simp only at hv hy hyv ⊢
  have hld := hyv.1
  have bc : 0 + k ≤ yt.rows := by omega
  have b0 : 0 + yt.cols ≤ yt.cols := by omega
  have hty : Disj y.Cell yt.Cell := fun c h1 h2 => hyt c h2 h1
  unfold backwardNode
  refine Tot.cassert (by simpa [opRows] using hpd) ?_
  refine Tot.cassert (by simpa using hdim) ?_
  refine Tot.cassert (by simpa [opCols] using hcl) ?_
  rw [openMat_eq bc b0, ok_bind]
  simp only
  obtain ⟨o1, o2, o3⟩ := ho
  refine Tot.bind (P := fun (s' : VSt K) => s'.act = a + 1 ∧ yt.Valid s'.mem ∧ y.Valid s'.mem ∧
    Frame (fun c => yt.Cell c ∨ y.Cell c) m s'.mem ∧ ∀ i < t.cl.size, ∀ c < yt.cols, op tr (y.val s'.mem) i c = op tr (y.val m) i c +
      synth m (.mk t k kt kb V E n son) (fun q => yt.val m q c) (t.cl.off + i)) ?_ ?_
  · by_cases h0 : n = 0
    · subst h0
      obtain ⟨e1, e2, e3⟩ := o1 rfl
      rw [if_neg (lt_irrefl _)]
      have b1 : k + t.cl.size ≤ yt.rows := by omega
      rw [openMat_eq b1 b0, ok_bind]
      simp only
      have dV : Disj V.Cell yt.Cell := fun c hc => hd c (.inl ⟨rfl, hc⟩)
      refine Tot.bind (run_tot (addmul_tot (hv.1 rfl) (win_valid hyv bc b0) (win_valid hyv b1 b0)
        (fun c h1 h2 => dV c h1 (wcell b1 b0 h2)) (win_disj hld bc b1 (.inl (by omega)))
        false false e2 (show V.rows ≤ t.cl.size by omega) (show yt.cols ≤ yt.cols by omega) 1)) fun s1 _ h1 => ?_
      obtain ⟨m1, a1⟩ := s1
      obtain ⟨ha1, hc1⟩ := h1
      simp only at ha1 hc1
      subst ha1
      have hf1 : Frame yt.Cell m m1 := wframe b1 b0 hc1.2.2
      have hy1 : y.Valid m1 := Rk.frame_valid hf1 hty hy
      have d1 : opRows tr (win yt t.cl.size k yt.cols 0) ≤ y.rows := by
        cases tr
        · exact le_of_eq hpd.symm
        · exact le_of_eq hcl.symm
      have d2 : opCols tr (win yt t.cl.size k yt.cols 0) ≤ y.cols := by
        cases tr
        · exact le_of_eq hcl.symm
        · exact le_of_eq hpd.symm
      refine Tot.bind (run_tot (add_tot hc1.1 hy1 (fun c h1 h2 => hyt c (wcell b1 b0 h1) h2) tr d1 d2 1)) fun s2 _ h2 => ?_
      obtain ⟨m2, a2⟩ := s2
      obtain ⟨ha2, hc2⟩ := h2
      simp only at ha2 hc2
      subst ha2
      rw [uninit_eq]
      refine ⟨_, rfl, rfl, ?_, hc2.1, ?_, fun p hp c hc => ?_⟩
      · exact Rk.frame_valid hc2.2.2 hyt (wrevalid hyv hc1.1 hc1.2.2)
      · exact Frame.trans (hf1.mono fun c h => .inl h) (Frame.mono hc2.2.2 fun c h => .inr h)
      · have hw : (win yt t.cl.size k yt.cols 0).val m1 p c = synth m (.mk t k kt kb V E 0 son) (fun q => yt.val m q c) (t.cl.off + p) := by
          have := hc1.2.1 p hp c hc
          beta_reduce at this
          rw [this, if_pos (show p < opRows false V ∧ c < opCols false (win yt k 0 yt.cols 0) from ⟨show p < V.rows by omega, hc⟩), one_mul, synth_leaf _ (by omega), add_comm, win_val, zero_add]
          congr 1
          show ∑ l ∈ Finset.range V.cols, V.val m p l * (win yt k 0 yt.cols 0).val m l c = _
          rw [e2]
          exact Finset.sum_congr rfl fun l _ => by rw [win_val, zero_add, zero_add]
        rw [← hw, ← op_frame hf1 hty (tr := tr) (by omega) (by omega)]
        cases tr
        · have := hc2.2.1 p (show p < y.rows by have : y.rows = _ := hpd; omega) c (show c < y.cols by have : y.cols = _ := hcl; omega)
          beta_reduce at this
          rw [if_pos (show p < opRows false (win yt t.cl.size k yt.cols 0) ∧ c < opCols false (win yt t.cl.size k yt.cols 0) from ⟨hp, hc⟩), one_mul] at this
          exact this
        · have := hc2.2.1 c (show c < y.rows by have : y.rows = _ := hcl; omega) p (show p < y.cols by have : y.cols = _ := hpd; omega)
          beta_reduce at this
          rw [if_pos (show c < opRows true (win yt t.cl.size k yt.cols 0) ∧ p < opCols true (win yt t.cl.size k yt.cols 0) from ⟨hc, hp⟩), one_mul] at this
          show star (y.val m2 c p) = star (y.val m1 c p) + _
          rw [this, star_add]
          congr 1
          exact star_star _
    · have hn : 0 < n := by omega
      obtain ⟨g1, g2⟩ := o2 hn
      obtain ⟨eN, hts⟩ := hsn.1 hn
      rw [if_pos hn]
      let Y' : Nat → Fin n → Nat → K := fun c i q => yt.val m (k + ofs (fun i => (son i).ktree) i + q) c +
        if q < (son i).k then ∑ l ∈ Finset.range k, (son i).E.val m q l * yt.val m l c else 0
      refine Tot.bind (foldFinM_tot (fun j (st : VSt K × Nat × Nat) => st.1.act = a + 1 ∧
        st.2.1 = pre (fun i => (son i).t.cl.size) j ∧
        st.2.2 = k + pre (fun i => (son i).ktree) j ∧ yt.Valid st.1.mem ∧ y.Valid st.1.mem ∧
        Frame (fun c => yt.Cell c ∨ y.Cell c) m st.1.mem ∧
        (∀ l < k, ∀ c < yt.cols, yt.val st.1.mem l c = yt.val m l c) ∧
        (∀ i : Fin n, j ≤ i.1 → ∀ q < (son i).ktree, ∀ c < yt.cols, yt.val st.1.mem (k + ofs (fun i => (son i).ktree) i + q) c =
          yt.val m (k + ofs (fun i => (son i).ktree) i + q) c) ∧
        ∀ p < t.cl.size, ∀ c < yt.cols, op tr (y.val st.1.mem) p c = op tr (y.val m) p c +
          pre (fun i => synth m (son i) (Y' c i) (t.cl.off + p)) j) ?_ ?_) ?_
      · exact ⟨rfl, by simp [pre_zero], by simp [pre_zero], hyv, hy, fun _ _ => rfl, fun l _ c _ => rfl, fun i _ q _ c _ => rfl,
          fun p _ c _ => by rw [pre_zero, add_zero]⟩
      · rintro i ⟨⟨m2, a2⟩, o, o'⟩ ⟨ha2, ho2, ho2', hv2, hy2, hf2, hq2, hc2, hr2⟩
        simp only at ha2 ho2 ho2' hv2 hy2 hf2 hq2 hc2 hr2
        subst ha2 ho2 ho2'
        have hle := segs_le (fun i => (son i).ktree) i
        obtain ⟨b1, b2⟩ := HMat.Segments.bounds g1 i
        rw [← ofs_eq (fun i => (son i).ktree)]
        have hki := k_le_ktree (o3 i).2.2
        have b3 : k + ofs (fun i => (son i).ktree) i + (son i).ktree ≤ yt.rows := by omega
        have b4 : k + ofs (fun i => (son i).ktree) i + (son i).k ≤ yt.rows := by omega
        have b5 : pre (fun i => (son i).t.cl.size) i.1 + (son i).t.cl.size ≤ opRows tr y := by omega
        have hlt : i.1 < t.nsons := by rw [← eN]; exact i.2
        have hsz : (t.son ⟨i.1, hlt⟩).cl.size = (son i).t.cl.size := by rw [hts i]; rfl
        simp only
        rw [dif_pos hlt, hsz, openMat_eq b4 b0, ok_bind]
        simp only
        have dS : Disj (CbCell (son i)) (fun c => yt.Cell c ∨ y.Cell c) := fun c hc h => h.elim
          (hd c (.inr ⟨i, .inr hc⟩)) (hdy c (.inr ⟨i, .inr hc⟩))
        have dE : Disj (son i).E.Cell (fun c => yt.Cell c ∨ y.Cell c) := fun c hc h => h.elim
          (hd c (.inr ⟨i, .inl hc⟩)) (hdy c (.inr ⟨i, .inl hc⟩))
        refine Tot.bind (run_tot (addmul_tot (Rk.frame_valid hf2 dE (hv.2 i).1) (win_valid hv2 bc b0)
          (win_valid hv2 b4 b0) (fun c h1 h2 => dE c h1 (.inl (wcell b4 b0 h2)))
          (win_disj hld bc b4 (.inl (by omega))) false false (show (son i).E.cols = k from (o3 i).2.1)
          (show (son i).E.rows ≤ (son i).k by rw [(o3 i).1]) (show yt.cols ≤ yt.cols by omega) 1)) fun s3 _ h3 => ?_
        obtain ⟨m3, a3⟩ := s3
        obtain ⟨ha3, hc3⟩ := h3
        simp only at ha3 hc3
        subst ha3
        rw [uninit_eq, ok_bind, openPart_eq b5, ok_bind]
        simp only
        rw [openMat_eq b3 b0, ok_bind]
        simp only
        have hw3 : Frame yt.Cell m2 m3 := wframe b4 b0 hc3.2.2
        have hf3 : Frame (fun c => yt.Cell c ∨ y.Cell c) m m3 := hf2.trans (Frame.mono hw3 fun c h => .inl h)
        have hv3 : yt.Valid m3 := wrevalid hv2 hc3.1 hc3.2.2
        have hy3 : y.Valid m3 := Rk.frame_valid hw3 hty hy2
        obtain ⟨hvS, _⟩ := frame_basis hf3 (o3 i).2.2 (hv.2 i).2 dS
        refine Tot.bind (ih i (yt := win yt (son i).ktree (k + ofs (fun i => (son i).ktree) i) yt.cols 0)
          (yp := part tr y (son i).t.cl.size (pre (fun i => (son i).t.cl.size) i.1)) (s := ⟨m3, a + 1 + 1 + 1⟩) hvS
          (fun c h1 h2 => dS c h1 (.inl (wcell b3 b0 h2))) (fun c h1 h2 => dS c h1 (.inr (part_cell b5 h2)))
          (part_valid hy3 b5)
          (fun c h1 h2 => hyt c (wcell b3 b0 h1) (part_cell b5 h2)) (win_valid hv3 b3 b0) rfl (part_rows _ _ _ _)
          ((part_cols _ _ _ _).trans hcl)) fun s4 _ h4 => ?_
        obtain ⟨m4, a4⟩ := s4
        obtain ⟨ha4, hv4, hy4, hf4, hr4⟩ := h4
        simp only at ha4 hv4 hy4 hf4 hr4
        subst ha4
        rw [uninit_eq, ok_bind, uninit_eq, ok_bind]
        have hf4' : Frame (fun c => yt.Cell c ∨ y.Cell c) m3 m4 :=
          hf4.mono fun c h => h.imp (wcell b3 b0) (part_cell b5)
        have hf4y : Frame (fun c => yt.Cell c ∨ (part tr y (son i).t.cl.size (pre (fun i => (son i).t.cl.size) i.1)).Cell c) m3 m4 :=
          hf4.mono fun c h => h.imp_left (wcell b3 b0)
        have hf4t : Frame (fun c => y.Cell c ∨ (part false yt (son i).ktree (k + ofs (fun i => (son i).ktree) i)).Cell c) m3 m4 :=
          hf4.mono fun c h => h.symm.imp_left (part_cell b5)
        have keep : ∀ q < yt.rows, ∀ c < yt.cols, ¬ (k + ofs (fun i => (son i).ktree) i ≤ q ∧
            q < k + ofs (fun i => (son i).ktree) i + (son i).ktree) → yt.val m4 q c = yt.val m2 q c := by
          intro q hq c hc hn'
          rw [← wkeep hld b4 hc3.2.2 hq (by omega)]
          exact part_keep (tr := false) hld b3 hf4t hyt hq hc hn'
        refine Tot.pure ⟨rfl, ?_, ?_, part_revalid (tr := false) hv3 hv4 hf4t hyt, part_revalid hy3 hy4 hf4y hty, hf3.trans hf4', ?_, ?_, ?_⟩
        · simp only
          rw [pre_succ]
        · simp only
          rw [pre_succ, ofs_eq, Nat.add_assoc]
        · intro l hl c hc
          rw [keep l (by omega) c hc (by omega)]
          exact hq2 l hl c hc
        · intro j hj q hq c hc
          have := ofs_mono (fun i => (son i).ktree) (a := i) (b := j) (by omega)
          have := segs_le (fun i => (son i).ktree) j
          simp only
          rw [keep _ (by omega) c hc (by omega)]
          exact hc2 j (by omega) q hq c hc
        · intro p hp c hc
          simp only
          rw [pre_succ, ← add_assoc, ← hr2 p hp c hc, ← op_frame hw3 hty (tr := tr) (by omega) (by omega)]
          by_cases hin : In (son i).t (t.cl.off + p)
          · have hin' := hin
            unfold In at hin'
            have := hr4 (t.cl.off + p - (son i).t.cl.off) (by unfold CBas.size; omega) c hc
            rw [part_op, part_op, show pre (fun i => (son i).t.cl.size) i.1 +
              (t.cl.off + p - (son i).t.cl.off) = p by omega] at this
            rw [this, show (son i).t.cl.off + (t.cl.off + p - (son i).t.cl.off) = t.cl.off + p by omega]
            congr 1
            rw [synth_frame hf3 (o3 i).2.2 (hv.2 i).2 dS]
            refine synth_y (o3 i).2.2 (fun q hq => ?_) _
            rw [win_val, zero_add]
            simp only [Y']
            by_cases hqk : q < (son i).k
            · have := hc3.2.1 q hqk c hc
              beta_reduce at this
              rw [if_pos (show q < opRows false (son i).E ∧ c < opCols false (win yt k 0 yt.cols 0) from
                ⟨show q < (son i).E.rows by rw [(o3 i).1]; exact hqk, hc⟩), one_mul, win_val, win_val, zero_add,
                hc2 i le_rfl q hq c hc] at this
              rw [this, if_pos hqk]
              congr 1
              show ∑ l ∈ Finset.range (son i).E.cols, (son i).E.val m2 q l * (win yt k 0 yt.cols 0).val m2 l c = _
              rw [(o3 i).2.1]
              refine Finset.sum_congr rfl fun l hl => ?_
              have hl := Finset.mem_range.mp hl
              rw [win_val, zero_add, zero_add, hq2 l hl c hc,
                Rk.frame_val hf2 dE (by rw [(o3 i).1]; exact hqk) (by rw [(o3 i).2.1]; exact hl)]
            · rw [if_neg hqk, add_zero, wkeep hld b4 hc3.2.2 (by omega) (by omega), hc2 i le_rfl q hq c hc]
          · rw [synth_out hin, add_zero]
            unfold In at hin
            exact part_keep hy3.1 b5 hf4y hty (by omega) (by omega) (by omega)
      · rintro ⟨⟨m2, a2⟩, o, o'⟩ - ⟨ha2, ho2, ho2', hv2, hy2, hf2, hq2, hc2, hr2⟩
        simp only at ha2 ho2 ho2' hv2 hy2 hf2 hr2 ⊢
        refine Tot.cassert (by rw [ho2, pre_all]; simpa using g1.2) ?_
        refine Tot.cassert (by rw [ho2', pre_all]; simp [g2]) ?_
        refine Tot.pure ⟨ha2, hv2, hy2, hf2, fun p hp c hc => ?_⟩
        rw [hr2 p hp c hc, pre_all]
        congr 1
        -- the son that contains the position
        obtain ⟨j, hj⟩ : ∃ j, In (son j).t (t.cl.off + p) := by
          by_contra hno
          push Not at hno
          have := sum_segments g1 (fun r => if r = t.cl.off + p then (1 : Nat) else 0)
          rw [Finset.sum_eq_zero (s := Finset.univ)] at this
          · rw [Finset.sum_eq_zero_iff] at this
            have := this p (Finset.mem_range.mpr (by omega))
            simp at this
          · intro j _
            refine Finset.sum_eq_zero fun i hi => if_neg fun e => hno j ?_
            rw [← e]
            exact In.add (Finset.mem_range.mp hi)
        rw [synth_son ⟨o1, o2, o3⟩ j hj (Y' := Y' c j) (fun nu hnu => ?_) (fun q h1 h2 => ?_)]
        · refine Finset.sum_eq_single j (fun i _ hi => synth_out fun h => hi (In.unique g1 h hj))
            fun h => absurd (Finset.mem_univ _) h
        · simp only [Y']; rw [if_pos hnu]
        · simp only [Y']; rw [if_neg (by omega), add_zero]
  · rintro ⟨m2, a2⟩ - ⟨ha, p1, p2, p3, p4⟩
    simp only at ha p1 p2 p3 p4
    subst ha
    rw [uninit_eq]
    exact ⟨_, rfl, rfl, p1, p2, p3, p4⟩

theorem backwardMat_tot : ∀ {cb : CBas G}, CbOk cb → CbSons cb → BwdCall (K := K) false cb (backwardMat cb) := by
  intro cb
  induction cb with
  | mk t k kt kb V E n son ih =>
    intro ho hsn
    exact backwardNode_tot (K := K) false ho hsn fun i => ih i (ho.2.2 i).2.2 (hsn.2 i)

/-- the function for adjoint matrices is correct for clusters without sons -/
theorem backwardTransMat_leaf {t : CRef G} {k kt kb : Nat} {V E : Mat} {son : Fin 0 → CBas G} (ho : CbOk (.mk t k kt kb V E 0 son))
    (hsn : CbSons (.mk t k kt kb V E 0 son)) :
    BwdCall (K := K) true (.mk t k kt kb V E 0 son) (backwardTransMat (.mk t k kt kb V E 0 son)) := by
  have h : ∀ i, BwdCall (K := K) true (son i) (backwardMat (son i)) := fun i => i.elim0
  intro yt yp s
  exact backwardNode_tot (K := K) true ho hsn h

/-- for clusters with sons the calls for the sons get the wrong dimensions -/
theorem backwardTransMat_fail {t : CRef G} {k kt kb : Nat} {V E : Mat} {n : Nat} {son : Fin n → CBas G} (h0 : 0 < n)
    (ho : CbOk (.mk t k kt kb V E n son)) (hsn : CbSons (.mk t k kt kb V E n son)) {yt y : Mat} {s : VSt K}
    (hv : CbValid s.mem (.mk t k kt kb V E n son)) (hd : Disj (CbCell (.mk t k kt kb V E n son)) yt.Cell)
    (hyv : yt.Valid s.mem) (hdim : yt.rows = kt) (hpd : y.cols = t.cl.size) (hcl : y.rows = yt.cols)
    (hne : y.rows ≠ (son ⟨0, h0⟩).size) :
    backwardTransMat (.mk t k kt kb V E n son) yt y s = .error .assertFail := by
  obtain ⟨n, rfl⟩ : ∃ n', n = n' + 1 := ⟨n - 1, by omega⟩
  obtain ⟨m, a⟩ := s
  simp only at hv hyv
  have hk : k ≤ kt := k_le_ktree ho
  have hld := hyv.1
  have bc : 0 + k ≤ yt.rows := by omega
  have b0 : 0 + yt.cols ≤ yt.cols := by omega
  obtain ⟨o1, o2, o3⟩ := ho
  obtain ⟨g1, g2⟩ := o2 h0
  obtain ⟨eN, hts⟩ := hsn.1 h0
  have hle := segs_le (fun i => (son i).ktree) 0
  obtain ⟨c1, c2⟩ := HMat.Segments.bounds g1 0
  have hki := k_le_ktree (o3 0).2.2
  have hofs : ofs (fun i => (son i).ktree) 0 = 0 := by rw [ofs_eq]; exact pre_zero _
  have hpre : pre (fun i => (son i).t.cl.size) 0 = 0 := pre_zero _
  have b3 : k + (son 0).ktree ≤ yt.rows := by rw [hofs] at hle; omega
  have b4 : k + (son 0).k ≤ yt.rows := by omega
  have b5 : 0 + (son 0).t.cl.size ≤ opRows true y := by
    show _ ≤ y.cols
    have : (0 : Fin (n + 1)).1 = 0 := rfl
    rw [this, hpre] at c1
    omega
  have hlt : (0 : Fin (n + 1)).1 < t.nsons := by rw [← eN]; exact h0
  have hsz : (t.son ⟨(0 : Fin (n + 1)).1, hlt⟩).cl.size = (son 0).t.cl.size := by rw [hts 0]; rfl
  have dE : Disj (son 0).E.Cell yt.Cell := fun c hc => hd c (.inr ⟨0, .inl hc⟩)
  show backwardNode true t k kt V (n + 1) son (fun i => backwardMat (son i)) yt y ⟨m, a⟩ = _
  unfold backwardNode
  rw [cassert_true (by simpa using hpd), ok_bind, cassert_true (by simpa using hdim), ok_bind, cassert_true (by simpa using hcl), ok_bind,
    openMat_eq bc b0, ok_bind]
  simp only
  rw [if_pos h0]
  unfold foldFinM
  rw [List.finRange_succ, List.foldlM_cons]
  simp only
  rw [dif_pos hlt, hsz, openMat_eq b4 b0, ok_bind]
  simp only
  obtain ⟨⟨m3, a3⟩, e3, e4, -⟩ := run_tot (s := ⟨m, a + 1 + 1⟩) (addmul_tot (K := K) (hv.2 0).1 (win_valid hyv bc b0)
          (win_valid hyv b4 b0) (fun c h1 h2 => dE c h1 (wcell b4 b0 h2))
          (win_disj hld bc b4 (.inl (by omega))) false false (show (son 0).E.cols = k from (o3 0).2.1)
          (show (son 0).E.rows ≤ (son 0).k by rw [(o3 0).1]) (show yt.cols ≤ yt.cols by omega) 1)
  replace e4 : a3 = a + 1 + 1 := e4
  subst e4
  have hc : backwardMat (son 0) (win yt (son 0).ktree k yt.cols 0) (part true y (son 0).t.cl.size 0) ⟨m3, a + 1 + 1 + 1⟩ =
      .error .assertFail := by
    have hs : y.rows ≠ (son 0).t.cl.size := hne
    generalize son 0 = b at hs ⊢
    cases b with
    | mk t' k' kt' kb' V' E' n' son' =>
      show backwardNode false t' k' kt' V' n' son' (fun i => backwardMat (son' i)) _ _ _ = _
      unfold backwardNode
      have : cassert (decide ((if false = true then (part true y t'.cl.size 0).cols else (part true y t'.cl.size 0).rows) = t'.cl.size)) =
          .error .assertFail := by
        have : ¬ (part true y t'.cl.size 0).rows = t'.cl.size := hs
        simp [cassert, this]
      show (cassert (decide ((if false = true then (part true y t'.cl.size 0).cols else (part true y t'.cl.size 0).rows) = t'.cl.size))
        >>= fun _ => _) = _
      rw [this]
      rfl
  rw [e3, ok_bind, uninit_eq, ok_bind, openPart_eq b5, ok_bind]
  simp only
  rw [openMat_eq b3 b0, ok_bind]
  simp only
  rw [hc]
  rfl

end CBas
end H2
