import Verif.Proof.H2Matrix

set_option linter.unusedSectionVars false

namespace H2
open Spec Dense

namespace H2Mat
open VSt CBas
variable {G : Type _} {K : Type} [Field K] [StarRing K]

/-- `sum over r of conj(place r c) * X r` -/
noncomputable def colSum (m : Mem K) (h : H2Mat G) (rb : CBas G) (X : Nat → K) (c : Nat) : K :=
  ∑ i ∈ Finset.range rb.t.cl.size, star (h2place m h (rb.t.cl.off + i) c) * X (rb.t.cl.off + i)

/-- what `fastaddevaltrans` achieves: `m0` is the memory in which the matrices are read -/
def FastPostT (m0 : Mem K) (alpha : K) (h : H2Mat G) (X : Nat → K) (yt : Vec) (s s' : VSt K) : Prop :=
  s'.act = s.act ∧ ∃ g, VAdd yt s.mem g s'.mem ∧ ∀ c, In h.cb.t c → synth m0 h.cb g c = alpha * colSum m0 h h.rb X c

theorem fastaddevaltrans_tot {S : Nat → Prop} {m0 : Mem K} {alpha : K} : ∀ {h : H2Mat G} {xt yt : Vec} {s : VSt K}
    {X : Nat → K}, H2Ok h → CbOk h.rb → CbOk h.cb → H2Valid m0 h → Disj (H2Cell h) S → xt.Valid m0 → Disj xt.Cell S →
    xt.dim = h.rb.ktree → yt.dim = h.cb.ktree → (∀ c, yt.Cell c → S c) → Frame S m0 s.mem → yt.Valid s.mem →
    IsCoeffs m0 h.rb X (xt.val m0) → Tot (fastaddevaltrans alpha h xt yt s) (FastPostT m0 alpha h X yt s) := by
  intro h
  induction h with
  | zero rb cb =>
    rintro xt yt ⟨m, a⟩ X - hr hc - - - - - - - - hy -
    unfold fastaddevaltrans
    refine Tot.pure ⟨rfl, _, VAdd.refl hy, fun r _ => ?_⟩
    rw [synth_null]
    unfold colSum
    simp [h2place]
  | uni rb cb S' =>
    rintro xt yt ⟨m, a⟩ X ⟨o1, o2⟩ hr hc hv hd hx hxd hxk hyk hyS hf hy hX
    simp only at hf hy
    replace hr : CbOk rb := hr
    replace hc : CbOk cb := hc
    replace hxk : xt.dim = rb.ktree := hxk
    replace hyk : yt.dim = cb.ktree := hyk
    unfold fastaddevaltrans
    have hkr := k_le_ktree hr
    have hkc := k_le_ktree hc
    refine (run_tot (addevaltrans_tot (Rk.frame_valid hf hd hv) (Rk.frame_vvalid hf hxd hx) hy
      (fun c h1 h2 => hd c h1 (hyS c h2)) (fun c h1 h2 => hxd c h1 (hyS c h2)) (by omega) (by omega) alpha)).mono ?_
    rintro ⟨m', a'⟩ ⟨ha, q1, q2, q3⟩
    simp only at ha q1 q2 q3
    subst ha
    refine ⟨rfl, fun i => if i < cb.k then alpha * ∑ j ∈ Finset.range rb.k, star (S'.val m0 j i) * xt.val m0 j else 0,
      ⟨q1, fun i hi => ?_, q3⟩, fun r hr' => ?_⟩
    · simp only
      rw [q2 i hi, o2]
      by_cases h : i < cb.k
      · rw [if_pos h, if_pos h, o1]
        congr 2
        refine Finset.sum_congr rfl fun j hj => ?_
        have hj := Finset.mem_range.mp hj
        rw [Rk.frame_val hf hd (by omega) (by omega), Rk.frame_vval hf hxd (by omega)]
      · rw [if_neg h, if_neg h, add_zero]
    · replace hr' : In cb.t r := hr'
      show synth m0 cb _ r = alpha * colSum m0 (uni rb cb S') rb X r
      rw [synth_head (Y := fun _ => 0) (D := fun i => alpha * ∑ j ∈ Finset.range rb.k, star (S'.val m0 j i) * xt.val m0 j) hc
        (fun nu hnu => by rw [if_pos hnu, zero_add]) (fun q h1 h2 => if_neg (by omega)) hr', synth_null, zero_add]
      unfold colSum
      simp only [h2place]
      have e : ∀ j ∈ Finset.range rb.k, xt.val m0 j = ∑ i ∈ Finset.range rb.t.cl.size,
          star (basis m0 rb (rb.t.cl.off + i) j) * X (rb.t.cl.off + i) := by
        intro j hj
        cases rb with
        | mk t k kt kb V E n son => exact hX.1 j (Finset.mem_range.mp hj)
      calc _ = alpha * ∑ nu ∈ Finset.range cb.k, ∑ j ∈ Finset.range rb.k, ∑ i ∈ Finset.range rb.t.cl.size,
            star (basis m0 rb (rb.t.cl.off + i) j * S'.val m0 j nu * star (basis m0 cb r nu)) * X (rb.t.cl.off + i) := by
            rw [Finset.mul_sum]
            refine Finset.sum_congr rfl fun nu _ => ?_
            rw [mul_left_comm, Finset.mul_sum]
            congr 1
            refine Finset.sum_congr rfl fun j hj => ?_
            rw [e j hj, Finset.mul_sum, Finset.mul_sum]
            exact Finset.sum_congr rfl fun i _ => by rw [star_mul, star_mul, star_star]; ring
        _ = _ := by
            congr 1
            rw [Finset.sum_congr rfl fun nu _ => Finset.sum_comm, Finset.sum_comm]
            refine Finset.sum_congr rfl fun i _ => ?_
            simp only [star_sum, Finset.sum_mul]
            rw [Finset.sum_comm]
  | full rb cb f =>
    rintro xt yt ⟨m, a⟩ X ⟨o1, o2, o3, o4⟩ hr hc hv hd hx hxd hxk hyk hyS hf hy hX
    simp only at hf hy
    cases rb with
    | mk t k kt kb V E n son =>
    cases cb with
    | mk t' k' kt' kb' V' E' n' son' =>
    replace o1 : n = 0 := o1
    replace o2 : n' = 0 := o2
    subst o1 o2
    replace o3 : f.rows = t.cl.size := o3
    replace o4 : f.cols = t'.cl.size := o4
    replace hxk : xt.dim = kt := hxk
    replace hyk : yt.dim = kt' := hyk
    have e1 := (hr.1 rfl).2.2
    have e2 := (hc.1 rfl).2.2
    unfold fastaddevaltrans
    obtain ⟨xp, exp⟩ : ∃ xp, initSubVec xt t.cl.size k = .ok xp := ⟨_, initSubVec_ok.mpr ⟨by omega, rfl⟩⟩
    obtain ⟨yp, eyp⟩ : ∃ yp, initSubVec yt t'.cl.size k' = .ok yp := ⟨_, initSubVec_ok.mpr ⟨by omega, rfl⟩⟩
    simp only [CBas.t, CBas.k]
    rw [openSub_eq exp, ok_bind]
    simp only
    rw [openSub_eq eyp, ok_bind]
    simp only
    refine Tot.bind (run_tot (addevaltrans_tot (Rk.frame_valid hf hd hv) (sub_valid exp (Rk.frame_vvalid hf hxd hx))
      (sub_valid eyp hy) (fun c h1 h2 => hd c h1 (hyS c (sub_cell eyp h2)))
      (fun c h1 h2 => hxd c (sub_cell exp h1) (hyS c (sub_cell eyp h2))) (by rw [sub_dim exp]; omega)
      (by rw [sub_dim eyp]; omega) alpha)) ?_
    rintro ⟨m', a'⟩ - ⟨ha, q1, q2, q3⟩
    simp only at ha q1 q2 q3
    subst ha
    rw [uninit_eq, ok_bind, uninit_eq]
    have va : VAdd yp m (fun i => alpha * ∑ j ∈ Finset.range t.cl.size, star (f.val m0 j i) * xt.val m0 (k + j)) m' := by
      refine ⟨q1, fun i hi => ?_, q3⟩
      have hi' : i < t'.cl.size := by rw [sub_dim eyp] at hi; exact hi
      simp only
      rw [q2 i hi, if_pos (by omega), o3]
      congr 2
      refine Finset.sum_congr rfl fun j hj => ?_
      have hj := Finset.mem_range.mp hj
      rw [Rk.frame_val hf hd (by omega) (by omega), sub_val exp, Rk.frame_vval hf hxd (by omega)]
    refine ⟨_, rfl, rfl, _, VAdd.sub eyp hy va, fun r hr' => ?_⟩
    replace hr' : In t' r := hr'
    obtain ⟨i, hi, rfl⟩ : ∃ i, i < t'.cl.size ∧ r = t'.cl.off + i := ⟨r - t'.cl.off, by unfold In at hr'; omega, by
      unfold In at hr'; omega⟩
    show synth m0 (.mk t' k' kt' kb' V' E' 0 son') _ _ = alpha * colSum m0 (full (.mk t k kt kb V E 0 son)
      (.mk t' k' kt' kb' V' E' 0 son') f) (.mk t k kt kb V E 0 son) X (t'.cl.off + i)
    rw [synth_leaf _ hi, Finset.sum_eq_zero, zero_add, if_pos (by omega), Nat.add_sub_cancel_left]
    · congr 1
      unfold colSum
      refine Finset.sum_congr rfl fun j hj => ?_
      have hj := Finset.mem_range.mp hj
      rw [h2place, hX.2.1 rfl j hj, if_pos ⟨In.add hj, In.add hi⟩]
      simp only [CBas.t, Nat.add_sub_cancel_left]
    · intro l hl
      rw [if_neg (by have := Finset.mem_range.mp hl; omega), mul_zero]
  | super rb cb rs cs son ih =>
    rintro xt yt ⟨m, a⟩ X ⟨⟨R, C, hRC, hR, hC⟩, hs⟩ hr hc hv hd hx hxd hxk hyk hyS hf hy hX
    replace hr : CbOk rb := hr
    replace hc : CbOk cb := hc
    replace hxk : xt.dim = rb.ktree := hxk
    replace hyk : yt.dim = cb.ktree := hyk
    replace hX : IsCoeffs m0 rb X (xt.val m0) := hX
    simp only at hf hy
    unfold fastaddevaltrans
    refine Tot.bind (foldFinM_tot (fun j (st : VSt K × Nat) => st.1.act = a ∧ st.2 = runOfs cb C j ∧
      ∃ g, VAdd yt m g st.1.mem ∧ ∀ c, In cb.t c → synth m0 cb g c =
        alpha * pre (fun j => ∑ i, colSum m0 (son i j) rb X c) j) ?_ ?_) ?_
    · exact ⟨rfl, runOfs_zero.symm, _, VAdd.refl hy, fun r _ => by rw [synth_null, pre_zero, mul_zero]⟩
    · rintro j ⟨⟨m2, a2⟩, o⟩ ⟨ha, ho, g, hg, hgs⟩
      simp only at ha ho hg hgs
      subst ha ho
      simp only
      obtain ⟨y1, ey1, ey2⟩ := openSon_eq (K := K) hC hc hyk j
      obtain ⟨c1, c2, c3, -⟩ := sonBases_son (K := K) hC hc j
      rw [ey2, ok_bind]
      simp only
      have hz : ∀ i c, ¬ In (C j).t c → colSum m0 (son i j) rb X c = 0 := by
        intro i c hc'
        obtain ⟨e1, e2⟩ := hRC i j
        obtain ⟨r1, -, -, -⟩ := sonBases_son (K := K) hR hr i
        unfold colSum
        refine Finset.sum_eq_zero fun i' _ => ?_
        rw [place_zero (hs i j) (by rw [e1]; exact r1) (by rw [e2]; exact c1) (.inr (by rw [e2]; exact hc')), star_zero,
          zero_mul]
      refine Tot.bind (foldFinM_tot (fun i (st : VSt K × Nat) => st.1.act = a2 + 1 ∧ st.2 = runOfs rb R i ∧
        ∃ g', VAdd y1 m2 g' st.1.mem ∧ ∀ c, In (C j).t c → synth m0 (C j) g' c =
          alpha * pre (fun i => colSum m0 (son i j) rb X c) i) ?_ ?_) ?_
      · exact ⟨rfl, runOfs_zero.symm, _, VAdd.refl (sub_valid ey1 hg.1), fun r hr' => by
          rw [pre_zero, mul_zero, synth_null]⟩
      · rintro i ⟨⟨m3, a3⟩, o⟩ ⟨ha, ho, g', hg', hgs'⟩
        simp only at ha ho hg' hgs'
        subst ha ho
        simp only
        obtain ⟨x1, ex1, ex2⟩ := openSon_eq (K := K) hR hr hxk i
        obtain ⟨r1, r2, -, r4⟩ := sonBases_son (K := K) hR hr i
        rw [ex2, ok_bind]
        simp only
        obtain ⟨e1, e2⟩ := hRC i j
        have hf3 : Frame S m0 m3 := (hf.trans (Frame.mono hg.2.2 hyS)).trans
          (Frame.mono hg'.2.2 fun c h => hyS c (sub_cell ey1 h))
        have hi := ih i j (xt := x1) (yt := y1) (s := ⟨m3, a2 + 1 + 1⟩) (X := X) (hs i j) (by rw [e1]; exact r1)
          (by rw [e2]; exact c1) (hv i j) (fun c h => hd c ⟨i, j, h⟩) (sub_valid ex1 hx)
          (fun c h => hxd c (sub_cell ex1 h)) (by rw [e1, sub_dim ex1]) (by rw [e2, sub_dim ey1])
          (fun c h => hyS c (sub_cell ey1 h)) hf3 hg'.1
          (by rw [e1]
              refine isCoeffs_y r1 (fun _ _ => rfl) (fun q _ => ?_) (r4 m0 X (xt.val m0) hX)
              rw [sub_val ex1])
        refine Tot.bind hi ?_
        rintro ⟨m4, a4⟩ - ⟨ha, g1, hg1, hgs1⟩
        simp only at ha hg1 hgs1
        subst ha
        rw [uninit_eq, ok_bind, nextOff_eq hR, ok_bind]
        refine Tot.pure ⟨rfl, rfl, _, hg'.trans hg1, fun c hc' => ?_⟩
        have hz' : ∀ r, ¬ In (R i).t r → star (h2place m0 (son i j) r c) * X r = 0 := fun r hr' => by
          rw [place_zero (hs i j) (by rw [e1]; exact r1) (by rw [e2]; exact c1) (.inl (by rw [e1]; exact hr')), star_zero,
            zero_mul]
        have hsum : colSum m0 (son i j) (R i) X c = colSum m0 (son i j) rb X c :=
          sum_in r2 (fun r => star (h2place m0 (son i j) r c) * X r) hz'
        rw [e1, e2] at hgs1
        rw [synth_add, hgs' c hc', hgs1 c hc', hsum, pre_succ]
        ring
      · rintro ⟨⟨m3, a3⟩, o⟩ - ⟨ha, ho, g', hg', hgs'⟩
        simp only at ha ho hg' hgs'
        subst ha ho
        simp only
        refine Tot.cassert (by simpa using runOfs_end hR hr) ?_
        rw [uninit_eq, ok_bind, nextOff_eq hC, ok_bind]
        refine Tot.pure ⟨rfl, rfl, _, hg.trans (VAdd.sub ey1 hg.1 hg'), fun c hc' => ?_⟩
        have key : synth m0 (C j) g' c = alpha * ∑ i, colSum m0 (son i j) rb X c := by
          by_cases hin : In (C j).t c
          · rw [hgs' c hin, pre_all]
          · rw [synth_out hin, Finset.sum_eq_zero fun i _ => hz i c hin, mul_zero]
        rw [synth_add, hgs c hc', c3 m0 g' c hc', pre_succ, key]
        ring
    · rintro ⟨⟨m2, a2⟩, o⟩ - ⟨ha, ho, g, hg, hgs⟩
      simp only at ha ho hg hgs
      subst ha ho
      simp only
      refine Tot.cassert (by simpa using runOfs_end hC hc) ?_
      refine Tot.pure ⟨rfl, g, hg, fun c hc' => ?_⟩
      show synth m0 cb g c = alpha * colSum m0 (super rb cb rs cs son) rb X c
      rw [hgs c hc', pre_all]
      congr 1
      unfold colSum
      simp only [h2place, star_sum, Finset.sum_mul]
      rw [Finset.sum_comm, Finset.sum_comm (s := Finset.range _)]
      refine Finset.sum_congr rfl fun i _ => ?_
      rw [Finset.sum_comm]

/-! ### the complete products -/

theorem sonBases_valid {cb : CBas G} {n : Nat} {f : Fin n → CBas G} {m : Mem K} (hs : SonBases cb f) (hv : CbValid m cb)
    (i : Fin n) : CbValid m (f i) ∧ ∀ c, CbCell (f i) c → CbCell cb c := by
  cases cb with
  | mk t k kt kb V E ns son =>
    by_cases h0 : 0 < ns
    · obtain ⟨e, he⟩ := hs.1 h0
      replace e : n = ns := e
      subst e
      have he : ∀ i, f i = son i := he
      rw [he i]
      exact ⟨(hv.2 i).2, fun c h => .inr ⟨i, .inr h⟩⟩
    · have hz : ns = 0 := by omega
      obtain ⟨e, he⟩ := hs.2 hz
      rw [he i]
      exact ⟨hv, fun c h => h⟩

theorem place_frame {S : Nat → Prop} {m m' : Mem K} (hf : Frame S m m') : ∀ {h : H2Mat G}, H2Ok h → CbOk h.rb → CbOk h.cb →
    H2Valid m h → CbValid m h.rb → CbValid m h.cb → Disj (H2Cell h) S → Disj (CbCell h.rb) S → Disj (CbCell h.cb) S →
    H2Valid m' h ∧ ∀ r c, h2place m' h r c = h2place m h r c := by
  intro h
  induction h with
  | zero rb cb => intros; exact ⟨trivial, fun r c => by rw [h2place, h2place]⟩
  | uni rb cb S' =>
    rintro ⟨o1, o2⟩ hr hc hv hvr hvc hd hdr hdc
    refine ⟨Rk.frame_valid hf hd hv, fun r c => ?_⟩
    rw [h2place, h2place]
    refine Finset.sum_congr rfl fun a ha => Finset.sum_congr rfl fun b hb => ?_
    have ha := Finset.mem_range.mp ha
    have hb := Finset.mem_range.mp hb
    rw [show basis m' rb r a = basis m rb r a from (frame_basis hf hr hvr hdr).2 r a ha,
      show basis m' cb c b = basis m cb c b from (frame_basis hf hc hvc hdc).2 c b hb,
      Rk.frame_val hf hd (by omega) (by omega)]
  | full rb cb f =>
    rintro ⟨o1, o2, o3, o4⟩ hr hc hv hvr hvc hd hdr hdc
    refine ⟨Rk.frame_valid hf hd hv, fun r c => ?_⟩
    rw [h2place, h2place]
    by_cases h : In rb.t r ∧ In cb.t c
    · rw [if_pos h, if_pos h]
      obtain ⟨h1, h2⟩ := h
      unfold In at h1 h2
      rw [Rk.frame_val hf hd (by omega) (by omega)]
    · rw [if_neg h, if_neg h]
  | super rb cb rs cs son ih =>
    rintro ⟨⟨R, C, hRC, hR, hC⟩, hs⟩ hr hc hv hvr hvc hd hdr hdc
    have H := fun i j => ih i j (hs i j) (by rw [(hRC i j).1]; exact (sonBases_son (K := K) hR hr i).1)
      (by rw [(hRC i j).2]; exact (sonBases_son (K := K) hC hc j).1) (hv i j)
      (by rw [(hRC i j).1]; exact (sonBases_valid hR hvr i).1) (by rw [(hRC i j).2]; exact (sonBases_valid hC hvc j).1)
      (fun c h => hd c ⟨i, j, h⟩)
      (by rw [(hRC i j).1]; exact fun c h => hdr c ((sonBases_valid hR hvr i).2 c h))
      (by rw [(hRC i j).2]; exact fun c h => hdc c ((sonBases_valid hC hvc j).2 c h))
    refine ⟨fun i j => (H i j).1, fun r c => ?_⟩
    rw [h2place, h2place]
    exact Finset.sum_congr rfl fun i _ => Finset.sum_congr rfl fun j _ => (H i j).2 r c

/-- valid objects do not use unallocated cells -/
theorem none_vdisj {m : Mem K} {v : Vec} (hv : v.Valid m) : Disj v.Cell (fun c => m c = none) := by
  rintro c ⟨i, hi, rfl⟩ h
  have := hv i hi
  rw [h] at this
  exact absurd this (by simp)
theorem none_mdisj {m : Mem K} {a : Mat} (hv : a.Valid m) : Disj a.Cell (fun c => m c = none) := by
  rintro c ⟨i, hi, j, hj, rfl⟩ h
  have := hv.2 i hi j hj
  rw [h] at this
  exact absurd this (by simp)
theorem none_cdisj {m : Mem K} : ∀ {cb : CBas G}, CbValid m cb → Disj (CbCell cb) (fun c => m c = none) := by
  intro cb
  induction cb with
  | mk t k kt kb V E n son ih =>
    rintro ⟨h1, h2⟩ c (⟨h0, hc⟩ | ⟨i, hc | hc⟩)
    · exact none_mdisj (h1 h0) c hc
    · exact none_mdisj (h2 i).1 c hc
    · exact ih i (h2 i).2 c hc
theorem none_hdisj {m : Mem K} : ∀ {h : H2Mat G}, H2Valid m h → Disj (H2Cell h) (fun c => m c = none) := by
  intro h
  induction h with
  | zero rb cb => rintro - c hc; exact absurd hc id
  | uni rb cb S' => intro hv; exact none_mdisj (a := S') hv
  | full rb cb f => intro hv; exact none_mdisj (a := f) hv
  | super rb cb rs cs son ih => rintro hv c ⟨i, j, hc⟩; exact ih i j (hv i j) c hc

theorem free_frame2 {S : Nat → Prop} {m m' : Mem K} {p n q k : Nat} {junk : Nat → K} (hp : Fresh m p n)
    (hq : Fresh (m.alloc p n junk) q k)
    (hf : Frame (fun c => S c ∨ m c = none) m m') (hk : ∀ c, m c = none → ¬ Vec.Cell ⟨p, n⟩ c → ¬ Vec.Cell ⟨q, k⟩ c → m' c = none) :
    Frame S m ((m'.free q k).free p n) := by
  intro c hc
  by_cases h1 : Vec.Cell ⟨p, n⟩ c
  · rw [fresh_none hp h1]
    rw [HMat.vcell_iff] at h1
    simp only [Mem.free, if_pos h1]
  · rw [free_eq h1]
    by_cases h2 : Vec.Cell ⟨q, k⟩ c
    · have : m c = none := by
        have := fresh_none hq h2
        rwa [alloc_frame m p n junk c h1] at this
      rw [this]
      rw [HMat.vcell_iff] at h2
      simp only [Mem.free, if_pos h2]
    · rw [free_eq h2]
      by_cases h3 : m c = none
      · rw [h3, hk c h3 h1 h2]
      · exact hf c fun h => h.elim hc h3

end H2Mat
end H2
