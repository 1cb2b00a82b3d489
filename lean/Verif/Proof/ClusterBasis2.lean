import Verif.Proof.ClusterBasis

set_option linter.unusedSectionVars false

namespace H2
open Spec Dense

namespace CBas
open VSt
variable {G : Type _} {K : Type _} [Field K] [StarRing K]

theorem incr_val {y : Vec} {m : Mem K} (hy : y.Valid m) {p : Nat} (hp : p < y.dim) (z : K) :
    Tot (incr m (y.addr p) z) (VAdd y m (fun i => if p = i then z else 0)) := by
  obtain ⟨x, hx, e⟩ := Mem.read_some (hy p hp)
  refine ⟨m.upd (y.addr p) (x + z), ?_, ?_, ?_, ?_⟩
  · unfold incr; rw [e, ok_bind, Mem.write_ok hx]
  · intro i hi
    by_cases h : y.addr i = y.addr p
    · rw [h, Mem.upd_same]; rfl
    · rw [Mem.upd_ne h]; exact hy i hi
  · intro i hi
    unfold Vec.val
    simp only
    by_cases h : p = i
    · subst h; rw [Mem.upd_same, hx, if_pos rfl]; rfl
    · rw [Mem.upd_ne (fun e => h (Vec.addr_inj e).symm), if_neg h, add_zero]
  · intro c hc
    rw [Mem.upd_ne]
    rintro rfl
    exact hc (Vec.cell_addr hp)

theorem putback_tot {idx : Arr Nat} {t : CRef G} {y yp : Vec} {m : Mem K} (hi : IdxOk idx t y.dim) (hy : y.Valid m)
    (hp : yp.Valid m) (hd : Disj yp.Cell y.Cell) (hdim : yp.dim = t.cl.size) :
    Tot (putback idx t y yp m) (VAdd y m (addAt idx t (fun r => yp.val m (r - t.cl.off)))) := by
  unfold putback
  refine (forUp_tot (fun j m' => VAdd y m (fun p => ∑ i ∈ Finset.range j,
    if idx.v (t.cl.off + i) = p then yp.val m i else 0) m') (Nat.zero_le _)
    ((VAdd.refl hy).congr fun i _ => by simp) ?_).mono fun m' h => h.congr fun p _ => ?_
  · intro j m' _ hj h
    have hip := hi.2 _ (In.add hj)
    rw [Arr.get_ok (by have := hi.1; omega), ok_bind]
    have hr : m'.read (yp.addr j) = .ok (yp.val m j) := by
      apply Mem.read_ok
      rw [h.2.2 _ (hd _ (Vec.cell_addr (by omega)))]
      exact hp.some (by omega)
    rw [hr, ok_bind]
    refine (incr_val h.1 hip _).mono fun m'' h' => (h.trans h').congr fun p _ => ?_
    rw [Finset.sum_range_succ]
  · unfold addAt
    refine Finset.sum_congr rfl fun i _ => ?_
    simp only [Nat.add_sub_cancel_left]

/-! ### the represented vector -/

theorem synth_out {m : Mem K} {cb : CBas G} {Y : Nat → K} {r : Nat} (h : ¬ In cb.t r) : synth m cb Y r = 0 := by
  cases cb with
  | mk t k kt kb V E n son => replace h : ¬ In t r := h; rw [synth, if_neg h]

theorem synth_y {m : Mem K} : ∀ {cb : CBas G}, CbOk cb → ∀ {Y Y' : Nat → K}, (∀ q < cb.ktree, Y' q = Y q) → ∀ r,
    synth m cb Y' r = synth m cb Y r := by
  intro cb
  induction cb with
  | mk t k kt kb V E n son ih =>
    intro ho Y Y' hY r
    replace hY : ∀ q < kt, Y' q = Y q := hY
    have hk : k ≤ kt := k_le_ktree ho
    obtain ⟨h1, h2, h3⟩ := ho
    rw [synth, synth]
    by_cases hr : In t r
    · rw [if_pos hr, if_pos hr]
      congr 1
      · congr 1
        · exact Finset.sum_congr rfl fun l hl => by rw [hY l (by have := Finset.mem_range.mp hl; omega)]
        · by_cases h0 : n = 0
          · rw [if_pos h0, if_pos h0]
            have := h1 h0
            unfold In at hr
            exact hY _ (by omega)
          · rw [if_neg h0, if_neg h0]
      · refine Finset.sum_congr rfl fun i _ => ih i (h3 i).2.2 (fun q hq => ?_) r
        have hn : 0 < n := Nat.lt_of_le_of_lt (Nat.zero_le _) i.2
        have := (h2 hn).2
        have := segs_le (fun i => (son i).ktree) i
        exact hY _ (by omega)
    · rw [if_neg hr, if_neg hr]

theorem synth_frame {S : Nat → Prop} {m m' : Mem K} (hf : Frame S m m') : ∀ {cb : CBas G}, CbOk cb → CbValid m cb →
    Disj (CbCell cb) S → ∀ (Y : Nat → K) r, synth m' cb Y r = synth m cb Y r := by
  intro cb
  induction cb with
  | mk t k kt kb V E n son ih =>
    intro ho hv hd Y r
    have hb := (frame_basis hf ho hv hd).2
    obtain ⟨h1, h2, h3⟩ := ho
    rw [synth, synth]
    by_cases hr : In t r
    · rw [if_pos hr, if_pos hr]
      congr 1
      · congr 1
        exact Finset.sum_congr rfl fun l hl => by rw [hb r l (Finset.mem_range.mp hl)]
      · exact Finset.sum_congr rfl fun i _ => ih i (h3 i).2.2 (hv.2 i).2 (fun c hc => hd c (.inr ⟨i, .inr hc⟩)) _ _
    · rw [if_neg hr, if_neg hr]

/-- changing the coefficients of the root cluster -/
theorem synth_head {m : Mem K} {cb : CBas G} (ho : CbOk cb) {Y Y' D : Nat → K} (h1 : ∀ nu < cb.k, Y' nu = Y nu + D nu)
    (h2 : ∀ q, cb.k ≤ q → q < cb.ktree → Y' q = Y q) {r : Nat} (hr : In cb.t r) :
    synth m cb Y' r = synth m cb Y r + ∑ nu ∈ Finset.range cb.k, basis m cb r nu * D nu := by
  cases cb with
  | mk t k kt kb V E n son =>
    replace h1 : ∀ nu < k, Y' nu = Y nu + D nu := h1
    replace h2 : ∀ q, k ≤ q → q < kt → Y' q = Y q := h2
    replace hr : In t r := hr
    obtain ⟨o1, o2, o3⟩ := ho
    rw [synth, synth, if_pos hr, if_pos hr]
    have e1 : ∑ l ∈ Finset.range k, basis m (.mk t k kt kb V E n son) r l * Y' l =
        ∑ l ∈ Finset.range k, basis m (.mk t k kt kb V E n son) r l * Y l +
        ∑ l ∈ Finset.range k, basis m (.mk t k kt kb V E n son) r l * D l := by
      rw [← Finset.sum_add_distrib]
      exact Finset.sum_congr rfl fun l hl => by rw [h1 l (Finset.mem_range.mp hl), mul_add]
    have e2 : (if n = 0 then Y' (k + (r - t.cl.off)) else 0) = if n = 0 then Y (k + (r - t.cl.off)) else 0 := by
      by_cases h0 : n = 0
      · rw [if_pos h0, if_pos h0]
        have := o1 h0
        unfold In at hr
        exact h2 _ (by omega) (by omega)
      · rw [if_neg h0, if_neg h0]
    have e3 : ∑ i, synth m (son i) (fun q => Y' (k + ofs (fun i => (son i).ktree) i + q)) r =
        ∑ i, synth m (son i) (fun q => Y (k + ofs (fun i => (son i).ktree) i + q)) r := by
      refine Finset.sum_congr rfl fun i _ => synth_y (o3 i).2.2 (fun q hq => ?_) r
      have hn : 0 < n := Nat.lt_of_le_of_lt (Nat.zero_le _) i.2
      have := (o2 hn).2
      have := segs_le (fun i => (son i).ktree) i
      exact h2 _ (by omega) (by omega)
    rw [e1, e2, e3]
    show _ = _ + ∑ l ∈ Finset.range k, _
    ring

theorem In.unique {t : CRef G} {n : Nat} {R : Fin n → CRef G} (h : Segments t R) {i j : Fin n} {r : Nat}
    (hi : In (R i) r) (hj : In (R j) r) : i = j := by
  by_contra hne
  obtain ⟨a1, a2⟩ := HMat.Segments.bounds h i
  obtain ⟨b1, b2⟩ := HMat.Segments.bounds h j
  unfold In at hi hj
  have hne : i.1 ≠ j.1 := fun e => hne (Fin.ext e)
  rcases Nat.lt_or_gt_of_ne hne with hlt | hlt
  · have := ofs_mono (fun k => (R k).cl.size) hlt; rw [ofs_eq, ofs_eq] at this; omega
  · have := ofs_mono (fun k => (R k).cl.size) hlt; rw [ofs_eq, ofs_eq] at this; omega

theorem synth_leaf {m : Mem K} {t : CRef G} {k kt kb : Nat} {V E : Mat} {son : Fin 0 → CBas G} {i : Nat}
    (Y : Nat → K) (hi : i < t.cl.size) : synth m (.mk t k kt kb V E 0 son) Y (t.cl.off + i) =
      ∑ l ∈ Finset.range k, V.val m i l * Y l + Y (k + i) := by
  rw [synth, if_pos (In.add hi), if_pos rfl]
  simp only [Finset.univ_eq_empty, Finset.sum_empty, add_zero, Nat.add_sub_cancel_left]
  congr 1
  exact Finset.sum_congr rfl fun l _ => by rw [basis_leaf _ hi]

/-- in the rows of a son -/
theorem synth_son {m : Mem K} {t : CRef G} {k kt kb : Nat} {V E : Mat} {n : Nat} {son : Fin n → CBas G}
    (ho : CbOk (.mk t k kt kb V E n son)) (j : Fin n) {r : Nat} (hr : In (son j).t r) {Y Y' : Nat → K}
    (h1 : ∀ nu < (son j).k, Y' nu = Y (k + ofs (fun i => (son i).ktree) j + nu) +
      ∑ l ∈ Finset.range k, (son j).E.val m nu l * Y l)
    (h2 : ∀ q, (son j).k ≤ q → q < (son j).ktree → Y' q = Y (k + ofs (fun i => (son i).ktree) j + q)) :
    synth m (.mk t k kt kb V E n son) Y r = synth m (son j) Y' r := by
  have hn : 0 < n := Nat.lt_of_le_of_lt (Nat.zero_le _) j.2
  rw [synth_head (Y := fun q => Y (k + ofs (fun i => (son i).ktree) j + q)) (ho.2.2 j).2.2 h1 h2 hr, synth,
    if_pos (In.son (ho.2.1 hn).1 hr), if_neg (by omega), add_zero, add_comm]
  congr 1
  · rw [Finset.sum_eq_single j]
    · intro i _ hi
      exact synth_out fun h => hi (In.unique (ho.2.1 hn).1 h hr)
    · intro h; exact absurd (Finset.mem_univ _) h
  · rw [Finset.sum_congr rfl fun l _ => by rw [basis_son ho j hr l, Finset.sum_mul], Finset.sum_comm]
    refine Finset.sum_congr rfl fun nu _ => ?_
    rw [Finset.mul_sum]
    exact Finset.sum_congr rfl fun l _ => mul_assoc _ _ _

/-! ### backward transformation -/

/-- what the backward transformation achieves -/
def BwdPost (idx : Arr Nat) (s : VSt K) (cb : CBas G) (yt y : Vec) (s' : VSt K) : Prop :=
  s'.act = s.act ∧ yt.Valid s'.mem ∧ y.Valid s'.mem ∧ Frame (fun c => yt.Cell c ∨ y.Cell c) s.mem s'.mem ∧
  ∀ p < y.dim, y.val s'.mem p = y.val s.mem p + addAt idx cb.t (synth s.mem cb (yt.val s.mem)) p

theorem backward_tot {idx : Arr Nat} : ∀ {cb : CBas G} {yt y : Vec} {s : VSt K}, CbOk cb → CbValid s.mem cb →
    Disj (CbCell cb) yt.Cell → Disj (CbCell cb) y.Cell → y.Valid s.mem → Disj yt.Cell y.Cell → yt.Valid s.mem →
    yt.dim = cb.ktree → IdxOk idx cb.t y.dim → Tot (backward idx cb yt y s) (BwdPost idx s cb yt y) := by
  intro cb
  induction cb with
  | mk t k kt kb V E n son ih =>
    rintro yt y ⟨m, a⟩ ho hv hd hdy hy hyt hyv hdim hidx
    replace hdim : yt.dim = kt := hdim
    replace hidx : IdxOk idx t y.dim := hidx
    have hk : k ≤ kt := k_le_ktree ho
    simp only at hv hy hyv ⊢
    obtain ⟨yc, eyc⟩ : ∃ yc, initSubVec yt k 0 = .ok yc := ⟨_, initSubVec_ok.mpr ⟨by omega, rfl⟩⟩
    unfold backward
    refine Tot.cassert (by simpa using hdim) ?_
    rw [openSub_eq eyc, ok_bind]
    simp only
    obtain ⟨o1, o2, o3⟩ := ho
    refine Tot.bind (P := fun (s' : VSt K) => s'.act = a + 1 ∧ yt.Valid s'.mem ∧ y.Valid s'.mem ∧
      Frame (fun c => yt.Cell c ∨ y.Cell c) m s'.mem ∧ ∀ p < y.dim, y.val s'.mem p = y.val m p +
        addAt idx t (synth m (.mk t k kt kb V E n son) (yt.val m)) p) ?_ ?_
    · by_cases h0 : n = 0
      · subst h0
        obtain ⟨e1, e2, e3⟩ := o1 rfl
        rw [if_neg (lt_irrefl _)]
        obtain ⟨yp, eyp⟩ : ∃ yp, initSubVec yt t.cl.size k = .ok yp := ⟨_, initSubVec_ok.mpr ⟨by omega, rfl⟩⟩
        rw [openSub_eq eyp, ok_bind]
        simp only
        have dV : Disj V.Cell yt.Cell := fun c hc => hd c (.inl ⟨rfl, hc⟩)
        refine Tot.bind (run_tot (addeval_tot (hv.1 rfl) (sub_valid eyc hyv) (sub_valid eyp hyv)
          (fun c h1 h2 => dV c h1 (sub_cell eyp h2)) (sub_disj eyc eyp (.inl (by omega)))
          (by rw [sub_dim eyc]; omega) (by rw [sub_dim eyp]; omega) 1)) fun s1 _ h1 => ?_
        obtain ⟨m1, a1⟩ := s1
        obtain ⟨ha1, hc1⟩ := h1
        simp only at ha1 hc1
        subst ha1
        have hf1 : Frame yt.Cell m m1 := sub_frame eyp hc1.2.2
        have hy1 : y.Valid m1 := Rk.frame_vvalid hf1 (fun c h1 h2 => hyt c h2 h1) hy
        refine Tot.bind (run_tot (putback_tot hidx hy1 hc1.1 (fun c h1 h2 => hyt c (sub_cell eyp h1) h2) (sub_dim eyp)))
          fun s2 _ h2 => ?_
        obtain ⟨m2, a2⟩ := s2
        obtain ⟨ha2, hc2⟩ := h2
        simp only at ha2 hc2
        subst ha2
        rw [uninit_eq]
        refine ⟨_, rfl, rfl, ?_, hc2.1, ?_, fun p hp => ?_⟩
        · exact Rk.frame_vvalid hc2.2.2 hyt (sub_revalid eyp hyv hc1.1 hc1.2.2)
        · exact Frame.trans (hf1.mono fun c h => .inl h) (Frame.mono hc2.2.2 fun c h => .inr h)
        · have := hc2.2.1 p hp
          simp only at this ⊢
          rw [this, Rk.frame_vval hf1 (fun c h1 h2 => hyt c h2 h1) hp]
          congr 1
          unfold addAt
          refine Finset.sum_congr rfl fun i hi => ?_
          have hi := Finset.mem_range.mp hi
          refine if_congr Iff.rfl ?_ rfl
          have := hc1.2.1 i (by rw [sub_dim eyp]; exact hi)
          simp only at this ⊢
          rw [synth_leaf _ hi, Nat.add_sub_cancel_left, this, if_pos (by omega), one_mul, sub_val eyp, e2, add_comm]
          congr 1
          exact Finset.sum_congr rfl fun l _ => by rw [sub_val eyc, zero_add]
      · have hn : 0 < n := by omega
        obtain ⟨g1, g2⟩ := o2 hn
        rw [if_pos hn]
        -- the coefficients of the `i`-th son after adding the contribution of the father
        let Y' : Fin n → Nat → K := fun i q => yt.val m (k + ofs (fun i => (son i).ktree) i + q) +
          if q < (son i).k then ∑ l ∈ Finset.range k, (son i).E.val m q l * yt.val m l else 0
        refine Tot.bind (foldFinM_tot (fun j (st : VSt K × Nat) => st.1.act = a + 1 ∧
          st.2 = k + pre (fun i => (son i).ktree) j ∧ yt.Valid st.1.mem ∧ y.Valid st.1.mem ∧
          Frame (fun c => yt.Cell c ∨ y.Cell c) m st.1.mem ∧
          (∀ l < k, yt.val st.1.mem l = yt.val m l) ∧
          (∀ i : Fin n, j ≤ i.1 → ∀ q < (son i).ktree, yt.val st.1.mem (k + ofs (fun i => (son i).ktree) i + q) =
            yt.val m (k + ofs (fun i => (son i).ktree) i + q)) ∧
          ∀ p < y.dim, y.val st.1.mem p = y.val m p +
            pre (fun i => addAt idx (son i).t (synth m (son i) (Y' i)) p) j) ?_ ?_) ?_
        · exact ⟨rfl, by simp [pre_zero], hyv, hy, fun _ _ => rfl, fun l _ => rfl, fun i _ q _ => rfl,
            fun p _ => by rw [pre_zero, add_zero]⟩
        · rintro i ⟨⟨m2, a2⟩, o⟩ ⟨ha2, rfl, hv2, hy2, hf2, hq2, hc2, hr2⟩
          simp only at ha2 hv2 hy2 hf2 hq2 hc2 hr2
          subst ha2
          have hle := segs_le (fun i => (son i).ktree) i
          rw [← ofs_eq]
          obtain ⟨y1, ey1⟩ : ∃ y1, initSubVec yt (son i).ktree (k + ofs (fun i => (son i).ktree) i) = .ok y1 :=
            ⟨_, initSubVec_ok.mpr ⟨by omega, rfl⟩⟩
          simp only
          rw [openSub_eq ey1, ok_bind]
          simp only
          have dS : Disj (CbCell (son i)) (fun c => yt.Cell c ∨ y.Cell c) := fun c hc h => h.elim
            (hd c (.inr ⟨i, .inr hc⟩)) (hdy c (.inr ⟨i, .inr hc⟩))
          have dE : Disj (son i).E.Cell (fun c => yt.Cell c ∨ y.Cell c) := fun c hc h => h.elim
            (hd c (.inr ⟨i, .inl hc⟩)) (hdy c (.inr ⟨i, .inl hc⟩))
          have hki := k_le_ktree (o3 i).2.2
          refine Tot.bind (run_tot (addeval_tot (Rk.frame_valid hf2 dE (hv.2 i).1) (sub_valid eyc hv2)
            (sub_valid ey1 hv2) (fun c h1 h2 => dE c h1 (.inl (sub_cell ey1 h2)))
            (sub_disj eyc ey1 (.inl (by omega))) (by rw [sub_dim eyc, (o3 i).2.1])
            (by rw [sub_dim ey1, (o3 i).1]; exact hki) 1)) fun s3 _ h3 => ?_
          obtain ⟨m3, a3⟩ := s3
          obtain ⟨ha3, hc3⟩ := h3
          simp only at ha3 hc3
          subst ha3
          have hf3 : Frame (fun c => yt.Cell c ∨ y.Cell c) m m3 :=
            hf2.trans (Frame.mono (sub_frame ey1 hc3.2.2) fun c h => .inl h)
          have hv3 : yt.Valid m3 := sub_revalid ey1 hv2 hc3.1 hc3.2.2
          have hy3 : y.Valid m3 := Rk.frame_vvalid (sub_frame ey1 hc3.2.2) (fun c h1 h2 => hyt c h2 h1) hy2
          obtain ⟨hvS, _⟩ := frame_basis hf3 (o3 i).2.2 (hv.2 i).2 dS
          refine Tot.bind (ih i (yt := y1) (y := y) (s := ⟨m3, a + 1 + 1⟩) (o3 i).2.2 hvS
            (fun c h1 h2 => dS c h1 (.inl (sub_cell ey1 h2))) (fun c h1 h2 => dS c h1 (.inr h2)) hy3
            (fun c h1 h2 => hyt c (sub_cell ey1 h1) h2) hc3.1 (sub_dim ey1) (IdxOk.son hidx g1 i))
            fun s4 _ h4 => ?_
          obtain ⟨m4, a4⟩ := s4
          obtain ⟨ha4, hv4, hy4, hf4, hr4⟩ := h4
          simp only at ha4 hv4 hy4 hf4 hr4
          subst ha4
          rw [uninit_eq, ok_bind]
          have hf4' : Frame (fun c => yt.Cell c ∨ y.Cell c) m3 m4 :=
            hf4.mono fun c h => h.imp (sub_cell ey1) id
          -- entries of `yt` outside the segment of the son
          have keep : ∀ q < yt.dim, ¬ (k + ofs (fun i => (son i).ktree) i ≤ q ∧
              q < k + ofs (fun i => (son i).ktree) i + (son i).ktree) → yt.val m4 q = yt.val m2 q := by
            intro q hq hn'
            rw [← sub_keep ey1 hc3.2.2 hn']
            unfold Vec.val
            rw [hf4]
            rintro (h | h)
            · obtain ⟨e5, e6⟩ := initSubVec_ok.mp ey1
              subst e6
              obtain ⟨z, hz, e⟩ := h
              have hz : z < (son i).ktree := hz
              simp only [Vec.addr] at e
              omega
            · exact hyt _ (Vec.cell_addr hq) h
          refine Tot.pure ⟨rfl, ?_, ?_, hy4, hf3.trans hf4', ?_, ?_, ?_⟩
          · simp only
            rw [pre_succ, ofs_eq, Nat.add_assoc]
          · intro q hq
            simp only
            by_cases hc : y1.Cell (yt.addr q)
            · obtain ⟨z, hz, e⟩ := hc
              rw [e]; exact hv4 z hz
            · rw [hf4 _ (fun h => h.elim hc (hyt _ (Vec.cell_addr hq)))]
              exact hv3 q hq
          · intro l hl
            rw [keep l (by omega) (by omega)]
            exact hq2 l hl
          · intro j hj q hq
            have := ofs_mono (fun i => (son i).ktree) (a := i) (b := j) (by omega)
            have := segs_le (fun i => (son i).ktree) j
            simp only
            rw [keep _ (by omega) (by omega)]
            exact hc2 j (by omega) q hq
          · intro p hp
            simp only
            rw [hr4 p hp, Rk.frame_vval (sub_frame ey1 hc3.2.2) (fun c h1 h2 => hyt c h2 h1) hp, hr2 p hp, pre_succ,
              add_assoc]
            congr 2
            unfold addAt
            refine Finset.sum_congr rfl fun x _ => if_congr Iff.rfl ?_ rfl
            rw [synth_frame hf3 (o3 i).2.2 (hv.2 i).2 dS]
            refine synth_y (o3 i).2.2 (fun q hq => ?_) _
            have := hc3.2.1 q (by rw [sub_dim ey1]; exact hq)
            simp only at this
            rw [this, (o3 i).1, one_mul, sub_val ey1, hc2 i le_rfl q hq]
            simp only [Y']
            by_cases hqk : q < (son i).k
            · rw [if_pos hqk, if_pos hqk, (o3 i).2.1]
              congr 1
              refine Finset.sum_congr rfl fun l hl => ?_
              have hl := Finset.mem_range.mp hl
              rw [sub_val eyc, zero_add, hq2 l hl,
                Rk.frame_val hf2 dE (by rw [(o3 i).1]; exact hqk) (by rw [(o3 i).2.1]; exact hl)]
            · rw [if_neg hqk, if_neg hqk, add_zero]
        · rintro ⟨⟨m2, a2⟩, o⟩ - ⟨ha2, ho2, hv2, hy2, hf2, hq2, hc2, hr2⟩
          simp only at ha2 ho2 hv2 hy2 hf2 hq2 hc2 hr2 ⊢
          refine Tot.cassert (by rw [ho2, pre_all]; simp [g2]) ?_
          refine Tot.pure ⟨ha2, hv2, hy2, hf2, fun p hp => ?_⟩
          rw [hr2 p hp, pre_all]
          congr 1
          unfold addAt
          rw [sum_segments g1 (fun r => if idx.v r = p then synth m (.mk t k kt kb V E n son) (yt.val m) r else 0)]
          refine Finset.sum_congr rfl fun j _ => Finset.sum_congr rfl fun x hx => if_congr Iff.rfl ?_ rfl
          refine (synth_son ⟨o1, o2, o3⟩ j (In.add (Finset.mem_range.mp hx)) (fun nu hnu => ?_) (fun q h1 h2 => ?_)).symm
          · simp only [Y']; rw [if_pos hnu]
          · simp only [Y']; rw [if_neg (by omega), add_zero]
    · rintro ⟨m2, a2⟩ - ⟨ha, p1, p2, p3, p4⟩
      simp only at ha p1 p2 p3 p4
      subst ha
      rw [uninit_eq]
      exact ⟨_, rfl, rfl, p1, p2, p3, p4⟩

end CBas
end H2
