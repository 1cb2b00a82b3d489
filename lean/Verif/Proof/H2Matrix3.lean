import Verif.Proof.H2Matrix2

set_option linter.unusedSectionVars false

namespace H2
open Spec Dense

namespace H2Mat
open VSt CBas
variable {G : Type _} {K : Type} [Field K] [StarRing K]

/-- the common structure of `addeval` and `addevaltrans` -/
def wrap (F : Vec → Vec → VSt K → R (VSt K)) (sidx tidx : Arr Nat) (px py : Nat) (junk : Nat → K) (sb tb : CBas G)
    (x y : Vec) (s : VSt K) : R (VSt K) := do
  let (xt, s) := openNew px sb.ktree junk s
  let (yt, s) := openNew py tb.ktree junk s
  let s ← run (Dense.clearVec yt) s
  let s ← CBas.forward sidx sb x xt s
  let s ← F xt yt s
  let s ← CBas.backward tidx tb yt y s
  let s ← uninitOwner yt s
  uninitOwner xt s

theorem addAt_congr {idx : Arr Nat} {t : CRef G} {f g : Nat → K} (h : ∀ r, In t r → f r = g r) (p : Nat) :
    addAt idx t f p = addAt idx t g p := by
  unfold addAt
  exact Finset.sum_congr rfl fun i hi => by rw [h _ (H2.In.add (Finset.mem_range.mp hi))]

theorem wrap_tot {F : Vec → Vec → VSt K → R (VSt K)} {sidx tidx : Arr Nat} {px py : Nat} {junk : Nat → K} {sb tb : CBas G}
    {x y : Vec} {s : VSt K} {Φ : (Nat → K) → Nat → K} (hs : CbOk sb) (ht : CbOk tb) (vs : CbValid s.mem sb)
    (vt : CbValid s.mem tb) (hdy : Disj (CbCell tb) y.Cell) (hx : x.Valid s.mem) (hy : y.Valid s.mem)
    (hsi : IdxOk sidx sb.t x.dim) (hti : IdxOk tidx tb.t y.dim)
    (fx : Fresh s.mem px sb.ktree) (fy : Fresh (s.mem.alloc px sb.ktree junk) py tb.ktree)
    (hΦ : ∀ X X' : Nat → K, (∀ r, In sb.t r → X r = X' r) → Φ X = Φ X')
    (hF : ∀ (m4 : Mem K) (a : Nat) (X : Nat → K), Frame (fun c => s.mem c = none) s.mem m4 → Vec.Valid ⟨px, sb.ktree⟩ m4 →
      Vec.Valid ⟨py, tb.ktree⟩ m4 → Disj (Vec.Cell ⟨px, sb.ktree⟩) (Vec.Cell ⟨py, tb.ktree⟩) →
      (∀ c, Vec.Cell ⟨py, tb.ktree⟩ c → s.mem c = none) →
      IsCoeffs m4 sb X (Vec.val ⟨px, sb.ktree⟩ m4) → Tot (F ⟨px, sb.ktree⟩ ⟨py, tb.ktree⟩ ⟨m4, a⟩) fun s' => s'.act = a ∧
        ∃ g, VAdd ⟨py, tb.ktree⟩ m4 g s'.mem ∧ ∀ r, In tb.t r → synth m4 tb g r = Φ X r) :
    Tot (wrap F sidx tidx px py junk sb tb x y s) fun s' => s'.act = s.act ∧ VecBecomes y s.mem (fun p => y.val s.mem p +
      addAt tidx tb.t (Φ fun r => x.val s.mem (sidx.v r)) p) s'.mem := by
  obtain ⟨m, a⟩ := s
  simp only at vs vt hx hy fx fy hF ⊢
  have nx : ∀ c, Vec.Cell ⟨px, sb.ktree⟩ c → m c = none := fun c h => fresh_none fx h
  have fr1 := alloc_frame m px sb.ktree junk
  have vx1 : Vec.Valid ⟨px, sb.ktree⟩ (m.alloc px sb.ktree junk) := HMat.alloc_vvalid
  have dxy : Disj (Vec.Cell ⟨px, sb.ktree⟩) (Vec.Cell ⟨py, tb.ktree⟩) := fresh_vdisj fy vx1
  have ny : ∀ c, Vec.Cell ⟨py, tb.ktree⟩ c → m c = none := fun c h => by
    have := fresh_none fy h
    rwa [fr1 c (fun h' => dxy c h' h)] at this
  unfold wrap openNew
  simp only
  generalize hm1 : m.alloc px sb.ktree junk = m1 at *
  have fr2 := alloc_frame m1 py tb.ktree junk
  have vy2 : Vec.Valid ⟨py, tb.ktree⟩ (m1.alloc py tb.ktree junk) := HMat.alloc_vvalid
  generalize hm2 : m1.alloc py tb.ktree junk = m2 at *
  refine Tot.bind (run_tot (clearVec_tot vy2)) ?_
  rintro ⟨m3, a3⟩ - ⟨ha3, r1, r2, r3⟩
  simp only at ha3 r1 r2 r3
  subst ha3
  have wf : ∀ {S : Nat → Prop} {n n' : Mem K}, (∀ c, S c → m c = none) → Frame S n n' →
      Frame (fun c => m c = none) n n' := fun h f c hc => f c fun h' => hc (h c h')
  have F3 : Frame (fun c => m c = none) m m3 := ((wf nx fr1).trans (wf ny fr2)).trans (wf ny r3)
  have dx : Disj x.Cell (Vec.Cell ⟨px, sb.ktree⟩) := fun c h h' => none_vdisj hx c h (nx c h')
  have dsx : Disj (CbCell sb) (Vec.Cell ⟨px, sb.ktree⟩) := fun c h h' => none_cdisj vs c h (nx c h')
  have vx3 : Vec.Valid ⟨px, sb.ktree⟩ m3 := Rk.frame_vvalid r3 dxy (Rk.frame_vvalid fr2 dxy vx1)
  have vs3 : CbValid m3 sb := (frame_basis F3 hs vs (none_cdisj vs)).1
  have hx3 : x.Valid m3 := Rk.frame_vvalid F3 (none_vdisj hx) hx
  refine Tot.bind (forward_tot (idx := sidx) (cb := sb) (x := x) (xt := ⟨px, sb.ktree⟩) (s := ⟨m3, a + 1 + 1⟩) hs vs3 dsx hx3 dx
    vx3 rfl hsi) ?_
  rintro ⟨m4, a4⟩ - ⟨q1, q2, q3, q4⟩
  simp only at q1 q2 q3 q4
  subst q1
  have F4 : Frame (fun c => m c = none) m m4 := F3.trans (wf nx q3)
  have vy4 : Vec.Valid ⟨py, tb.ktree⟩ m4 := Rk.frame_vvalid q3 (fun c h h' => dxy c h' h) r1
  have ic : IsCoeffs m4 sb (fun r => x.val m3 (sidx.v r)) (Vec.val ⟨px, sb.ktree⟩ m4) :=
    (isCoeffs_frame q3 hs vs3 dsx).mpr q4
  refine Tot.bind (hF m4 (a + 1 + 1) _ F4 q2 vy4 dxy ny ic) ?_
  rintro ⟨m5, a5⟩ - ⟨p1, g, p2, p3⟩
  simp only at p1 p2 p3
  subst p1
  obtain ⟨p4, p5, p6⟩ := p2
  have F5 : Frame (fun c => m c = none) m m5 := F4.trans (wf ny p6)
  have dty : Disj (CbCell tb) (Vec.Cell ⟨py, tb.ktree⟩) := fun c h h' => none_cdisj vt c h (ny c h')
  have dyy : Disj y.Cell (Vec.Cell ⟨py, tb.ktree⟩) := fun c h h' => none_vdisj hy c h (ny c h')
  have dyx : Disj y.Cell (Vec.Cell ⟨px, sb.ktree⟩) := fun c h h' => none_vdisj hy c h (nx c h')
  have vt4 : CbValid m4 tb := (frame_basis F4 ht vt (none_cdisj vt)).1
  have vt5 : CbValid m5 tb := (frame_basis F5 ht vt (none_cdisj vt)).1
  refine Tot.bind (backward_tot (idx := tidx) (cb := tb) (y := y) (yt := ⟨py, tb.ktree⟩) (s := ⟨m5, a + 1 + 1⟩) ht vt5 dty hdy
    (Rk.frame_vvalid F5 (none_vdisj hy) hy) (fun c h h' => dyy c h' h) p4 rfl hti) ?_
  rintro ⟨m6, a6⟩ - ⟨b1, b2, b3, b4, b5⟩
  simp only at b1 b2 b3 b4 b5
  subst b1
  unfold uninitOwner
  simp only
  refine Tot.bind (P := fun (s : VSt K) => s = ⟨m6.free py tb.ktree, a + 1⟩)
    (Tot.cassert (by simp) (Tot.pure rfl)) ?_
  rintro _ - rfl
  refine Tot.cassert (by simp) (Tot.pure ⟨by simp, ?_, ?_, ?_⟩)
  · intro i hi
    simp only
    rw [free_eq (dyx _ (Vec.cell_addr hi)), free_eq (dyy _ (Vec.cell_addr hi))]
    exact b3 i hi
  · intro i hi
    have e : y.val ((m6.free py tb.ktree).free px sb.ktree) i = y.val m6 i := by
      unfold Vec.val
      rw [free_eq (dyx _ (Vec.cell_addr hi)), free_eq (dyy _ (Vec.cell_addr hi))]
    simp only
    rw [e, b5 i hi, Rk.frame_vval F5 (none_vdisj hy) hi]
    congr 1
    refine addAt_congr (idx := tidx) (fun r hr => ?_) i
    have h0 : synth m5 tb (Vec.val ⟨py, tb.ktree⟩ m5) r = synth m4 tb g r := by
      rw [synth_frame p6 ht vt4 dty]
      refine synth_y ht (fun q hq => ?_) r
      rw [p5 q hq]
      simp only
      rw [Rk.frame_vval q3 (fun c h h' => dxy c h' h) hq, r2 q hq, zero_add]
    rw [h0, p3 r hr]
    rw [hΦ _ (fun r => x.val m (sidx.v r)) fun r' hr' => Rk.frame_vval F3 (none_vdisj hx) (hsi.2 r' hr')]
  · subst hm1
    refine free_frame2 (K := K) fx fy (fun c hc => ?_) ?_
    · push Not at hc
      rw [b4 c (fun h => h.elim (fun h => hc.2 (ny c h)) hc.1), F5 c hc.2]
    · intro c h0 h1 h2
      have hcy : ¬ y.Cell c := fun h => none_vdisj hy c h h0
      rw [b4 c (fun h => h.elim h2 hcy), p6 c h2, q3 c h1, r3 c h2, ← hm2, alloc_frame _ _ _ _ c h2,
        alloc_frame _ _ _ _ c h1, h0]

theorem sonBases_unique {cb : CBas G} {n : Nat} {f : Fin n → CBas G} (hs : SonBases cb f) (ho : CbOk cb) {i j : Fin n} {r : Nat}
    (hi : In (f i).t r) (hj : In (f j).t r) : i = j := by
  cases cb with
  | mk t k kt kb V E ns son =>
    by_cases h0 : 0 < ns
    · obtain ⟨e, he⟩ := hs.1 h0
      replace e : n = ns := e
      subst e
      have he : f = son := funext he
      subst he
      exact In.unique (ho.2.1 h0).1 hi hj
    · obtain ⟨e, -⟩ := hs.2 (show ns = 0 by omega)
      subst e
      exact Subsingleton.elim i j

theorem place_sum {m : Mem K} {h : H2Mat G} {ridx cidx : Arr Nat} {n : Nat} (hi : IdxOk cidx h.cb.t n) (X : Nat → K) (alpha : K)
    (p : Nat) : addAt ridx h.rb.t (fun r => alpha * rowSum m h h.cb (fun c => X (cidx.v c)) r) p =
      alpha * ∑ b ∈ Finset.range n, h2dense ridx.v cidx.v m h p b * X b := by
  unfold addAt rowSum h2dense
  have e : ∀ b, (∑ i ∈ Finset.range h.rb.size, ∑ j ∈ Finset.range h.cb.size,
      if ridx.v (h.rb.t.cl.off + i) = p ∧ cidx.v (h.cb.t.cl.off + j) = b then
        h2place m h (h.rb.t.cl.off + i) (h.cb.t.cl.off + j) else 0) * X b =
      ∑ i ∈ Finset.range h.rb.size, ∑ j ∈ Finset.range h.cb.size, if cidx.v (h.cb.t.cl.off + j) = b then
        (if ridx.v (h.rb.t.cl.off + i) = p then h2place m h (h.rb.t.cl.off + i) (h.cb.t.cl.off + j) else 0) * X b else 0 := by
    intro b
    simp only [Finset.sum_mul]
    refine Finset.sum_congr rfl fun i _ => Finset.sum_congr rfl fun j _ => ?_
    by_cases h1 : ridx.v (h.rb.t.cl.off + i) = p <;> by_cases h2 : cidx.v (h.cb.t.cl.off + j) = b <;> simp [h1, h2]
  simp only [e]
  rw [Finset.sum_comm, Finset.mul_sum]
  refine Finset.sum_congr rfl fun i _ => ?_
  rw [Finset.sum_comm]
  by_cases h1 : ridx.v (h.rb.t.cl.off + i) = p
  · rw [if_pos h1]
    congr 1
    refine Finset.sum_congr rfl fun j hj => ?_
    rw [Finset.sum_ite_eq, if_pos (Finset.mem_range.mpr (hi.2 _ (H2.In.add (Finset.mem_range.mp hj)))), if_pos h1]
  · rw [if_neg h1]
    simp [h1]

theorem place_sum_trans {m : Mem K} {h : H2Mat G} {ridx cidx : Arr Nat} {n : Nat} (hi : IdxOk ridx h.rb.t n) (X : Nat → K)
    (alpha : K) (p : Nat) : addAt cidx h.cb.t (fun c => alpha * colSum m h h.rb (fun r => X (ridx.v r)) c) p =
      alpha * ∑ b ∈ Finset.range n, star (h2dense ridx.v cidx.v m h b p) * X b := by
  unfold addAt colSum h2dense
  have e : ∀ b, star (∑ i ∈ Finset.range h.rb.size, ∑ j ∈ Finset.range h.cb.size,
      if ridx.v (h.rb.t.cl.off + i) = b ∧ cidx.v (h.cb.t.cl.off + j) = p then
        h2place m h (h.rb.t.cl.off + i) (h.cb.t.cl.off + j) else 0) * X b =
      ∑ j ∈ Finset.range h.cb.size, ∑ i ∈ Finset.range h.rb.size, if ridx.v (h.rb.t.cl.off + i) = b then
        (if cidx.v (h.cb.t.cl.off + j) = p then star (h2place m h (h.rb.t.cl.off + i) (h.cb.t.cl.off + j)) else 0) * X b
        else 0 := by
    intro b
    simp only [star_sum, Finset.sum_mul]
    rw [Finset.sum_comm]
    refine Finset.sum_congr rfl fun i _ => Finset.sum_congr rfl fun j _ => ?_
    by_cases h1 : cidx.v (h.cb.t.cl.off + i) = p <;> by_cases h2 : ridx.v (h.rb.t.cl.off + j) = b <;> simp [h1, h2]
  simp only [e]
  rw [Finset.sum_comm, Finset.mul_sum]
  refine Finset.sum_congr rfl fun i _ => ?_
  rw [Finset.sum_comm]
  by_cases h1 : cidx.v (h.cb.t.cl.off + i) = p
  · rw [if_pos h1]
    congr 1
    refine Finset.sum_congr rfl fun j hj => ?_
    rw [Finset.sum_ite_eq, if_pos (Finset.mem_range.mpr (hi.2 _ (H2.In.add (Finset.mem_range.mp hj)))), if_pos h1]
  · rw [if_neg h1]
    simp [h1]

theorem addeval_tot {ridx cidx : Arr Nat} {px py : Nat} {junk : Nat → K} {alpha : K} {h : H2Mat G} {x y : Vec} {s : VSt K}
    (ho : H2Ok h) (hr : CbOk h.rb) (hc : CbOk h.cb) (hv : H2Valid s.mem h) (vr : CbValid s.mem h.rb)
    (vc : CbValid s.mem h.cb) (hdy : Disj (CbCell h.rb) y.Cell) (hx : x.Valid s.mem) (hy : y.Valid s.mem)
    (hci : IdxOk cidx h.cb.t x.dim) (hri : IdxOk ridx h.rb.t y.dim) (fx : Fresh s.mem px h.cb.ktree)
    (fy : Fresh (s.mem.alloc px h.cb.ktree junk) py h.rb.ktree) :
    Tot (addeval ridx cidx px py junk alpha h x y s) fun s' => s'.act = s.act ∧ VecBecomes y s.mem (fun p => y.val s.mem p +
      alpha * ∑ b ∈ Finset.range x.dim, h2dense ridx.v cidx.v s.mem h p b * x.val s.mem b) s'.mem := by
  refine (wrap_tot (F := fastaddeval alpha h) (Φ := fun X r => alpha * rowSum s.mem h h.cb X r) (sidx := cidx) (tidx := ridx)
    (px := px) (py := py) (junk := junk) hc hr vc vr hdy hx hy hci hri fx fy ?_ ?_).mono
    fun s' hs => ⟨hs.1, vbecomes_congr hs.2 fun p hp => ?_⟩
  · intro X X' e
    funext r
    unfold rowSum
    congr 1
    exact Finset.sum_congr rfl fun i hi => by rw [e _ (H2.In.add (Finset.mem_range.mp hi))]
  · intro m4 a X F4 vx vy dxy ny ic
    obtain ⟨hv4, hp⟩ := place_frame F4 ho hr hc hv vr vc (none_hdisj hv) (none_cdisj vr) (none_cdisj vc)
    refine (fastaddeval_tot (S := Vec.Cell ⟨py, h.rb.ktree⟩) (m0 := m4) ho hr hc hv4
      (fun c h1 h2 => none_hdisj hv c h1 (ny c h2)) vx dxy rfl rfl (fun c h => h) (fun c _ => rfl) vy ic).mono ?_
    rintro s' ⟨h1, g, h2, h3⟩
    refine ⟨h1, g, h2, fun r hr' => ?_⟩
    rw [h3 r hr']
    unfold rowSum
    simp only [hp]
  · rw [place_sum hci]

theorem addevaltrans_tot {ridx cidx : Arr Nat} {px py : Nat} {junk : Nat → K} {alpha : K} {h : H2Mat G} {x y : Vec} {s : VSt K}
    (ho : H2Ok h) (hr : CbOk h.rb) (hc : CbOk h.cb) (hv : H2Valid s.mem h) (vr : CbValid s.mem h.rb)
    (vc : CbValid s.mem h.cb) (hdy : Disj (CbCell h.cb) y.Cell) (hx : x.Valid s.mem) (hy : y.Valid s.mem)
    (hri : IdxOk ridx h.rb.t x.dim) (hci : IdxOk cidx h.cb.t y.dim) (fx : Fresh s.mem px h.rb.ktree)
    (fy : Fresh (s.mem.alloc px h.rb.ktree junk) py h.cb.ktree) :
    Tot (addevaltrans ridx cidx px py junk alpha h x y s) fun s' => s'.act = s.act ∧ VecBecomes y s.mem (fun p =>
      y.val s.mem p + alpha * ∑ b ∈ Finset.range x.dim, star (h2dense ridx.v cidx.v s.mem h b p) * x.val s.mem b) s'.mem := by
  refine (wrap_tot (F := fastaddevaltrans alpha h) (Φ := fun X r => alpha * colSum s.mem h h.rb X r) (sidx := ridx)
    (tidx := cidx) (px := px) (py := py) (junk := junk) hr hc vr vc hdy hx hy hri hci fx fy ?_ ?_).mono
    fun s' hs => ⟨hs.1, vbecomes_congr hs.2 fun p hp => ?_⟩
  · intro X X' e
    funext r
    unfold colSum
    congr 1
    exact Finset.sum_congr rfl fun i hi => by rw [e _ (H2.In.add (Finset.mem_range.mp hi))]
  · intro m4 a X F4 vx vy dxy ny ic
    obtain ⟨hv4, hp⟩ := place_frame F4 ho hr hc hv vr vc (none_hdisj hv) (none_cdisj vr) (none_cdisj vc)
    refine (fastaddevaltrans_tot (S := Vec.Cell ⟨py, h.cb.ktree⟩) (m0 := m4) ho hr hc hv4
      (fun c h1 h2 => none_hdisj hv c h1 (ny c h2)) vx dxy rfl rfl (fun c h => h) (fun c _ => rfl) vy ic).mono ?_
    rintro s' ⟨h1, g, h2, h3⟩
    refine ⟨h1, g, h2, fun r hr' => ?_⟩
    rw [h3 r hr']
    unfold colSum
    simp only [hp]
  · rw [place_sum_trans hri]

end H2Mat
end H2
