import Verif.Proof.CbBranch
import Verif.Proof.H2Solve

/-! Multiplication by a cluster basis matrix and by a uniform matrix with temporary vectors. -/

set_option linter.unusedSectionVars false

namespace H2
open Spec Dense

namespace CBas
open VSt
variable {G : Type} {K : Type} [Field K] [StarRing K]

theorem uninitOwner_eq (v : Vec) (m : Mem K) (a : Nat) : uninitOwner (K := K) v ⟨m, a + 1⟩ = .ok ⟨m.free v.base v.dim, a⟩ := by
  unfold uninitOwner; rw [cassert_true (by simp), ok_bind]; rfl

theorem free_becomes {m m1 m2 : Mem K} {p n : Nat} {y : Vec} {F : Nat → K} (h : Fresh m p n) (h1 : Frame (Vec.Cell ⟨p, n⟩) m m1)
    (h2 : Frame (fun c => y.Cell c ∨ Vec.Cell ⟨p, n⟩ c) m1 m2) (hy : y.Valid m) (hy2 : y.Valid m2)
    (hv : ∀ i < y.dim, y.val m2 i = F i) : VecBecomes y m F (m2.free p n) := by
  have hd := fresh_vdisj h hy
  have e : ∀ i < y.dim, m2.free p n (y.addr i) = m2 (y.addr i) := fun i hi => free_eq (hd _ (Vec.cell_addr hi))
  refine ⟨fun i hi => ?_, fun i hi => ?_, free_frame h h1 h2⟩
  · rw [e i hi]; exact hy2 i hi
  · rw [← hv i hi]; unfold Vec.val; rw [e i hi]

theorem addeval_tot {alloc : Mem K → Nat → Nat} {junk : Nat → K} {alpha : K} {cb : CBas G} {yc yp : Vec} {s : VSt K}
    (hal : FreshAlloc alloc) (hbm : FiniteMem s.mem) (ho : CbOk cb) (hbr : BranchOk cb) (hv : CbValid s.mem cb)
    (hd : Disj (CbCell cb) yp.Cell) (hc : yc.Valid s.mem) (hp : yp.Valid s.mem) (ec : yc.dim = cb.k) (ep : yp.dim = cb.size) :
    Tot (addeval alloc junk alpha cb yc yp s) fun s' => s'.act = s.act ∧ VecBecomes yp s.mem (fun i => yp.val s.mem i +
      alpha * ∑ l ∈ Finset.range cb.k, basis s.mem cb (cb.t.cl.off + i) l * yc.val s.mem l) s'.mem := by
  obtain ⟨m, a⟩ := s
  simp only at hbm hv hc hp ⊢
  unfold addeval openNew
  refine Tot.cassert (by simpa using ec) (Tot.cassert (by simpa using ep) ?_)
  simp only
  have fx := hal m cb.kbranch hbm
  generalize alloc m cb.kbranch = p at *
  have hk := branch_k hbr
  have nx : ∀ c, Vec.Cell ⟨p, cb.kbranch⟩ c → m c = none := fun c h => fresh_none fx h
  have fr1 := alloc_frame m p cb.kbranch junk
  have v1 : Vec.Valid ⟨p, cb.kbranch⟩ (m.alloc p cb.kbranch junk) := HMat.alloc_vvalid
  generalize hm1 : m.alloc p cb.kbranch junk = m1 at *
  obtain ⟨y1, ey1⟩ : ∃ y1, initSubVec ⟨p, cb.kbranch⟩ cb.k 0 = .ok y1 := ⟨_, initSubVec_ok.mpr ⟨by simpa using hk, rfl⟩⟩
  rw [openSub_eq ey1, ok_bind]
  simp only
  have dc : Disj yc.Cell (Vec.Cell ⟨p, cb.kbranch⟩) := fresh_vdisj fx hc
  have dp : Disj yp.Cell (Vec.Cell ⟨p, cb.kbranch⟩) := fresh_vdisj fx hp
  have dcb : Disj (CbCell cb) (Vec.Cell ⟨p, cb.kbranch⟩) := fun c h h' => H2Mat.none_cdisj hv c h (nx c h')
  refine Tot.bind (run_tot (copyVec_tot (Rk.frame_vvalid fr1 dc hc) (sub_valid ey1 v1) (fun c h h' => dc c h (sub_cell ey1 h'))
    (by rw [sub_dim ey1]; exact ec))) ?_
  rintro ⟨m2, a2⟩ - ⟨ha2, r1, r2, r3⟩
  simp only at ha2 r1 r2 r3
  subst ha2
  refine Tot.bind (run_tot (scaleVec_tot r1 alpha)) ?_
  rintro ⟨m3, a3⟩ - ⟨ha3, q1, q2, q3⟩
  simp only at ha3 q1 q2 q3
  subst ha3
  rw [uninit_eq, ok_bind]
  have F3 : Frame (Vec.Cell ⟨p, cb.kbranch⟩) m m3 := (fr1.trans (sub_frame ey1 r3)).trans (sub_frame ey1 q3)
  have v3 : Vec.Valid ⟨p, cb.kbranch⟩ m3 := sub_revalid ey1 (sub_revalid ey1 v1 r1 r3) q1 q3
  obtain ⟨w1, w2⟩ := frame_basis F3 ho hv dcb
  have wv : ∀ l < cb.k, Vec.val ⟨p, cb.kbranch⟩ m3 l = alpha * yc.val m l := by
    intro l hl
    have h1 := q2 l (by rw [sub_dim ey1]; exact hl)
    have h2 := r2 l (by rw [sub_dim ey1]; exact hl)
    rw [h2, sub_val ey1, zero_add, Rk.frame_vval fr1 dc (by omega)] at h1
    exact h1
  refine Tot.bind (expand_tot (cb := cb) (yt := ⟨p, cb.kbranch⟩) (yp := yp) (s := ⟨m3, a + 1⟩) ho hbr w1 dcb hd
    (Rk.frame_vvalid F3 dp hp) (fun c h h' => dp c h' h) v3 rfl ep) ?_
  rintro ⟨m4, a4⟩ - ⟨ha4, g1, g2, g3, -, g4⟩
  simp only at ha4 g1 g2 g3 g4
  subst ha4
  rw [uninitOwner_eq]
  refine ⟨_, rfl, rfl, free_becomes fx F3 (g3.mono fun c h => h.symm) hp g2 fun i hi => ?_⟩
  rw [g4 i hi, Rk.frame_vval F3 dp hi]
  congr 1
  rw [Finset.mul_sum]
  refine Finset.sum_congr rfl fun l hl => ?_
  have hl := Finset.mem_range.mp hl
  rw [w2 _ l hl, wv l hl]; ring

theorem addevaltrans_tot {alloc : Mem K → Nat → Nat} {junk : Nat → K} {alpha : K} {cb : CBas G} {xp xc : Vec} {s : VSt K}
    (hal : FreshAlloc alloc) (hbm : FiniteMem s.mem) (ho : CbOk cb) (hbr : BranchOk cb) (hv : CbValid s.mem cb)
    (hc : xc.Valid s.mem) (hp : xp.Valid s.mem) (ec : xc.dim = cb.k) (ep : xp.dim = cb.size) :
    Tot (addevaltrans alloc junk alpha cb xp xc s) fun s' => s'.act = s.act ∧ VecBecomes xc s.mem (fun l => xc.val s.mem l +
      alpha * ∑ i ∈ Finset.range cb.size, star (basis s.mem cb (cb.t.cl.off + i) l) * xp.val s.mem i) s'.mem := by
  obtain ⟨m, a⟩ := s
  simp only at hbm hv hc hp ⊢
  unfold addevaltrans openNew
  refine Tot.cassert (by simpa using ep) (Tot.cassert (by simpa using ec) ?_)
  simp only
  have fx := hal m cb.kbranch hbm
  generalize alloc m cb.kbranch = p at *
  have hk := branch_k hbr
  have nx : ∀ c, Vec.Cell ⟨p, cb.kbranch⟩ c → m c = none := fun c h => fresh_none fx h
  have fr1 := alloc_frame m p cb.kbranch junk
  have v1 : Vec.Valid ⟨p, cb.kbranch⟩ (m.alloc p cb.kbranch junk) := HMat.alloc_vvalid
  generalize hm1 : m.alloc p cb.kbranch junk = m1 at *
  obtain ⟨x1, ex1⟩ : ∃ x1, initSubVec ⟨p, cb.kbranch⟩ cb.k 0 = .ok x1 := ⟨_, initSubVec_ok.mpr ⟨by simpa using hk, rfl⟩⟩
  have dc : Disj xc.Cell (Vec.Cell ⟨p, cb.kbranch⟩) := fresh_vdisj fx hc
  have dp : Disj xp.Cell (Vec.Cell ⟨p, cb.kbranch⟩) := fresh_vdisj fx hp
  have dcb : Disj (CbCell cb) (Vec.Cell ⟨p, cb.kbranch⟩) := fun c h h' => H2Mat.none_cdisj hv c h (nx c h')
  obtain ⟨w1, w2⟩ := frame_basis fr1 ho hv dcb
  refine Tot.bind (compress_tot (cb := cb) (xp := xp) (xt := ⟨p, cb.kbranch⟩) (s := ⟨m1, a + 1⟩) ho hbr w1 dcb
    (Rk.frame_vvalid fr1 dp hp) dp v1 rfl ep) ?_
  rintro ⟨m2, a2⟩ - ⟨ha2, r1, r2, r3⟩
  simp only at ha2 r1 r2 r3
  subst ha2
  rw [openSub_eq ex1, ok_bind]
  simp only
  have F2 := fr1.trans r2
  refine Tot.bind (run_tot (addVec_tot (sub_valid ex1 r1) (Rk.frame_vvalid F2 dc hc) (fun c h h' => dc c h' (sub_cell ex1 h))
    (by rw [sub_dim ex1]; omega) alpha)) ?_
  rintro ⟨m3, a3⟩ - ⟨ha3, q1, q2, q3⟩
  simp only at ha3 q1 q2 q3
  subst ha3
  rw [uninit_eq, ok_bind, uninitOwner_eq]
  refine ⟨_, rfl, rfl, free_becomes fx F2 (Frame.mono q3 fun c h => .inl h) hc q1 fun l hl => ?_⟩
  have hl' : l < cb.k := by omega
  rw [q2 l hl]
  rw [sub_dim ex1, if_pos hl', sub_val ex1, zero_add, r3 l hl', Rk.frame_vval F2 dc hl]
  congr 2
  refine Finset.sum_congr rfl fun i hi => ?_
  have hi := Finset.mem_range.mp hi
  rw [w2 _ l hl', Rk.frame_vval fr1 dp (by omega)]

theorem mvmUniform_tot {alloc : Mem K → Nat → Nat} {junk : Nat → K} {alpha : K} {trans : Bool} {rb cb sb tb : CBas G} {S : Mat}
    {x y : Vec} {s : VSt K} (hal : FreshAlloc alloc) (hbm : FiniteMem s.mem) (esb : sb = if trans then rb else cb)
    (etb : tb = if trans then cb else rb) (os : CbOk sb) (ot : CbOk tb) (bs : BranchOk sb) (bt : BranchOk tb)
    (vs : CbValid s.mem sb) (vt : CbValid s.mem tb) (hS : S.Valid s.mem) (rS : S.rows = rb.k) (cS : S.cols = cb.k)
    (hd : Disj (CbCell tb) y.Cell) (hx : x.Valid s.mem) (hy : y.Valid s.mem) (ex : x.dim = sb.size) (ey : y.dim = tb.size) :
    Tot (mvmUniform alloc junk alpha trans rb cb S x y s) fun s' => s'.act = s.act ∧ VecBecomes y s.mem (fun i => y.val s.mem i +
      alpha * ∑ l ∈ Finset.range tb.k, basis s.mem tb (tb.t.cl.off + i) l * ∑ q ∈ Finset.range sb.k,
        op trans (S.val s.mem) l q * ∑ j ∈ Finset.range sb.size, star (basis s.mem sb (sb.t.cl.off + j) q) * x.val s.mem j) s'.mem := by
  obtain ⟨m, a⟩ := s
  simp only at hbm vs vt hS hx hy ⊢
  unfold mvmUniform openNew
  rw [← esb, ← etb]
  simp only
  have fx := hal m sb.kbranch hbm
  generalize alloc m sb.kbranch = px at *
  have fy := hal _ tb.kbranch (H2Mat.bounded_alloc hbm px sb.kbranch junk)
  generalize alloc (m.alloc px sb.kbranch junk) tb.kbranch = py at *
  have ks := branch_k bs
  have kt := branch_k bt
  have nx : ∀ c, Vec.Cell ⟨px, sb.kbranch⟩ c → m c = none := fun c h => fresh_none fx h
  have fr1 := alloc_frame m px sb.kbranch junk
  have vx1 : Vec.Valid ⟨px, sb.kbranch⟩ (m.alloc px sb.kbranch junk) := HMat.alloc_vvalid
  have dxy : Disj (Vec.Cell ⟨px, sb.kbranch⟩) (Vec.Cell ⟨py, tb.kbranch⟩) := fresh_vdisj fy vx1
  have dyx : Disj (Vec.Cell ⟨py, tb.kbranch⟩) (Vec.Cell ⟨px, sb.kbranch⟩) := fun c h h' => dxy c h' h
  have ny : ∀ c, Vec.Cell ⟨py, tb.kbranch⟩ c → m c = none := fun c h => by
    have := fresh_none fy h
    rwa [fr1 c (fun h' => dxy c h' h)] at this
  generalize hm1 : m.alloc px sb.kbranch junk = m1 at *
  have fr2 := alloc_frame m1 py tb.kbranch junk
  have vy2 : Vec.Valid ⟨py, tb.kbranch⟩ (m1.alloc py tb.kbranch junk) := HMat.alloc_vvalid
  generalize hm2 : m1.alloc py tb.kbranch junk = m2 at *
  have wf : ∀ {S : Nat → Prop} {n n' : Mem K}, (∀ c, S c → m c = none) → Frame S n n' →
      Frame (fun c => m c = none) n n' := fun h f c hc => f c fun h' => hc (h c h')
  have F2 : Frame (fun c => m c = none) m m2 := (wf nx fr1).trans (wf ny fr2)
  have dx : Disj x.Cell (Vec.Cell ⟨px, sb.kbranch⟩) := fun c h h' => H2Mat.none_vdisj hx c h (nx c h')
  have dsx : Disj (CbCell sb) (Vec.Cell ⟨px, sb.kbranch⟩) := fun c h h' => H2Mat.none_cdisj vs c h (nx c h')
  have dty : Disj (CbCell tb) (Vec.Cell ⟨py, tb.kbranch⟩) := fun c h h' => H2Mat.none_cdisj vt c h (ny c h')
  have dSn : Disj S.Cell (fun c => m c = none) := by
    rintro c ⟨i, hi, j, hj, rfl⟩ h
    have := hS.2 i hi j hj
    rw [h] at this; exact absurd this (by simp)
  obtain ⟨w1, w2⟩ := frame_basis F2 os vs (H2Mat.none_cdisj vs)
  refine Tot.bind (compress_tot (cb := sb) (xp := x) (xt := ⟨px, sb.kbranch⟩) (s := ⟨m2, a + 1 + 1⟩) os bs w1 dsx
    (Rk.frame_vvalid F2 (H2Mat.none_vdisj hx) hx) dx (Rk.frame_vvalid fr2 dxy vx1) rfl ex) ?_
  rintro ⟨m3, a3⟩ - ⟨ha3, r1, r2, r3⟩
  simp only at ha3 r1 r2 r3
  subst ha3
  refine Tot.bind (run_tot (clearVec_tot (Rk.frame_vvalid r2 dyx vy2))) ?_
  rintro ⟨m4, a4⟩ - ⟨ha4, q1, q2, q3⟩
  simp only at ha4 q1 q2 q3
  subst ha4
  have F4 : Frame (fun c => m c = none) m m4 := (F2.trans (wf nx r2)).trans (wf ny q3)
  have vx4 := Rk.frame_vvalid q3 dxy r1
  have hX : ∀ q < sb.k, Vec.val ⟨px, sb.kbranch⟩ m4 q = ∑ j ∈ Finset.range sb.size,
      star (basis m sb (sb.t.cl.off + j) q) * x.val m j := by
    intro q hq
    rw [Rk.frame_vval q3 dxy (show q < sb.kbranch by omega), r3 q hq]
    refine Finset.sum_congr rfl fun j hj => ?_
    have hj := Finset.mem_range.mp hj
    rw [w2 _ q hq, Rk.frame_vval F2 (H2Mat.none_vdisj hx) (by omega)]
  have step : Tot (run (mvm alpha trans S ⟨px, sb.kbranch⟩ ⟨py, tb.kbranch⟩) ⟨m4, a + 1 + 1⟩) fun s' => s'.act = a + 1 + 1 ∧
      Vec.Valid ⟨py, tb.kbranch⟩ s'.mem ∧ Frame (Vec.Cell ⟨py, tb.kbranch⟩) m4 s'.mem ∧
      ∀ l < tb.k, Vec.val ⟨py, tb.kbranch⟩ s'.mem l = alpha * ∑ q ∈ Finset.range sb.k, op trans (S.val m) l q *
        ∑ j ∈ Finset.range sb.size, star (basis m sb (sb.t.cl.off + j) q) * x.val m j := by
    have dSy : Disj S.Cell (Vec.Cell ⟨py, tb.kbranch⟩) := fun c h h' => dSn c h (ny c h')
    have hS4 := Rk.frame_valid F4 dSn hS
    cases trans
    · obtain rfl : sb = cb := esb
      obtain rfl : tb = rb := etb
      refine (run_tot (Dense.addeval_tot hS4 vx4 q1 dSy dxy (show S.cols ≤ sb.kbranch by omega)
        (show S.rows ≤ tb.kbranch by omega) alpha)).mono fun s' h => ⟨h.1, h.2.1, h.2.2.2, fun l hl => ?_⟩
      have e := h.2.2.1 l (show l < tb.kbranch by omega)
      simp only at e
      rw [if_pos (by omega), q2 l (show l < tb.kbranch by omega), zero_add, cS] at e
      rw [e]
      congr 1
      refine Finset.sum_congr rfl fun q hq => ?_
      have hq := Finset.mem_range.mp hq
      rw [hX q hq, Rk.frame_val F4 dSn (by omega) (by omega)]
      rfl
    · obtain rfl : sb = rb := esb
      obtain rfl : tb = cb := etb
      refine (run_tot (Dense.addevaltrans_tot hS4 vx4 q1 dSy dxy (show S.rows ≤ sb.kbranch by omega)
        (show S.cols ≤ tb.kbranch by omega) alpha)).mono fun s' h => ⟨h.1, h.2.1, h.2.2.2, fun l hl => ?_⟩
      have e := h.2.2.1 l (show l < tb.kbranch by omega)
      simp only at e
      rw [if_pos (by omega), q2 l (show l < tb.kbranch by omega), zero_add, rS] at e
      rw [e]
      congr 1
      refine Finset.sum_congr rfl fun q hq => ?_
      have hq := Finset.mem_range.mp hq
      rw [hX q hq, Rk.frame_val F4 dSn (by omega) (by omega)]
      rfl
  refine Tot.bind step ?_
  rintro ⟨m5, a5⟩ - ⟨ha5, g1, g2, g3⟩
  simp only at ha5 g1 g2 g3
  subst ha5
  have F5 : Frame (fun c => m c = none) m m5 := F4.trans (wf ny g2)
  obtain ⟨w3, w4⟩ := frame_basis F5 ot vt (H2Mat.none_cdisj vt)
  have dyn := H2Mat.none_vdisj hy
  refine Tot.bind (expand_tot (cb := tb) (yt := ⟨py, tb.kbranch⟩) (yp := y) (s := ⟨m5, a + 1 + 1⟩) ot bt w3 dty hd
    (Rk.frame_vvalid F5 dyn hy) (fun c h h' => dyn c h' (ny c h)) g1 rfl ey) ?_
  rintro ⟨m6, a6⟩ - ⟨ha6, h1, h2, h3, -, h4⟩
  simp only at ha6 h1 h2 h3 h4
  subst ha6
  rw [uninitOwner_eq, ok_bind, uninitOwner_eq]
  refine ⟨_, rfl, rfl, ?_⟩
  simp only
  have vyd : Disj y.Cell (Vec.Cell ⟨py, tb.kbranch⟩) := fun c h h' => dyn c h (ny c h')
  have hm1y : y.Valid m1 := Rk.frame_vvalid fr1 (fun c h h' => dyn c h (nx c h')) hy
  -- release the second vector, then the first
  have R : Frame (fun c => (y.Cell c ∨ Vec.Cell ⟨px, sb.kbranch⟩ c) ∨ Vec.Cell ⟨py, tb.kbranch⟩ c) m2 m6 := by
    refine Frame.trans (Frame.trans (Frame.trans (Frame.mono r2 fun c h => .inl (.inr h)) (Frame.mono q3 fun c h => .inr h))
      (Frame.mono g2 fun c h => .inr h)) (h3.mono fun c h => h.elim (fun h => .inr h) fun h => .inl (.inl h))
  have R1 : Frame (fun c => y.Cell c ∨ Vec.Cell ⟨px, sb.kbranch⟩ c) m1 (m6.free py tb.kbranch) := free_frame fy fr2 R
  have ef : ∀ i < y.dim, m6.free py tb.kbranch (y.addr i) = m6 (y.addr i) := fun i hi => free_eq (vyd _ (Vec.cell_addr hi))
  refine free_becomes fx fr1 R1 hy (fun i hi => by rw [ef i hi]; exact h2 i hi) fun i hi => ?_
  have e : y.val (m6.free py tb.kbranch) i = y.val m6 i := by unfold Vec.val; rw [ef i hi]
  rw [e, h4 i hi, Rk.frame_vval F5 dyn hi]
  congr 1
  rw [Finset.mul_sum]
  refine Finset.sum_congr rfl fun l hl => ?_
  have hl := Finset.mem_range.mp hl
  rw [w4 _ l hl, g3 l hl]; ring

/-- the counts computed by `update_tree_clusterbasis` leave enough room -/
theorem branchOk_of_counts : ∀ {cb : CBas G}, CountsOk cb → BranchOk cb := by
  have kb : ∀ {cb : CBas G}, CountsOk cb → cb.kbranch = branchCount cb := by
    intro cb h
    cases cb; exact h.2.1
  intro cb
  induction cb with
  | mk t k kt kb' V E n son ih =>
    rintro ⟨-, h2, h3⟩
    unfold branchCount at h2
    refine ⟨by omega, fun i => ⟨?_, ih i (h3 i)⟩⟩
    rw [h2, if_neg (by have := i.2; omega), kb (h3 i)]
    exact Nat.add_le_add_left (Finset.le_sup (f := fun i => branchCount (son i)) (Finset.mem_univ i)) _

end CBas
end H2
