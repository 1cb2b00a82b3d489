import Verif.Proof.H2Matrix3
import Verif.Proof.ClusterBasis3
import Verif.Proof.HSolve8
import Verif.Model.H2Solve
import Verif.Spec.H2Solve

/-! Triangular solves with H2-matrices: the update of a block. -/

set_option linter.unusedSectionVars false

namespace H2
open Spec Dense

namespace H2Mat
open VSt CBas
variable {G : Type} {K : Type} [Field K] [StarRing K]

theorem free_comm (m : Mem K) (p n q k : Nat) : (m.free p n).free q k = (m.free q k).free p n := by
  funext c
  simp only [Mem.free]
  split <;> split <;> rfl

theorem bounded_alloc {m : Mem K} (h : FiniteMem m) (p n : Nat) (junk : Nat → K) : FiniteMem (m.alloc p n junk) := by
  obtain ⟨b, hb⟩ := h
  refine ⟨b + p + n, fun c hc => ?_⟩
  rw [alloc_frame m p n junk c]
  · exact hb c (by omega)
  · rw [HMat.vcell_iff]; omega

theorem bounded_frame {m m' : Mem K} {x : Vec} (h : FiniteMem m) (hf : Frame x.Cell m m') : FiniteMem m' := by
  obtain ⟨b, hb⟩ := h
  refine ⟨b + x.base + x.dim, fun c hc => ?_⟩
  rw [hf c]
  · exact hb c (by omega)
  · rintro ⟨i, hi, e⟩
    simp only [Vec.addr] at e
    omega

/-- the source and target basis -/
def srcB (trans : Bool) (b : H2Mat G) : CBas G := if trans then b.rb else b.cb
def tgtB (trans : Bool) (b : H2Mat G) : CBas G := if trans then b.cb else b.rb

theorem subMul_tot {alloc : Mem K → Nat → Nat} {junk : Nat → K} {trans : Bool} {b : H2Mat G} {x1 x2 : Vec} {s : VSt K}
    (hal : FreshAlloc alloc) (hbm : FiniteMem s.mem) (hb : H2Ready s.mem b) (hd2 : Disj (CbCell (tgtB trans b)) x2.Cell)
    (h1 : x1.Valid s.mem) (h2 : x2.Valid s.mem) (hd : Disj x1.Cell x2.Cell) (e1 : x1.dim = (srcB trans b).size)
    (e2 : x2.dim = (tgtB trans b).size) :
    Tot (subMul alloc junk trans b x1 x2 s) fun s' => s'.act = s.act ∧ VecBecomes x2 s.mem (fun l => x2.val s.mem l +
      -1 * ∑ k ∈ Finset.range (srcB trans b).size, op trans (h2place s.mem b) ((tgtB trans b).t.cl.off + l)
        ((srcB trans b).t.cl.off + k) * x1.val s.mem k) s'.mem := by
  obtain ⟨m, a⟩ := s
  obtain ⟨o, or, oc, sr, sc, hv, vr, vc⟩ := hb
  simp only at hbm hv vr vc h1 h2 ⊢
  have hs : CbOk (srcB trans b) := by unfold srcB; split <;> assumption
  have ht : CbOk (tgtB trans b) := by unfold tgtB; split <;> assumption
  have ss : CbSons (srcB trans b) := by unfold srcB; split <;> assumption
  have st : CbSons (tgtB trans b) := by unfold tgtB; split <;> assumption
  have vs : CbValid m (srcB trans b) := by unfold srcB; split <;> assumption
  have vt : CbValid m (tgtB trans b) := by unfold tgtB; split <;> assumption
  unfold subMul openNew
  simp only
  rw [show (if trans = true then b.rb else b.cb) = srcB trans b from rfl, show (if trans = true then b.cb else b.rb) = tgtB trans b from rfl]
  obtain ⟨sb, hsb⟩ : ∃ sb, sb = srcB trans b := ⟨_, rfl⟩
  obtain ⟨tb, htb⟩ : ∃ tb, tb = tgtB trans b := ⟨_, rfl⟩
  rw [← hsb, ← htb]
  rw [← hsb] at hs ss vs e1
  rw [← htb] at ht st vt e2 hd2
  have fx := hal m sb.ktree hbm
  generalize alloc m sb.ktree = px at *
  have fy := hal _ tb.ktree (bounded_alloc hbm px sb.ktree junk)
  generalize alloc (m.alloc px sb.ktree junk) tb.ktree = py at *
  have nx : ∀ c, Vec.Cell ⟨px, sb.ktree⟩ c → m c = none := fun c h => fresh_none fx h
  have fr1 := alloc_frame m px sb.ktree junk
  have vx1 : Vec.Valid ⟨px, sb.ktree⟩ (m.alloc px sb.ktree junk) := HMat.alloc_vvalid
  have dxy : Disj (Vec.Cell ⟨px, sb.ktree⟩) (Vec.Cell ⟨py, tb.ktree⟩) := fresh_vdisj fy vx1
  have ny : ∀ c, Vec.Cell ⟨py, tb.ktree⟩ c → m c = none := fun c h => by
    have := fresh_none fy h
    rwa [fr1 c (fun h' => dxy c h' h)] at this
  generalize hm1 : m.alloc px sb.ktree junk = m1 at *
  have fr2 := alloc_frame m1 py tb.ktree junk
  have vy2 : Vec.Valid ⟨py, tb.ktree⟩ (m1.alloc py tb.ktree junk) := HMat.alloc_vvalid
  generalize hm2 : m1.alloc py tb.ktree junk = m2 at *
  refine Tot.bind (run_tot (clearVec_tot vy2)) ?_
  rintro ⟨m3, a3⟩ - ⟨ha3, r1, r2, r3⟩
  simp only at ha3 r1 r2 r3
  subst ha3
  have wf : ∀ {S : Nat → Prop} {n n' : Mem K}, (∀ c, S c → m c = none) → Frame S n n' →
      Frame (fun c => m c = none) n n' := fun h f c hc => f c fun h' => hc (h c h')
  have F3 : Frame (fun c => m c = none) m m3 := ((wf nx fr1).trans (wf ny fr2)).trans (wf ny r3)
  have dx : Disj x1.Cell (Vec.Cell ⟨px, sb.ktree⟩) := fun c h h' => none_vdisj h1 c h (nx c h')
  have dsx : Disj (CbCell sb) (Vec.Cell ⟨px, sb.ktree⟩) := fun c h h' => none_cdisj vs c h (nx c h')
  have vx3 : Vec.Valid ⟨px, sb.ktree⟩ m3 := Rk.frame_vvalid r3 dxy (Rk.frame_vvalid fr2 dxy vx1)
  have vs3 : CbValid m3 sb := (frame_basis F3 hs vs (none_cdisj vs)).1
  have hx3 : x1.Valid m3 := Rk.frame_vvalid F3 (none_vdisj h1) h1
  refine Tot.bind (forwardNoperm_tot (cb := sb) (xp := x1) (xt := ⟨px, sb.ktree⟩) (s := ⟨m3, a + 1 + 1⟩) hs ss vs3 dsx hx3 dx
    vx3 rfl e1) ?_
  rintro ⟨m4, a4⟩ - ⟨q1, q2, q3, q4⟩
  simp only at q1 q2 q3 q4
  subst q1
  have F4 : Frame (fun c => m c = none) m m4 := F3.trans (wf nx q3)
  have vy4 : Vec.Valid ⟨py, tb.ktree⟩ m4 := Rk.frame_vvalid q3 (fun c h h' => dxy c h' h) r1
  have ic : IsCoeffs m4 sb (fun r => x1.val m3 (r - sb.t.cl.off)) (Vec.val ⟨px, sb.ktree⟩ m4) :=
    (isCoeffs_frame q3 hs vs3 dsx).mpr q4
  obtain ⟨hv4, hp⟩ := place_frame F4 o or oc hv vr vc (none_hdisj hv) (none_cdisj vr) (none_cdisj vc)
  have step : Tot (if trans = true then fastaddevaltrans (-1) b ⟨px, sb.ktree⟩ ⟨py, tb.ktree⟩ ⟨m4, a + 1 + 1⟩
      else fastaddeval (-1) b ⟨px, sb.ktree⟩ ⟨py, tb.ktree⟩ ⟨m4, a + 1 + 1⟩) fun s' => s'.act = a + 1 + 1 ∧
        ∃ g, VAdd ⟨py, tb.ktree⟩ m4 g s'.mem ∧ ∀ r, In tb.t r → synth m4 tb g r = -1 * ∑ k ∈ Finset.range sb.size,
          op trans (h2place m b) r (sb.t.cl.off + k) * x1.val m k := by
    have hx : ∀ k < sb.size, x1.val m3 (sb.t.cl.off + k - sb.t.cl.off) = x1.val m k := fun k hk => by
      rw [Nat.add_sub_cancel_left]; exact Rk.frame_vval F3 (none_vdisj h1) (by omega)
    by_cases htr : trans = true
    · subst htr
      rw [if_pos rfl]
      replace hsb : sb = b.rb := hsb
      replace htb : tb = b.cb := htb
      refine (fastaddevaltrans_tot (S := Vec.Cell ⟨py, tb.ktree⟩) (m0 := m4) o or oc hv4
        (fun c h1 h2 => none_hdisj hv c h1 (ny c h2)) q2 dxy (by rw [hsb]) (by rw [htb]) (fun c h => h) (fun c _ => rfl) vy4
        (X := fun r => x1.val m3 (r - sb.t.cl.off)) (by rw [← hsb]; exact ic)).mono ?_
      rintro s' ⟨h1, g, h2, h3⟩
      refine ⟨h1, g, h2, fun r hr' => ?_⟩
      rw [htb] at hr' ⊢
      rw [h3 r hr']
      unfold colSum
      rw [← hsb]
      congr 1
      refine Finset.sum_congr rfl fun k hk => ?_
      have hk := Finset.mem_range.mp hk
      rw [hp]
      beta_reduce
      rw [hx k hk]
      rfl
    · have htr := Bool.eq_false_of_not_eq_true htr
      subst htr
      rw [if_neg (by simp)]
      replace hsb : sb = b.cb := hsb
      replace htb : tb = b.rb := htb
      refine (fastaddeval_tot (S := Vec.Cell ⟨py, tb.ktree⟩) (m0 := m4) o or oc hv4
        (fun c h1 h2 => none_hdisj hv c h1 (ny c h2)) q2 dxy (by rw [hsb]) (by rw [htb]) (fun c h => h) (fun c _ => rfl) vy4
        (X := fun r => x1.val m3 (r - sb.t.cl.off)) (by rw [← hsb]; exact ic)).mono ?_
      rintro s' ⟨h1, g, h2, h3⟩
      refine ⟨h1, g, h2, fun r hr' => ?_⟩
      rw [htb] at hr' ⊢
      rw [h3 r hr']
      unfold rowSum
      rw [← hsb]
      congr 1
      refine Finset.sum_congr rfl fun k hk => ?_
      have hk := Finset.mem_range.mp hk
      rw [hp]
      beta_reduce
      rw [hx k hk]
      rfl
  refine Tot.bind step ?_
  rintro ⟨m5, a5⟩ - ⟨p1, g, p2, p3⟩
  simp only at p1 p2 p3
  subst p1
  obtain ⟨p4, p5, p6⟩ := p2
  have F5 : Frame (fun c => m c = none) m m5 := F4.trans (wf ny p6)
  have dty : Disj (CbCell tb) (Vec.Cell ⟨py, tb.ktree⟩) := fun c h h' => none_cdisj vt c h (ny c h')
  have dyy : Disj x2.Cell (Vec.Cell ⟨py, tb.ktree⟩) := fun c h h' => none_vdisj h2 c h (ny c h')
  have dyx : Disj x2.Cell (Vec.Cell ⟨px, sb.ktree⟩) := fun c h h' => none_vdisj h2 c h (nx c h')
  have vt4 : CbValid m4 tb := (frame_basis F4 ht vt (none_cdisj vt)).1
  have vt5 : CbValid m5 tb := (frame_basis F5 ht vt (none_cdisj vt)).1
  refine Tot.bind (backwardNoperm_tot (cb := tb) (yp := x2) (yt := ⟨py, tb.ktree⟩) (s := ⟨m5, a + 1 + 1⟩) ht st vt5 dty hd2
    (Rk.frame_vvalid F5 (none_vdisj h2) h2) (fun c h h' => dyy c h' h) p4 rfl e2) ?_
  rintro ⟨m6, a6⟩ - ⟨b1, b2, b3, b4, b5⟩
  simp only at b1 b2 b3 b4 b5
  subst b1
  unfold uninitOwner
  simp only
  refine Tot.bind (P := fun (s : VSt K) => s = ⟨m6.free px sb.ktree, a + 1⟩)
    (Tot.cassert (by simp) (Tot.pure rfl)) ?_
  rintro _ - rfl
  refine Tot.cassert (by simp) (Tot.pure ⟨by simp, ?_⟩)
  simp only
  rw [free_comm]
  refine ⟨?_, ?_, ?_⟩
  · intro i hi
    rw [free_eq (dyx _ (Vec.cell_addr hi)), free_eq (dyy _ (Vec.cell_addr hi))]
    exact b3 i hi
  · intro i hi
    have e : x2.val ((m6.free py tb.ktree).free px sb.ktree) i = x2.val m6 i := by
      unfold Vec.val
      rw [free_eq (dyx _ (Vec.cell_addr hi)), free_eq (dyy _ (Vec.cell_addr hi))]
    rw [e, b5 i hi, Rk.frame_vval F5 (none_vdisj h2) hi]
    congr 1
    have h0 : synth m5 tb (Vec.val ⟨py, tb.ktree⟩ m5) (tb.t.cl.off + i) = synth m4 tb g (tb.t.cl.off + i) := by
      rw [synth_frame p6 ht vt4 dty]
      refine synth_y ht (fun q hq => ?_) _
      rw [p5 q hq]
      simp only
      rw [Rk.frame_vval q3 (fun c h h' => dxy c h' h) hq, r2 q hq, zero_add]
    rw [h0, p3 _ (H2.In.add (by rw [e2] at hi; exact hi))]
  · subst hm1
    refine free_frame2 (K := K) fx fy (fun c hc => ?_) ?_
    · push Not at hc
      rw [b4 c (fun h => h.elim (fun h => hc.2 (ny c h)) hc.1), F5 c hc.2]
    · intro c h0 hc1 hc2
      have hcy : ¬ x2.Cell c := fun h => none_vdisj h2 c h h0
      rw [b4 c (fun h => h.elim hc2 hcy), p6 c hc2, q3 c hc1, r3 c hc2, ← hm2, alloc_frame _ _ _ _ c hc2,
        alloc_frame _ _ _ _ c hc1, h0]

end H2Mat
end H2
