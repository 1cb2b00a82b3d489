import Verif.Proof.H2Solve
import Verif.Proof.H2Mul2
import Verif.Model.H2Convert
import Verif.Spec.H2Mul

/-! Conversion of an H2-matrix to a dense matrix. -/

set_option linter.unusedSectionVars false

namespace H2
open Spec Dense

namespace H2Mat
open VSt CBas
variable {G : Type} {K : Type} [Field K] [StarRing K]

/-- one column: `v += op(h) e` -/
theorem convCol_tot {tr : Bool} {b : H2Mat G} {e xt yt v : Vec} {m : Mem K} {s : VSt K} (hb : H2Ready m b)
    (hf : Frame (fun c => m c = none) m s.mem)
    (he : e.Valid s.mem) (hx : xt.Valid s.mem) (hy : yt.Valid s.mem) (hv : v.Valid s.mem)
    (nx : ∀ c, xt.Cell c → m c = none) (ny : ∀ c, yt.Cell c → m c = none) (nv : ∀ c, v.Cell c → m c = none)
    (dex : Disj e.Cell xt.Cell) (dey : Disj e.Cell yt.Cell) (dxy : Disj xt.Cell yt.Cell) (dvx : Disj v.Cell xt.Cell)
    (dvy : Disj v.Cell yt.Cell)
    (e1 : e.dim = (opCb tr b).size) (e2 : v.dim = (opRb tr b).size) (e3 : xt.dim = (opCb tr b).ktree)
    (e4 : yt.dim = (opRb tr b).ktree) :
    Tot (convCol tr b e xt yt v s) fun s' => s'.act = s.act ∧ xt.Valid s'.mem ∧ yt.Valid s'.mem ∧ v.Valid s'.mem ∧
      Frame (fun c => xt.Cell c ∨ yt.Cell c ∨ v.Cell c) s.mem s'.mem ∧
      ∀ l < v.dim, v.val s'.mem l = v.val s.mem l + ∑ k ∈ Finset.range (opCb tr b).size,
        op tr (h2place m b) ((opRb tr b).t.cl.off + l) ((opCb tr b).t.cl.off + k) * e.val s.mem k := by
  obtain ⟨m2, a⟩ := s
  obtain ⟨o, or, oc, sr, sc, bv, vr, vc⟩ := hb
  simp only at hf he hx hy hv ⊢
  have hs : CbOk (opCb tr b) := by unfold opCb; split <;> assumption
  have ht : CbOk (opRb tr b) := by unfold opRb; split <;> assumption
  have ss : CbSons (opCb tr b) := by unfold opCb; split <;> assumption
  have st : CbSons (opRb tr b) := by unfold opRb; split <;> assumption
  have vs : CbValid m (opCb tr b) := by unfold opCb; split <;> assumption
  have vt : CbValid m (opRb tr b) := by unfold opRb; split <;> assumption
  unfold convCol
  simp only
  rw [show (if tr = true then b.rb else b.cb) = opCb tr b from rfl, show (if tr = true then b.cb else b.rb) = opRb tr b from rfl]
  obtain ⟨sb, hsb⟩ : ∃ sb, sb = opCb tr b := ⟨_, rfl⟩
  obtain ⟨tb, htb⟩ : ∃ tb, tb = opRb tr b := ⟨_, rfl⟩
  rw [← hsb, ← htb]
  rw [← hsb] at hs ss vs e1 e3
  rw [← htb] at ht st vt e2 e4
  refine Tot.bind (run_tot (clearVec_tot hy)) ?_
  rintro ⟨m3, a3⟩ - ⟨ha3, r1, r2, r3⟩
  simp only at ha3 r1 r2 r3
  subst a3
  have wf : ∀ {S : Nat → Prop} {n n' : Mem K}, (∀ c, S c → m c = none) → Frame S n n' →
      Frame (fun c => m c = none) n n' := fun h f c hc => f c fun h' => hc (h c h')
  have F3 : Frame (fun c => m c = none) m m3 := hf.trans (wf ny r3)
  have dsx : Disj (CbCell sb) xt.Cell := fun c h h' => none_cdisj vs c h (nx c h')
  have vx3 : xt.Valid m3 := Rk.frame_vvalid r3 dxy hx
  have vs3 : CbValid m3 sb := (frame_basis F3 hs vs (none_cdisj vs)).1
  have he3 : e.Valid m3 := Rk.frame_vvalid r3 dey he
  refine Tot.bind (forwardNoperm_tot (cb := sb) (xp := e) (xt := xt) (s := ⟨m3, a⟩) hs ss vs3 dsx he3 dex vx3 e3 e1) ?_
  rintro ⟨m4, a4⟩ - ⟨q1, q2, q3, q4⟩
  simp only at q1 q2 q3 q4
  subst a4
  have F4 : Frame (fun c => m c = none) m m4 := F3.trans (wf nx q3)
  have vy4 : yt.Valid m4 := Rk.frame_vvalid q3 (fun c h h' => dxy c h' h) r1
  have ic : IsCoeffs m4 sb (fun r => e.val m3 (r - sb.t.cl.off)) (xt.val m4) := (isCoeffs_frame q3 hs vs3 dsx).mpr q4
  obtain ⟨hv4, hp⟩ := place_frame F4 o or oc bv vr vc (none_hdisj bv) (none_cdisj vr) (none_cdisj vc)
  have step : Tot (if tr = true then fastaddevaltrans 1 b xt yt ⟨m4, a⟩ else fastaddeval 1 b xt yt ⟨m4, a⟩) fun s' => s'.act = a ∧
        ∃ g, VAdd yt m4 g s'.mem ∧ ∀ r, In tb.t r → synth m4 tb g r = 1 * ∑ k ∈ Finset.range sb.size,
          op tr (h2place m b) r (sb.t.cl.off + k) * e.val m2 k := by
    have hx : ∀ k < sb.size, e.val m3 (sb.t.cl.off + k - sb.t.cl.off) = e.val m2 k := fun k hk => by
      rw [Nat.add_sub_cancel_left]; exact Rk.frame_vval r3 dey (by omega)
    by_cases htr : tr = true
    · subst htr
      rw [if_pos rfl]
      replace hsb : sb = b.rb := hsb
      replace htb : tb = b.cb := htb
      refine (fastaddevaltrans_tot (S := yt.Cell) (m0 := m4) o or oc hv4
        (fun c h1 h2 => none_hdisj bv c h1 (ny c h2)) q2 dxy (by rw [e3, hsb]) (by rw [e4, htb]) (fun c h => h) (fun c _ => rfl) vy4
        (X := fun r => e.val m3 (r - sb.t.cl.off)) (by rw [← hsb]; exact ic)).mono ?_
      rintro s' ⟨h1, g, h2, h3⟩
      refine ⟨h1, g, h2, fun r hr' => ?_⟩
      rw [htb] at hr' ⊢
      rw [h3 r hr']
      unfold colSum
      rw [← hsb]
      congr 1
      refine Finset.sum_congr rfl fun k hk => ?_
      have hk := Finset.mem_range.mp hk
      rw [hp]
      beta_reduce
      rw [hx k hk]
      rfl
    · have htr := Bool.eq_false_of_not_eq_true htr
      subst htr
      rw [if_neg (by simp)]
      replace hsb : sb = b.cb := hsb
      replace htb : tb = b.rb := htb
      refine (fastaddeval_tot (S := yt.Cell) (m0 := m4) o or oc hv4
        (fun c h1 h2 => none_hdisj bv c h1 (ny c h2)) q2 dxy (by rw [e3, hsb]) (by rw [e4, htb]) (fun c h => h) (fun c _ => rfl) vy4
        (X := fun r => e.val m3 (r - sb.t.cl.off)) (by rw [← hsb]; exact ic)).mono ?_
      rintro s' ⟨h1, g, h2, h3⟩
      refine ⟨h1, g, h2, fun r hr' => ?_⟩
      rw [htb] at hr' ⊢
      rw [h3 r hr']
      unfold rowSum
      rw [← hsb]
      congr 1
      refine Finset.sum_congr rfl fun k hk => ?_
      have hk := Finset.mem_range.mp hk
      rw [hp]
      beta_reduce
      rw [hx k hk]
      rfl
  refine Tot.bind step ?_
  rintro ⟨m5, a5⟩ - ⟨p1, g, p2, p3⟩
  simp only at p1 p2 p3
  subst a5
  obtain ⟨p4, p5, p6⟩ := p2
  have F5 : Frame (fun c => m c = none) m m5 := F4.trans (wf ny p6)
  have dty : Disj (CbCell tb) yt.Cell := fun c h h' => none_cdisj vt c h (ny c h')
  have dtv : Disj (CbCell tb) v.Cell := fun c h h' => none_cdisj vt c h (nv c h')
  have vt4 : CbValid m4 tb := (frame_basis F4 ht vt (none_cdisj vt)).1
  have vt5 : CbValid m5 tb := (frame_basis F5 ht vt (none_cdisj vt)).1
  have fv : Frame (fun c => xt.Cell c ∨ yt.Cell c) m2 m5 := fun c hc => by
    push Not at hc
    rw [p6 c hc.2, q3 c hc.1, r3 c hc.2]
  have dv : Disj v.Cell (fun c => xt.Cell c ∨ yt.Cell c) := fun c h h' => h'.elim (dvx c h) (dvy c h)
  refine (backwardNoperm_tot (cb := tb) (yp := v) (yt := yt) (s := ⟨m5, a⟩) ht st vt5 dty dtv
    (Rk.frame_vvalid fv dv hv) (fun c h h' => dvy c h' h) p4 e4 e2).mono ?_
  rintro ⟨m6, a6⟩ ⟨b1, b2, b3, b4, b5⟩
  simp only at b1 b2 b3 b4 b5
  subst a6
  have vx5 : xt.Valid m5 := Rk.frame_vvalid p6 dxy q2
  refine ⟨rfl, Rk.frame_vvalid b4 (fun c h h' => h'.elim (dxy c h) (fun h' => dvx c h' h)) vx5, b2, b3, fun c hc => ?_, fun l hl => ?_⟩
  · push Not at hc
    simp only
    rw [b4 c (fun h => h.elim hc.2.1 hc.2.2), fv c (fun h => h.elim hc.1 hc.2.1)]
  · simp only
    rw [b5 l hl, Rk.frame_vval fv dv hl]
    congr 1
    have h0 : synth m5 tb (yt.val m5) (tb.t.cl.off + l) = synth m4 tb g (tb.t.cl.off + l) := by
      rw [synth_frame p6 ht vt4 dty]
      refine synth_y ht (fun q hq => ?_) _
      rw [← e4] at hq
      rw [p5 q hq]
      beta_reduce
      rw [Rk.frame_vval q3 (fun c h h' => dxy c h' h) hq, r2 q hq, zero_add]
    rw [h0, p3 _ (H2.In.add (by rw [e2] at hl; exact hl)), one_mul]

end H2Mat
end H2
