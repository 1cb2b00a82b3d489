import Verif.Proof.H2Mul
import Verif.Proof.H2Matrix3

set_option linter.unusedSectionVars false

namespace H2
open Spec Dense

namespace H2Mat
open VSt CBas
variable {G : Type} {K : Type} [Field K] [StarRing K]

theorem mcell_vcell {p n k c : Nat} (h : Mat.Cell ⟨p, n, n, k⟩ c) : Vec.Cell ⟨p, n * k⟩ c := by
  obtain ⟨i, hi, j, hj, rfl⟩ := h
  refine ⟨i + n * j, ?_, ?_⟩
  · replace hi : i < n := hi
    replace hj : j < k := hj
    show i + n * j < n * k
    have : n * (j + 1) ≤ n * k := Nat.mul_le_mul_left _ hj
    rw [Nat.mul_add] at this
    omega
  · simp only [Mat.addr, Vec.addr]; ring

theorem newMat_valid {p n k : Nat} {m : Mem K} (h : Vec.Valid ⟨p, n * k⟩ m) : Mat.Valid ⟨p, n, n, k⟩ m := by
  refine ⟨le_rfl, fun i hi j hj => ?_⟩
  obtain ⟨q, hq, e⟩ := mcell_vcell (Mat.cell_addr (a := ⟨p, n, n, k⟩) hi hj)
  rw [e]; exact h q hq

theorem op_frame {S : Nat → Prop} {m m' : Mem K} {tr : Bool} {a : Mat} (hf : Frame S m m') (hd : Disj a.Cell S) {i j : Nat}
    (hi : i < opRows tr a) (hj : j < opCols tr a) : op tr (a.val m') i j = op tr (a.val m) i j := by
  unfold op opRows opCols at *
  cases tr
  · simp only [Bool.false_eq_true, if_false] at *
    exact Rk.frame_val hf hd hi hj
  · simp only [if_true] at *
    rw [Rk.frame_val hf hd hj hi]

/-- the state in which the product of the coefficients is computed, and what is known then -/
structure MulMid (xt : Bool) (sb tb : CBas G) (px py n : Nat) (X : Mat) (s s' : VSt K) : Prop where
  act : s'.act = s.act + 2
  frame : Frame (fun c => s.mem c = none) s.mem s'.mem
  vx : Mat.Valid ⟨px, sb.ktree, sb.ktree, n⟩ s'.mem
  vy : Mat.Valid ⟨py, tb.ktree, tb.ktree, n⟩ s'.mem
  hz : ∀ q < tb.ktree, ∀ c < n, Mat.val ⟨py, tb.ktree, tb.ktree, n⟩ s'.mem q c = 0
  co : ∀ c < n, IsCoeffs s'.mem sb (fun r => op xt (X.val s.mem) (r - sb.t.cl.off) c)
    (fun q => Mat.val ⟨px, sb.ktree, sb.ktree, n⟩ s'.mem q c)
  out : ∀ c, ¬ Vec.Cell ⟨px, sb.ktree * n⟩ c → ¬ Vec.Cell ⟨py, tb.ktree * n⟩ c → s'.mem c = s.mem c

theorem mulMid_tot {px py n : Nat} {junk : Nat → K} {xt : Bool} {sb tb : CBas G} {X : Mat} {s : VSt K} (hs : CbOk sb) (hss : CbSons sb)
    (vs : CbValid s.mem sb) (hx : X.Valid s.mem) (ex : opRows xt X = sb.size) (exc : opCols xt X = n)
    (fx : Fresh s.mem px (sb.ktree * n)) (fy : Fresh (s.mem.alloc px (sb.ktree * n) junk) py (tb.ktree * n)) {F : VSt K → R (VSt K)}
    {P : VSt K → Prop} (h : ∀ s1, MulMid xt sb tb px py n X s s1 → Tot (F s1) P) :
    Tot (do let s1 ← run (Dense.clear ⟨py, tb.ktree, tb.ktree, n⟩) ⟨(s.mem.alloc px (sb.ktree * n) junk).alloc py (tb.ktree * n) junk, s.act + 1 + 1⟩
            let s1 ← CBas.forwardMat xt sb X ⟨px, sb.ktree, sb.ktree, n⟩ s1
            F s1) P := by
  obtain ⟨m, a⟩ := s
  simp only at vs hx fx fy ⊢
  have nx : ∀ c, Vec.Cell ⟨px, sb.ktree * n⟩ c → m c = none := fun c h => fresh_none fx h
  have fr1 := alloc_frame m px (sb.ktree * n) junk
  have vx1 : Vec.Valid ⟨px, sb.ktree * n⟩ (m.alloc px (sb.ktree * n) junk) := HMat.alloc_vvalid
  have dxy : Disj (Vec.Cell ⟨px, sb.ktree * n⟩) (Vec.Cell ⟨py, tb.ktree * n⟩) := fresh_vdisj fy vx1
  have ny : ∀ c, Vec.Cell ⟨py, tb.ktree * n⟩ c → m c = none := fun c h => by
    have := fresh_none fy h
    rwa [fr1 c (fun h' => dxy c h' h)] at this
  generalize hm1 : m.alloc px (sb.ktree * n) junk = m1 at *
  have fr2 := alloc_frame m1 py (tb.ktree * n) junk
  have vy2 : Vec.Valid ⟨py, tb.ktree * n⟩ (m1.alloc py (tb.ktree * n) junk) := HMat.alloc_vvalid
  generalize hm2 : m1.alloc py (tb.ktree * n) junk = m2 at *
  refine Tot.bind (run_tot (clear_tot (newMat_valid vy2))) ?_
  rintro ⟨m3, a3⟩ - ⟨ha3, r1, r2, r3⟩
  simp only at ha3 r1 r2 r3
  subst ha3
  have wf : ∀ {S : Nat → Prop} {n n' : Mem K}, (∀ c, S c → m c = none) → Frame S n n' →
      Frame (fun c => m c = none) n n' := fun h f c hc => f c fun h' => hc (h c h')
  have F3 : Frame (fun c => m c = none) m m3 := ((wf nx fr1).trans (wf ny fr2)).trans (wf (fun c h => ny c (mcell_vcell h)) r3)
  have mxy : Disj (Mat.Cell ⟨px, sb.ktree, sb.ktree, n⟩) (Mat.Cell ⟨py, tb.ktree, tb.ktree, n⟩) :=
    fun c h h' => dxy c (mcell_vcell h) (mcell_vcell h')
  have dx : Disj X.Cell (Mat.Cell ⟨px, sb.ktree, sb.ktree, n⟩) := fun c h h' => none_mdisj hx c h (nx c (mcell_vcell h'))
  have dsx : Disj (CbCell sb) (Mat.Cell ⟨px, sb.ktree, sb.ktree, n⟩) := fun c h h' => none_cdisj vs c h (nx c (mcell_vcell h'))
  have vx2 : Mat.Valid ⟨px, sb.ktree, sb.ktree, n⟩ m2 := newMat_valid (Rk.frame_vvalid fr2 dxy vx1)
  have vx3 : Mat.Valid ⟨px, sb.ktree, sb.ktree, n⟩ m3 := Rk.frame_valid r3 mxy vx2
  have vs3 : CbValid m3 sb := (frame_basis F3 hs vs (none_cdisj vs)).1
  have hx3 : X.Valid m3 := Rk.frame_valid F3 (none_mdisj hx) hx
  refine Tot.bind (forwardMat_tot xt (cb := sb) (xp := X) (xt := ⟨px, sb.ktree, sb.ktree, n⟩) (s := ⟨m3, a + 1 + 1⟩) hs hss vs3 dsx hx3 dx
    vx3 rfl ex exc) ?_
  rintro ⟨m4, a4⟩ - ⟨q1, q2, q3, q4⟩
  simp only at q1 q2 q3 q4
  subst q1
  refine h _ ⟨rfl, F3.trans (wf (fun c h => nx c (mcell_vcell h)) q3), q2, Rk.frame_valid q3 (fun c h h' => mxy c h' h) r1,
    fun q hq c hc => ?_, fun c hc => ?_, fun c h1 h2 => ?_⟩
  · simp only
    rw [Rk.frame_val q3 (fun c h h' => mxy c h' h) (show q < tb.ktree from hq) (show c < n from hc)]
    exact r2 q hq c hc
  · have h1 := (isCoeffs_frame q3 hs vs3 dsx).mpr (q4 c hc)
    refine isCoeffs_y hs (fun r hr => ?_) (fun _ _ => rfl) h1
    unfold In at hr
    exact (op_frame F3 (none_mdisj hx) (by rw [ex]; unfold CBas.size; omega) (by omega)).symm
  · simp only
    rw [q3 c fun h => h1 (mcell_vcell h), r3 c fun h => h2 (mcell_vcell h), fr2 c h2, fr1 c h1]

theorem mulWrap_tot {F B : (_ _ : Mat) → VSt K → R (VSt K)} {px py n : Nat} {junk : Nat → K} {xt bt : Bool} {sb tb : CBas G}
    {X Y : Mat} {s : VSt K} {alpha : K} {T : Nat → Nat → K} (hs : CbOk sb) (hss : CbSons sb) (ht : CbOk tb)
    (vs : CbValid s.mem sb) (vt : CbValid s.mem tb) (hdy : Disj (CbCell tb) Y.Cell) (hx : X.Valid s.mem) (hy : Y.Valid s.mem)
    (ex : opRows xt X = sb.size) (exc : opCols xt X = n) (ey : opRows bt Y = tb.size) (eyc : opCols bt Y = n)
    (fx : Fresh s.mem px (sb.ktree * n)) (fy : Fresh (s.mem.alloc px (sb.ktree * n) junk) py (tb.ktree * n))
    (hF : ∀ m4 : Mem K, Frame (fun c => s.mem c = none) s.mem m4 → (∀ c, Mat.Cell ⟨py, tb.ktree, tb.ktree, n⟩ c → s.mem c = none) →
      MulCall (Mat.Cell ⟨py, tb.ktree, tb.ktree, n⟩) m4 alpha tb sb T F) (hB : BwdCall bt tb B) :
    Tot (mulWrap F B px py junk xt sb tb n n X Y s) fun s' => s'.act = s.act ∧ Y.Valid s'.mem ∧ Frame Y.Cell s.mem s'.mem ∧
      ∀ i < tb.size, ∀ c < n, op bt (Y.val s'.mem) i c = op bt (Y.val s.mem) i c +
        alpha * ∑ j ∈ Finset.range sb.size, T (tb.t.cl.off + i) (sb.t.cl.off + j) * op xt (X.val s.mem) j c := by
  unfold mulWrap openNew
  simp only
  refine mulMid_tot hs hss vs hx ex exc fx fy ?_
  obtain ⟨m, a⟩ := s
  simp only at vs vt hx hy fx fy hF ⊢
  rintro ⟨m4, a4⟩ ⟨act, F4, vx, vy, hz, co, out⟩
  simp only at act F4 vx vy hz co out
  have act : a4 = a + 1 + 1 := act
  subst act
  have nx : ∀ c, Vec.Cell ⟨px, sb.ktree * n⟩ c → m c = none := fun c h => fresh_none fx h
  have fr1 := alloc_frame m px (sb.ktree * n) junk
  have dxy : Disj (Vec.Cell ⟨px, sb.ktree * n⟩) (Vec.Cell ⟨py, tb.ktree * n⟩) := fresh_vdisj fy HMat.alloc_vvalid
  have ny : ∀ c, Vec.Cell ⟨py, tb.ktree * n⟩ c → m c = none := fun c h => by
    have := fresh_none fy h
    rwa [fr1 c (fun h' => dxy c h' h)] at this
  have mxy : Disj (Mat.Cell ⟨px, sb.ktree, sb.ktree, n⟩) (Mat.Cell ⟨py, tb.ktree, tb.ktree, n⟩) :=
    fun c h h' => dxy c (mcell_vcell h) (mcell_vcell h')
  refine Tot.bind (hF m4 F4 (fun c h => ny c (mcell_vcell h)) ⟨px, sb.ktree, sb.ktree, n⟩ ⟨py, tb.ktree, tb.ktree, n⟩ ⟨m4, a + 1 + 1⟩
    (fun r c => op xt (X.val m) (r - sb.t.cl.off) c) vx mxy rfl rfl rfl (fun c h => h) (fun _ _ => rfl) vy co) ?_
  rintro ⟨m5, a5⟩ - ⟨p1, g, p2, p3⟩
  simp only at p1 p2 p3
  subst p1
  obtain ⟨p4, p5, p6⟩ := p2
  have F5 : Frame (fun c => m c = none) m m5 := fun c hc => (p6 c fun h => hc (ny c (mcell_vcell h))).trans (F4 c hc)
  have dty : Disj (CbCell tb) (Mat.Cell ⟨py, tb.ktree, tb.ktree, n⟩) := fun c h h' => none_cdisj vt c h (ny c (mcell_vcell h'))
  have dyy : Disj Y.Cell (Vec.Cell ⟨py, tb.ktree * n⟩) := fun c h h' => none_mdisj hy c h (ny c h')
  have dyx : Disj Y.Cell (Vec.Cell ⟨px, sb.ktree * n⟩) := fun c h h' => none_mdisj hy c h (nx c h')
  have vt4 : CbValid m4 tb := (frame_basis F4 ht vt (none_cdisj vt)).1
  have vt5 : CbValid m5 tb := (frame_basis F5 ht vt (none_cdisj vt)).1
  refine Tot.bind (hB (yp := Y) (yt := ⟨py, tb.ktree, tb.ktree, n⟩) (s := ⟨m5, a + 1 + 1⟩) vt5 dty hdy
    (Rk.frame_valid F5 (none_mdisj hy) hy) (fun c h h' => dyy c h' (mcell_vcell h)) p4 rfl ey eyc) ?_
  rintro ⟨m6, a6⟩ - ⟨b1, b2, b3, b4, b5⟩
  simp only at b1 b2 b3 b4 b5
  subst b1
  unfold uninitOwner
  simp only
  refine Tot.bind (P := fun (s : VSt K) => s = ⟨m6.free py (tb.ktree * n), a + 1⟩)
    (Tot.cassert (by simp) (Tot.pure rfl)) ?_
  rintro _ - rfl
  have e : ∀ i < Y.rows, ∀ j < Y.cols, ((m6.free py (tb.ktree * n)).free px (sb.ktree * n)) (Y.addr i j) = m6 (Y.addr i j) := by
    intro i hi j hj
    rw [free_eq (dyx _ (Mat.cell_addr hi hj)), free_eq (dyy _ (Mat.cell_addr hi hj))]
  refine Tot.cassert (by simp) (Tot.pure ⟨by simp, ⟨hy.1, fun i hi j hj => ?_⟩, ?_, ?_⟩)
  · simp only
    rw [e i hi j hj]
    exact b3.2 i hi j hj
  · refine free_frame2 (K := K) fx fy (fun c hc => ?_) ?_
    · push Not at hc
      rw [b4 c (fun h => h.elim (fun h => hc.2 (ny c (mcell_vcell h))) hc.1), F5 c hc.2]
    · intro c h0 h1 h2
      have hcy : ¬ Y.Cell c := fun h => none_mdisj hy c h h0
      rw [b4 c (fun h => h.elim (fun h => h2 (mcell_vcell h)) hcy), p6 c fun h => h2 (mcell_vcell h), out c h1 h2, h0]
  · intro i hi c hc
    have eo : op bt (Y.val ((m6.free py (tb.ktree * n)).free px (sb.ktree * n))) i c = op bt (Y.val m6) i c := by
      unfold op opRows opCols Mat.val at *
      cases bt
      · simp only [Bool.false_eq_true, if_false] at *
        rw [e i (by omega) c (by omega)]
      · simp only [if_true] at *
        rw [e c (by omega) i (by omega)]
    have hb := b5 i hi c hc
    simp only at hb ⊢
    rw [eo, hb, op_frame F5 (none_mdisj hy) (by omega) (by omega)]
    congr 1
    have h0 : synth m5 tb (fun q => Mat.val ⟨py, tb.ktree, tb.ktree, n⟩ m5 q c) (tb.t.cl.off + i) =
        synth m4 tb (fun q => g q c) (tb.t.cl.off + i) := by
      rw [synth_frame p6 ht vt4 dty]
      refine synth_y ht (fun q hq => ?_) _
      rw [p5 q hq c hc]
      simp only
      rw [hz q hq c hc, zero_add]
    rw [h0, p3 c hc _ (H2.In.add hi)]
    unfold tSum
    congr 1
    refine Finset.sum_congr rfl fun j hj => ?_
    beta_reduce
    rw [Nat.add_sub_cancel_left]

/-- the operation fails in the backward transformation -/
theorem mulWrap_fail {F B : (_ _ : Mat) → VSt K → R (VSt K)} {px py n : Nat} {junk : Nat → K} {xt : Bool} {sb tb : CBas G}
    {X Y : Mat} {s : VSt K} {alpha : K} {T : Nat → Nat → K} {e : Err} (hs : CbOk sb) (hss : CbSons sb) (ht : CbOk tb)
    (vs : CbValid s.mem sb) (vt : CbValid s.mem tb) (hx : X.Valid s.mem)
    (ex : opRows xt X = sb.size) (exc : opCols xt X = n)
    (fx : Fresh s.mem px (sb.ktree * n)) (fy : Fresh (s.mem.alloc px (sb.ktree * n) junk) py (tb.ktree * n))
    (hF : ∀ m4 : Mem K, Frame (fun c => s.mem c = none) s.mem m4 → (∀ c, Mat.Cell ⟨py, tb.ktree, tb.ktree, n⟩ c → s.mem c = none) →
      MulCall (Mat.Cell ⟨py, tb.ktree, tb.ktree, n⟩) m4 alpha tb sb T F)
    (hB : ∀ s1 : VSt K, CbValid s1.mem tb → Disj (CbCell tb) (Mat.Cell ⟨py, tb.ktree, tb.ktree, n⟩) →
      Mat.Valid ⟨py, tb.ktree, tb.ktree, n⟩ s1.mem → B ⟨py, tb.ktree, tb.ktree, n⟩ Y s1 = .error e) :
    mulWrap F B px py junk xt sb tb n n X Y s = .error e := by
  unfold mulWrap openNew
  simp only
  obtain ⟨s1, h1, h2⟩ := mulMid_tot (F := fun s1 => F ⟨px, sb.ktree, sb.ktree, n⟩ ⟨py, tb.ktree, tb.ktree, n⟩ s1)
    (P := fun s1 => CbValid s1.mem tb ∧ Disj (CbCell tb) (Mat.Cell ⟨py, tb.ktree, tb.ktree, n⟩) ∧
      Mat.Valid ⟨py, tb.ktree, tb.ktree, n⟩ s1.mem) hs hss vs hx ex exc fx fy (by
    rintro ⟨m4, a4⟩ ⟨-, F4, vx, vy, hz, co, -⟩
    simp only at F4 vx vy hz co
    have dxy : Disj (Vec.Cell ⟨px, sb.ktree * n⟩) (Vec.Cell ⟨py, tb.ktree * n⟩) := fresh_vdisj fy HMat.alloc_vvalid
    have ny : ∀ c, Mat.Cell ⟨py, tb.ktree, tb.ktree, n⟩ c → s.mem c = none := fun c h => by
      have := fresh_none fy (mcell_vcell h)
      rwa [alloc_frame s.mem px (sb.ktree * n) junk c (fun h' => dxy c h' (mcell_vcell h))] at this
    refine (hF m4 F4 ny ⟨px, sb.ktree, sb.ktree, n⟩ ⟨py, tb.ktree, tb.ktree, n⟩ ⟨m4, a4⟩
      (fun r c => op xt (X.val s.mem) (r - sb.t.cl.off) c) vx (fun c h h' => dxy c (mcell_vcell h) (mcell_vcell h')) rfl rfl rfl
      (fun c h => h) (fun _ _ => rfl) vy co).mono ?_
    rintro s' ⟨-, g, p2, -⟩
    refine ⟨(frame_basis (fun c hc => ?_) ht vt (none_cdisj vt)).1, fun c h h' => none_cdisj vt c h (ny c h'), p2.1⟩
    exact (p2.2.2 c fun h => hc (ny c h)).trans (F4 c hc))
  obtain ⟨a1, e1, h1⟩ := bind_ok.mp h1
  obtain ⟨a2, e2, h1⟩ := bind_ok.mp h1
  rw [e1, ok_bind, e2, ok_bind, h1, ok_bind, hB s1 h2.1 h2.2.1 h2.2.2]
  rfl

end H2Mat
end H2
