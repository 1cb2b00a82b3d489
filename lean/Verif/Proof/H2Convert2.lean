import Verif.Proof.H2Convert

/-! Conversion of an H2-matrix to a dense matrix: the loop over the columns. -/

set_option linter.unusedSectionVars false

namespace H2
open Spec Dense

namespace H2Mat
open VSt CBas
variable {G : Type} {K : Type} [Field K] [StarRing K]

theorem setentry_tot {v : Vec} {m : Mem K} (hv : v.Valid m) {i : Nat} (hi : i < v.dim) (x : K) :
    Tot (setentry v i x m) (VecBecomes v m (fun k => if k = i then x else v.val m k)) := by
  refine ⟨_, Mem.write_some x (hv i hi), fun k hk => ?_, fun k hk => ?_, fun c hc => ?_⟩
  · unfold Mem.upd; split
    · rfl
    · exact hv k hk
  · unfold Vec.val
    beta_reduce
    split
    · rename_i h; subst h; rw [Mem.upd_same]; rfl
    · rename_i h
      rw [Mem.upd_ne]
      simp only [Vec.addr]; omega
  · exact Mem.upd_ne fun h => hc (h ▸ Vec.cell_addr hi)

/-- the loop over the columns -/
structure ConvInv (tr : Bool) (b : H2Mat G) (m : Mem K) (a : Nat) (A : Mat) (e xt yt : Vec) (i : Nat) (s : VSt K) : Prop where
  act : s.act = a
  vA : A.Valid s.mem
  ve : e.Valid s.mem
  vx : xt.Valid s.mem
  vy : yt.Valid s.mem
  fr : Frame (fun c => A.Cell c ∨ e.Cell c ∨ xt.Cell c ∨ yt.Cell c) m s.mem
  e0 : ∀ k < e.dim, e.val s.mem k = 0
  done : ∀ l < A.rows, ∀ j < A.cols, A.val s.mem l j = if j < i then op tr (h2entry m b) l j else 0

theorem op_entry {tr : Bool} {b : H2Mat G} {m : Mem K} (i j : Nat) :
    op tr (h2place m b) ((opRb tr b).t.cl.off + i) ((opCb tr b).t.cl.off + j) = op tr (h2entry m b) i j := by
  cases tr <;> rfl

theorem convLoop_tot {tr : Bool} {b : H2Mat G} {A : Mat} {e xt yt : Vec} {m : Mem K} {a : Nat} {s : VSt K} (hb : H2Ready m b)
    (nA : ∀ c, A.Cell c → m c = none) (ne : ∀ c, e.Cell c → m c = none)
    (nx : ∀ c, xt.Cell c → m c = none) (ny : ∀ c, yt.Cell c → m c = none)
    (dAe : Disj A.Cell e.Cell) (dAx : Disj A.Cell xt.Cell) (dAy : Disj A.Cell yt.Cell)
    (dex : Disj e.Cell xt.Cell) (dey : Disj e.Cell yt.Cell) (dxy : Disj xt.Cell yt.Cell)
    (e1 : e.dim = (opCb tr b).size) (e2 : A.rows = (opRb tr b).size) (e2' : A.cols = (opCb tr b).size)
    (e3 : xt.dim = (opCb tr b).ktree) (e4 : yt.dim = (opRb tr b).ktree) (h0 : ConvInv tr b m a A e xt yt 0 s) :
    Tot (forUp 0 (opCb tr b).size (fun i s => do
      let s ← run (setentry e i (1 : K)) s
      let (v, s) ← openCol A i s
      let s ← convCol tr b e xt yt v s
      let s ← uninit s
      run (setentry e i (0 : K)) s) s) (ConvInv tr b m a A e xt yt (opCb tr b).size) := by
  refine forUp_tot (ConvInv tr b m a A e xt yt) (Nat.zero_le _) h0 ?_
  rintro i ⟨m1, a1⟩ - hi ⟨i1, i2, i3, i4, i5, i6, i7, i8⟩
  simp only at i1 i2 i3 i4 i5 i6 i7 i8
  subst a1
  refine Tot.bind (run_tot (setentry_tot i3 (by omega) 1)) ?_
  rintro ⟨m2, a2⟩ - ⟨ha, r1, r2, r3⟩
  simp only at ha r1 r2 r3
  subst a2
  have hic : i < A.cols := by omega
  obtain ⟨v, hv⟩ : ∃ v : Vec, v = ⟨A.base + i * A.ld, A.rows⟩ := ⟨_, rfl⟩
  have vad : ∀ l, v.addr l = A.addr l i := fun l => by rw [hv]; simp only [Vec.addr, Mat.addr]; ring
  have vdim : v.dim = A.rows := by rw [hv]
  have vcl : ∀ c, v.Cell c → A.Cell c := by
    rintro c ⟨l, hl, rfl⟩
    exact ⟨l, by omega, i, hic, vad l⟩
  unfold openCol Dense.initColumn
  rw [cassert, if_pos (by simpa using hic), ok_bind, pure_bind, pure_bind, ← hv]
  simp only
  have vA2 : A.Valid m2 := Rk.frame_valid r3 dAe i2
  have vv2 : v.Valid m2 := fun l hl => by rw [vad]; exact vA2.2 l (by omega) i hic
  have F2 : Frame (fun c => m c = none) m m2 := fun c hc => by
    rw [r3 c (fun h => hc (ne c h)), i6 c (fun h => hc (h.elim (nA c) fun h => h.elim (ne c) fun h => h.elim (nx c) (ny c)))]
  refine Tot.bind (convCol_tot (v := v) (s := ⟨m2, a + 1⟩) hb F2 r1 (Rk.frame_vvalid r3 (fun c h h' => dex c h' h) i4)
    (Rk.frame_vvalid r3 (fun c h h' => dey c h' h) i5) vv2 nx ny (fun c h => nA c (vcl c h)) dex dey dxy
    (fun c h => dAx c (vcl c h)) (fun c h => dAy c (vcl c h)) e1 (by omega) e3 e4) ?_
  rintro ⟨m3, a3⟩ - ⟨ha, p1, p2, p3, p4, p5⟩
  simp only at ha p1 p2 p3 p4 p5
  subst a3
  rw [uninit_eq, ok_bind]
  have dev : Disj e.Cell v.Cell := fun c h h' => dAe c (vcl c h') h
  have de3 : Disj e.Cell (fun c => xt.Cell c ∨ yt.Cell c ∨ v.Cell c) := fun c h h' =>
    h'.elim (dex c h) fun h' => h'.elim (dey c h) (dev c h)
  have ve3 : e.Valid m3 := Rk.frame_vvalid p4 de3 r1
  refine (run_tot (s := ⟨m3, a⟩) (setentry_tot ve3 (i := i) (by omega) 0)).mono ?_
  rintro ⟨m4, a4⟩ ⟨ha, q1, q2, q3⟩
  simp only at ha q1 q2 q3
  subst a4
  have vA3 : A.Valid m3 := by
    refine ⟨i2.1, fun l hl j hj => ?_⟩
    by_cases hc : v.Cell (A.addr l j)
    · obtain ⟨l', hl', e'⟩ := hc
      rw [e']; exact p3 l' hl'
    · rw [p4 _ fun h => h.elim (dAx _ (Mat.cell_addr hl hj)) fun h => h.elim (dAy _ (Mat.cell_addr hl hj)) hc]
      exact vA2.2 l hl j hj
  have vA4 : A.Valid m4 := Rk.frame_valid q3 dAe vA3
  refine ⟨rfl, vA4, q1, Rk.frame_vvalid q3 (fun c h h' => dex c h' h) p1, Rk.frame_vvalid q3 (fun c h h' => dey c h' h) p2, ?_, ?_, ?_⟩
  · intro c hc
    push Not at hc
    simp only
    rw [q3 c hc.2.1, p4 c (fun h => h.elim hc.2.2.1 fun h => h.elim hc.2.2.2 fun h => hc.1 (vcl c h)), r3 c hc.2.1,
      i6 c (fun h => h.elim hc.1 fun h => h.elim hc.2.1 fun h => h.elim hc.2.2.1 hc.2.2.2)]
  · intro k hk
    simp only
    rw [q2 k hk]
    split
    · rfl
    · rename_i hne
      rw [Rk.frame_vval p4 de3 hk, r2 k hk, if_neg hne, i7 k hk]
  · intro l hl j hj
    simp only
    rw [Rk.frame_val q3 dAe hl hj]
    have e12 : A.val m2 l j = A.val m1 l j := Rk.frame_val r3 dAe hl hj
    by_cases hji : j = i
    · subst hji
      rw [if_pos (by omega)]
      have hval : ∀ M : Mem K, A.val M l j = v.val M l := fun M => by unfold Mat.val Vec.val; rw [vad]
      rw [hval m3, p5 l (by omega), ← hval m2, e12, i8 l hl j hj, if_neg (by omega), zero_add,
        Finset.sum_eq_single j]
      · rw [r2 j (by omega), if_pos rfl, mul_one, op_entry]
      · intro k hk hne
        have := Finset.mem_range.mp hk
        rw [r2 k (by omega), if_neg hne, i7 k (by omega), mul_zero]
      · intro h; exact absurd (Finset.mem_range.mpr (by omega)) h
    · have hc : ¬ v.Cell (A.addr l j) := by
        rintro ⟨l', hl', e'⟩
        rw [vad] at e'
        have := Mat.addr_inj i2.1 hl (show l' < A.rows by omega) e'
        omega
      have e23 : A.val m3 l j = A.val m2 l j := by
        unfold Mat.val
        rw [p4 _ fun h => h.elim (dAx _ (Mat.cell_addr hl hj)) fun h => h.elim (dAy _ (Mat.cell_addr hl hj)) hc]
      rw [e23, e12, i8 l hl j hj]
      by_cases h : j < i
      · rw [if_pos h, if_pos (by omega)]
      · rw [if_neg h, if_neg (by omega)]

theorem vcell_mcell {p n k c : Nat} (h : Vec.Cell ⟨p, n * k⟩ c) : Mat.Cell ⟨p, n, n, k⟩ c := by
  obtain ⟨q, hq, rfl⟩ := h
  replace hq : q < n * k := hq
  have hn : 0 < n := Nat.pos_of_ne_zero fun h => by subst h; omega
  refine ⟨q % n, Nat.mod_lt _ hn, q / n, Nat.div_lt_of_lt_mul hq, ?_⟩
  have := Nat.mod_add_div q n
  simp only [Vec.addr, Mat.addr]
  rw [Nat.mul_comm] at this
  omega

theorem convert_tot {pa pe px py : Nat} {junk : Nat → K} {tr : Bool} {h : H2Mat G} {s : VSt K} (hb : H2Ready s.mem h)
    (fa : Fresh s.mem pa ((opRb tr h).size * (opCb tr h).size)) {m1 m2 m3 : Mem K}
    (h1 : m1 = s.mem.alloc pa ((opRb tr h).size * (opCb tr h).size) junk) (fe : Fresh m1 pe (opCb tr h).size)
    (h2 : m2 = m1.alloc pe (opCb tr h).size junk) (fx : Fresh m2 px (opCb tr h).ktree)
    (h3 : m3 = m2.alloc px (opCb tr h).ktree junk) (fy : Fresh m3 py (opRb tr h).ktree) :
    Tot (convert pa pe px py junk tr h s) fun r => r.1 = ⟨pa, (opRb tr h).size, (opRb tr h).size, (opCb tr h).size⟩ ∧
      r.2.act = s.act ∧ MatBecomes r.1 s.mem (op tr (h2entry s.mem h)) r.2.mem := by
  obtain ⟨m, a⟩ := s
  simp only at hb fa h1 ⊢
  unfold convert openNew
  simp only
  rw [show (if tr = true then h.rb else h.cb) = opCb tr h from rfl, show (if tr = true then h.cb else h.rb) = opRb tr h from rfl]
  rw [show (opRb tr h).t.cl.size = (opRb tr h).size from rfl, show (opCb tr h).t.cl.size = (opCb tr h).size from rfl, ← h1]
  obtain ⟨A, hA⟩ : ∃ A : Mat, A = ⟨pa, (opRb tr h).size, (opRb tr h).size, (opCb tr h).size⟩ := ⟨_, rfl⟩
  rw [← hA]
  have hAr : A.rows = (opRb tr h).size := by rw [hA]
  have hAc : A.cols = (opCb tr h).size := by rw [hA]
  have cA : ∀ c, A.Cell c ↔ Vec.Cell ⟨pa, (opRb tr h).size * (opCb tr h).size⟩ c := fun c => by
    rw [hA]; exact ⟨mcell_vcell, vcell_mcell⟩
  have vA1 : A.Valid m1 := by rw [hA, h1]; exact newMat_valid HMat.alloc_vvalid
  have f1 : Frame A.Cell m m1 := fun c hc => by rw [h1]; exact alloc_frame _ _ _ _ c fun h => hc ((cA c).mpr h)
  have nA : ∀ c, A.Cell c → m c = none := fun c hc => fresh_none fa ((cA c).mp hc)
  refine Tot.bind (run_tot (clear_tot vA1)) ?_
  rintro ⟨n1, a1⟩ - ⟨ha, c1, c2, c3⟩
  simp only at ha c1 c2 c3
  subst a1
  simp only
  -- clearing the matrix does not change which cells are allocated
  have al : ∀ {S : Nat → Prop} {p p' : Mem K}, Frame S p p' → (∀ c, S c → (p c).isSome ∧ (p' c).isSome) → ∀ c, p' c = none ↔ p c = none := by
    intro S p p' hf hs c
    by_cases hc : S c
    · obtain ⟨h1, h2⟩ := hs c hc
      rw [Option.isSome_iff_ne_none] at h1 h2
      exact ⟨fun h => absurd h h2, fun h => absurd h h1⟩
    · rw [hf c hc]
  have fmv : ∀ {M : Mem K}, A.Valid M → ∀ c, A.Cell c → (M c).isSome := by
    rintro M hM c ⟨i, hi, j, hj, rfl⟩; exact hM.2 i hi j hj
  have N1 : ∀ c, n1 c = none ↔ m1 c = none := al c3 fun c hc => ⟨fmv vA1 c hc, fmv c1 c hc⟩
  obtain ⟨e, he⟩ : ∃ e : Vec, e = ⟨pe, (opCb tr h).size⟩ := ⟨_, rfl⟩
  rw [← he]
  have hed : e.dim = (opCb tr h).size := by rw [he]
  have neq : ∀ c, e.Cell c → n1 c = none := fun c hc => (N1 c).mpr (fresh_none fe (by rw [← he]; exact hc))
  have g1 : Frame e.Cell n1 (n1.alloc pe (opCb tr h).size junk) := by rw [he]; exact alloc_frame _ _ _ _
  have ve1 : e.Valid (n1.alloc pe (opCb tr h).size junk) := by rw [he]; exact HMat.alloc_vvalid
  have N2 : ∀ c, (n1.alloc pe (opCb tr h).size junk) c = none ↔ m2 c = none := fun c => by
    rw [h2]; unfold Mem.alloc; split
    · simp
    · exact N1 c
  generalize n1.alloc pe (opCb tr h).size junk = n2 at *
  refine Tot.bind (run_tot (clearVec_tot ve1)) ?_
  rintro ⟨n3, a3⟩ - ⟨ha, d1, d2, d3⟩
  simp only at ha d1 d2 d3
  subst a3
  simp only
  have fvv : ∀ {v : Vec} {M : Mem K}, v.Valid M → ∀ c, v.Cell c → (M c).isSome := by
    rintro v M hM c ⟨i, hi, rfl⟩; exact hM i hi
  have N3 : ∀ c, n3 c = none ↔ m2 c = none := fun c =>
    (al d3 (fun c hc => ⟨fvv ve1 c hc, fvv d1 c hc⟩) c).trans (N2 c)
  obtain ⟨xt, hx⟩ : ∃ xt : Vec, xt = ⟨px, (opCb tr h).ktree⟩ := ⟨_, rfl⟩
  rw [← hx]
  have nxq : ∀ c, xt.Cell c → n3 c = none := fun c hc => (N3 c).mpr (fresh_none fx (by rw [← hx]; exact hc))
  have g2 : Frame xt.Cell n3 (n3.alloc px (opCb tr h).ktree junk) := by rw [hx]; exact alloc_frame _ _ _ _
  have vx1 : xt.Valid (n3.alloc px (opCb tr h).ktree junk) := by rw [hx]; exact HMat.alloc_vvalid
  have N4 : ∀ c, (n3.alloc px (opCb tr h).ktree junk) c = none ↔ m3 c = none := fun c => by
    rw [h3]; unfold Mem.alloc; split
    · simp
    · exact N3 c
  generalize n3.alloc px (opCb tr h).ktree junk = n4 at *
  obtain ⟨yt, hy⟩ : ∃ yt : Vec, yt = ⟨py, (opRb tr h).ktree⟩ := ⟨_, rfl⟩
  rw [← hy]
  have nyq : ∀ c, yt.Cell c → n4 c = none := fun c hc => (N4 c).mpr (fresh_none fy (by rw [← hy]; exact hc))
  have g3 : Frame yt.Cell n4 (n4.alloc py (opRb tr h).ktree junk) := by rw [hy]; exact alloc_frame _ _ _ _
  have vy1 : yt.Valid (n4.alloc py (opRb tr h).ktree junk) := by rw [hy]; exact HMat.alloc_vvalid
  generalize n4.alloc py (opRb tr h).ktree junk = n5 at *
  -- disjointness
  have dd : ∀ {v : Vec} {M : Mem K} {S : Nat → Prop}, (∀ c, v.Cell c → M c = none) → (∀ c, S c → (M c).isSome) → Disj S v.Cell := by
    intro v M S hn hs c h h'
    have := hs c h
    rw [hn c h'] at this
    exact absurd this (by simp)
  have dAe : Disj A.Cell e.Cell := dd neq (fmv c1)
  have vA2 : A.Valid n2 := Rk.frame_valid g1 dAe c1
  have vA3 : A.Valid n3 := Rk.frame_valid d3 dAe vA2
  have dAx : Disj A.Cell xt.Cell := dd nxq (fmv vA3)
  have dex : Disj e.Cell xt.Cell := dd nxq (fvv d1)
  have vA4 : A.Valid n4 := Rk.frame_valid g2 dAx vA3
  have ve4 : e.Valid n4 := Rk.frame_vvalid g2 dex d1
  have dAy : Disj A.Cell yt.Cell := dd nyq (fmv vA4)
  have dey : Disj e.Cell yt.Cell := dd nyq (fvv ve4)
  have dxy : Disj xt.Cell yt.Cell := dd nyq (fvv vx1)
  have ne : ∀ c, e.Cell c → m c = none := fun c hc => by
    have hA' : ¬ A.Cell c := fun h => dAe c h hc
    rw [← f1 c hA', ← c3 c hA']; exact neq c hc
  have nx : ∀ c, xt.Cell c → m c = none := fun c hc => by
    have hA' : ¬ A.Cell c := fun h => dAx c h hc
    have he' : ¬ e.Cell c := fun h => dex c h hc
    rw [← f1 c hA', ← c3 c hA', ← g1 c he', ← d3 c he']; exact nxq c hc
  have F5 : Frame (fun c => A.Cell c ∨ e.Cell c ∨ xt.Cell c ∨ yt.Cell c) m n5 := fun c hc => by
    push Not at hc
    rw [g3 c hc.2.2.2, g2 c hc.2.2.1, d3 c hc.2.1, g1 c hc.2.1, c3 c hc.1, f1 c hc.1]
  have ny : ∀ c, yt.Cell c → m c = none := fun c hc => by
    have hA' : ¬ A.Cell c := fun h => dAy c h hc
    have he' : ¬ e.Cell c := fun h => dey c h hc
    have hx' : ¬ xt.Cell c := fun h => dxy c h hc
    rw [← f1 c hA', ← c3 c hA', ← g1 c he', ← d3 c he', ← g2 c hx']; exact nyq c hc
  refine Tot.bind (convLoop_tot (A := A) (e := e) (xt := xt) (yt := yt) (a := a + 1 + 1 + 1) hb nA ne nx ny dAe dAx dAy dex dey dxy
    hed hAr hAc (by rw [hx]) (by rw [hy]) ⟨rfl, Rk.frame_valid g3 dAy vA4, Rk.frame_vvalid g3 dey ve4,
      Rk.frame_vvalid g3 dxy vx1, vy1, F5, fun k hk => ?_, fun l hl j hj => ?_⟩) ?_
  · simp only
    rw [Rk.frame_vval g3 dey hk, Rk.frame_vval g2 dex hk, d2 k hk]
  · simp only
    rw [if_neg (by omega), Rk.frame_val g3 dAy hl hj, Rk.frame_val g2 dAx hl hj, Rk.frame_val d3 dAe hl hj,
      Rk.frame_val g1 dAe hl hj, c2 l hl j hj]
  rintro ⟨n6, a6⟩ - ⟨i1, i2, i3, i4, i5, i6, i7, i8⟩
  simp only at i1 i2 i3 i4 i5 i6 i7 i8
  subst a6
  unfold uninitOwner
  simp only
  rw [cassert, if_pos (by simp), ok_bind, pure_bind]
  simp only
  rw [cassert, if_pos (by simp), ok_bind, pure_bind]
  simp only
  rw [cassert, if_pos (by simp), ok_bind, pure_bind]
  refine Tot.pure ⟨rfl, by simp, ?_⟩
  simp only
  have fe2 : ∀ {v : Vec} {M : Mem K} {c : Nat}, ¬ v.Cell c → M.free v.base v.dim c = M c := fun h => free_eq h
  have fn : ∀ {v : Vec} {M : Mem K} {c : Nat}, v.Cell c → M.free v.base v.dim c = none := fun {v M c} h => by
    rw [show v = ⟨v.base, v.dim⟩ from rfl, HMat.vcell_iff] at h
    simp only [Mem.free, if_pos h]
  have keep : ∀ c, A.Cell c → (((n6.free yt.base yt.dim).free xt.base xt.dim).free e.base e.dim) c = n6 c := fun c hc => by
    rw [fe2 (dAe c hc), fe2 (dAx c hc), fe2 (dAy c hc)]
  refine ⟨⟨i2.1, fun l hl j hj => ?_⟩, fun l hl j hj => ?_, fun c hc => ?_⟩
  · rw [keep _ (Mat.cell_addr hl hj)]; exact i2.2 l hl j hj
  · have := i8 l hl j hj
    rw [if_pos (by omega)] at this
    rw [← this]
    unfold Mat.val
    rw [keep _ (Mat.cell_addr hl hj)]
  · by_cases he' : e.Cell c
    · rw [fn he', ne c he']
    by_cases hx' : xt.Cell c
    · rw [fe2 he', fn hx', nx c hx']
    by_cases hy' : yt.Cell c
    · rw [fe2 he', fe2 hx', fn hy', ny c hy']
    rw [fe2 he', fe2 hx', fe2 hy', i6 c (fun h => h.elim hc fun h => h.elim he' fun h => h.elim hx' hy')]

end H2Mat
end H2
