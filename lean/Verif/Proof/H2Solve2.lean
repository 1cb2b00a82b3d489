import Verif.Proof.H2Solve

/-! Triangular solves with H2-matrices. -/

set_option linter.unusedSectionVars false

namespace H2
open Spec Dense

namespace H2Mat
open VSt CBas
variable {G : Type} {K : Type} [Field K] [StarRing K]

theorem sonInfo {cb : CBas G} {n : Nat} {f : Fin n → CBas G} (hs : SonBases cb f) (ho : CbOk cb) (hq : CbSons cb) (h0 : 0 < cb.sons) :
    Segments cb.t (fun i => (f i).t) ∧ (∀ i : Fin n, sonSize cb.t i.1 = .ok (f i).t.cl.size) ∧ ∀ i, CbSons (f i) := by
  cases cb with
  | mk t k kt kb V E ns son =>
    obtain ⟨e, he⟩ := hs.1 h0
    replace e : n = ns := e
    subst e
    have hf : f = son := funext he
    subst hf
    obtain ⟨g1, g2⟩ := ho.2.1 h0
    obtain ⟨e2, he2⟩ := hq.1 h0
    refine ⟨g1, fun i => ?_, fun i => hq.2 i⟩
    show sonSize t i.1 = _
    unfold sonSize
    rw [dif_pos (by have := i.2; omega), he2 i]
    rfl

theorem ready_son {m : Mem K} {rb cb : CBas G} {k n : Nat} {son : Fin k → Fin n → H2Mat G} (h : H2Ready m (.super rb cb k n son))
    (h0 : 0 < rb.sons) (h1 : 0 < cb.sons) (i : Fin k) (j : Fin n) : H2Ready m (son i j) := by
  obtain ⟨⟨⟨R, C, hRC, hR, hC⟩, hs⟩, or, oc, sr, sc, hv, vr, vc⟩ := h
  refine ⟨hs i j, ?_, ?_, ?_, ?_, hv i j, ?_, ?_⟩
  · rw [(hRC i j).1]; exact (sonBases_son (K := K) hR or i).1
  · rw [(hRC i j).2]; exact (sonBases_son (K := K) hC oc j).1
  · rw [(hRC i j).1]; exact (sonInfo hR or sr h0).2.2 i
  · rw [(hRC i j).2]; exact (sonInfo hC oc sc h1).2.2 j
  · rw [(hRC i j).1]; exact (sonBases_valid hR vr i).1
  · rw [(hRC i j).2]; exact (sonBases_valid hC vc j).1

theorem apart_son {m : Mem K} {rb cb : CBas G} {k n : Nat} {son : Fin k → Fin n → H2Mat G} (h : H2Ready m (.super rb cb k n son))
    {x : Vec} (ha : H2Apart (.super rb cb k n son) x) (i : Fin k) (j : Fin n) : H2Apart (son i j) x := by
  obtain ⟨⟨⟨R, C, hRC, hR, hC⟩, hs⟩, or, oc, sr, sc, hv, vr, vc⟩ := h
  refine ⟨fun c hc => ha.1 c ⟨i, j, hc⟩, ?_, ?_⟩
  · rw [(hRC i j).1]; exact fun c hc => ha.2.1 c ((sonBases_valid hR vr i).2 c hc)
  · rw [(hRC i j).2]; exact fun c hc => ha.2.2 c ((sonBases_valid hC vc j).2 c hc)

theorem ready_frame {m m' : Mem K} {a : H2Mat G} {S : Nat → Prop} (h : H2Ready m a) (h1 : Disj (H2Cell a) S)
    (h2 : Disj (CbCell a.rb) S) (h3 : Disj (CbCell a.cb) S) (hf : Frame S m m') :
    H2Ready m' a ∧ ∀ r c, h2place m' a r c = h2place m a r c := by
  obtain ⟨o, or, oc, sr, sc, hv, vr, vc⟩ := h
  obtain ⟨g1, g2⟩ := place_frame hf o or oc hv vr vc h1 h2 h3
  exact ⟨⟨o, or, oc, sr, sc, g1, (frame_basis hf or vr h2).1, (frame_basis hf oc vc h3).1⟩, g2⟩

theorem place_son {mm : Mem K} {rb cb : CBas G} {k n : Nat} {son : Fin k → Fin n → H2Mat G} {R : Fin k → CBas G} {C : Fin n → CBas G}
    (hRC : ∀ i j, (son i j).rb = R i ∧ (son i j).cb = C j) (hs : ∀ i j, H2Ok (son i j)) (hR : SonBases rb R) (hC : SonBases cb C)
    (hr : CbOk rb) (hc : CbOk cb) {i : Fin k} {j : Fin n} {r c : Nat} (ir : In (R i).t r) (ic : In (C j).t c) :
    h2place mm (.super rb cb k n son) r c = h2place mm (son i j) r c := by
  rw [h2place, Finset.sum_eq_single i, Finset.sum_eq_single j]
  · intro j' _ hne
    refine H2Mat.place_zero (hs i j') ?_ ?_ (.inr ?_)
    · rw [(hRC i j').1]; exact (CBas.sonBases_son (K := K) hR hr i).1
    · rw [(hRC i j').2]; exact (CBas.sonBases_son (K := K) hC hc j').1
    · rw [(hRC i j').2]; exact fun h => hne (H2Mat.sonBases_unique hC hc h ic)
  · intro h; exact absurd (Finset.mem_univ _) h
  · intro i' _ hne
    refine Finset.sum_eq_zero fun j' _ => H2Mat.place_zero (hs i' j') ?_ ?_ (.inl ?_)
    · rw [(hRC i' j').1]; exact (CBas.sonBases_son (K := K) hR hr i').1
    · rw [(hRC i' j').2]; exact (CBas.sonBases_son (K := K) hC hc j').1
    · rw [(hRC i' j').1]; exact fun h => hne (H2Mat.sonBases_unique hR hr h ir)
  · intro h; exact absurd (Finset.mem_univ _) h

theorem getSon_ok {m n : Nat} {son : Fin m → Fin n → H2Mat G} {i j : Nat} (hi : i < m) (hj : j < n) :
    getSon son i j = .ok (son ⟨i, hi⟩ ⟨j, hj⟩) := by
  unfold getSon; rw [dif_pos ⟨hi, hj⟩]

theorem sq_eq {a : H2Mat G} (h : H2SqOk a) : a.rb.t = a.cb.t := by
  cases a with
  | zero => exact h.elim
  | uni => exact h.elim
  | full => exact h
  | super => exact h.1

/-- the offset used for block `j` -/
theorem nextBlock_ok {fwd : Bool} {t : CRef G} {n : Nat} {sz : Fin n → Nat} (hsz : ∀ i : Fin n, sonSize t i.1 = .ok (sz i)) {i j : Nat}
    (hj : j < n) (haf : after fwd i j) {o : Nat} (ho : o = pre sz (if fwd then bprev fwd j - 1 else bprev fwd j)) :
    nextBlock fwd t j o = .ok (pre sz j) := by
  subst ho
  unfold nextBlock
  unfold after at haf
  cases fwd
  · simp only [Bool.false_eq_true, if_false] at haf ⊢
    have := hsz ⟨j, hj⟩
    replace this : sonSize t j = _ := this
    have e := pre_succ sz ⟨j, hj⟩
    replace e : pre sz (j + 1) = pre sz j + sz ⟨j, hj⟩ := e
    rw [this, ok_bind, show bprev false j = j + 1 from rfl, e, if_pos (by omega), Nat.add_sub_cancel]
    rfl
  · simp only [if_true] at haf ⊢
    have := hsz ⟨j - 1, by omega⟩
    replace this : sonSize t (j - 1) = _ := this
    have e := pre_succ sz ⟨j - 1, by omega⟩
    replace e : pre sz (j - 1 + 1) = pre sz (j - 1) + sz ⟨j - 1, by omega⟩ := e
    rw [this, ok_bind, show bprev true j - 1 = j - 1 from rfl]
    rw [show j - 1 + 1 = j by omega] at e
    rw [e]
    rfl

/-- `x` is replaced by the solution of the triangular system; no vector remains. -/
def VSolves (lower unit trans : Bool) (A : Nat → Nat → K) (t : CRef G) (x : Vec) (s s' : VSt K) : Prop :=
  s'.act = s.act ∧ HMat.VSolves lower unit trans A t x s.mem s'.mem

theorem triSolveVec_tot {alloc : Mem K → Nat → Nat} {junk : Nat → K} (hal : FreshAlloc alloc) {lower unit trans : Bool} :
    ∀ {a : H2Mat G} {x : Vec} {s : VSt K}, FiniteMem s.mem → H2Ready s.mem a → H2SqOk a → x.Valid s.mem → H2Apart a x →
    x.dim = a.rb.t.cl.size → (unit = false → ∀ r ∈ seg a.rb.t, h2place s.mem a r r ≠ 0) →
    Tot (triSolveVec alloc junk lower unit trans a x s) (VSolves lower unit trans (h2place s.mem a) a.rb.t x s) := by
  intro a
  induction a with
  | zero => intro x s _ _ hs; exact hs.elim
  | uni => intro x s _ _ hs; exact hs.elim
  | full rb cb f =>
    rintro x ⟨m, act⟩ hbm hrd hs hxv hap hx hD
    simp only at hbm hrd hxv hD
    obtain ⟨⟨o1, o2, h1, h2⟩, -, -, -, -, hv, -, -⟩ := hrd
    replace hv : f.Valid m := hv
    have hd : Disj f.Cell x.Cell := hap.1
    replace hs : rb.t = cb.t := hs
    replace hx : x.dim = rb.t.cl.size := hx
    rw [← hs] at h2
    unfold triSolveVec
    rw [← hs]
    refine Tot.cassert (HV.same_refl _) (Tot.cassert (decide_eq_true hx.symm) ?_)
    have eh : ∀ i < rb.t.cl.size, ∀ j < rb.t.cl.size, h2place m (.full rb cb f) (rb.t.cl.off + i) (rb.t.cl.off + j) = f.val m i j := by
      intro i hi j hj
      rw [h2place, ← hs, if_pos ⟨H2.In.add hi, H2.In.add hj⟩, Nat.add_sub_cancel_left, Nat.add_sub_cancel_left]
    have emin : min f.rows f.cols = rb.t.cl.size := by rw [h1, h2]; exact Nat.min_self _
    refine (run_tot (trisolveVec_tot (m := m) hv hxv hd (by omega) (by omega) lower unit trans ?_)).mono ?_
    · intro hu j hj
      rw [emin] at hj
      rw [← eh j hj j hj]
      exact hD hu _ (by rw [mem_seg]; show rb.t.cl.off ≤ _ ∧ _ < rb.t.cl.off + rb.t.cl.size; omega)
    · rintro ⟨m', act'⟩ ⟨ha, X, hX, g, -⟩
      simp only at ha hX
      rw [emin] at g
      refine ⟨ha, hX.1, hX.2.2, fun r hr => ?_⟩
      replace hr := mem_seg.mp hr
      replace hr : rb.t.cl.off ≤ r ∧ r < rb.t.cl.off + rb.t.cl.size := hr
      show ∑ c ∈ seg rb.t, _ = x.val m (r - rb.t.cl.off)
      rw [sum_seg, ← g (r - rb.t.cl.off) (by omega)]
      refine Finset.sum_congr rfl fun j hj => ?_
      have hj := Finset.mem_range.mp hj
      show _ * x.val m' (rb.t.cl.off + j - rb.t.cl.off) = _
      rw [Nat.add_sub_cancel_left, hX.2.1 j (by omega)]
      congr 1
      obtain ⟨i, rfl⟩ : ∃ i, r = rb.t.cl.off + i := ⟨r - rb.t.cl.off, by omega⟩
      rw [op_tri, op_tri, Nat.add_sub_cancel_left]
      simp only [Nat.add_right_inj, Nat.add_lt_add_iff_left]
      have e1 : op trans (h2place m (.full rb cb f)) (rb.t.cl.off + i) (rb.t.cl.off + i) = op trans (f.val m) i i := by
        unfold op; rw [eh i (by omega) i (by omega)]
      have e2 : op trans (h2place m (.full rb cb f)) (rb.t.cl.off + i) (rb.t.cl.off + j) = op trans (f.val m) i j := by
        unfold op; rw [eh i (by omega) j (by omega), eh j (by omega) i (by omega)]
      rw [e1, e2]
  | super rb cb m n son ih =>
    rintro x ⟨m0, act⟩ hbm hrd hs hxv hap hx hD
    simp only at hbm hrd hxv hD
    obtain ⟨ht, hr0, hc0, e, hs⟩ := hs
    subst e
    have hrd' := fun i j => ready_son hrd hr0 hc0 i j
    have hap' := fun i j => apart_son hrd hap i j
    obtain ⟨⟨⟨R, Cb, hRC, hR, hC⟩, hok⟩, or, oc, sr, sc, hv, vr, vc⟩ := hrd
    obtain ⟨hSeg, hss, -⟩ := sonInfo hR or sr hr0
    have hcc : ∀ i, (Cb i).t = (R i).t := by
      intro i
      have := sq_eq (hs i)
      rw [(hRC i _).1, (hRC i _).2] at this
      exact this.symm
    obtain ⟨t, et⟩ : ∃ t, t = rb.t := ⟨_, rfl⟩
    obtain ⟨C, eC⟩ : ∃ C : Fin m → CRef G, C = fun i => (R i).t := ⟨_, rfl⟩
    rw [← et, ← eC] at hSeg
    have hCi : ∀ i, (R i).t = C i := fun i => by rw [eC]
    have hCj : ∀ i, (Cb i).t = C i := fun i => by rw [eC]; exact hcc i
    replace hss : ∀ i : Fin m, sonSize t i.1 = .ok (C i).cl.size := fun i => by rw [et, eC]; exact hss i
    obtain ⟨A, hA⟩ : ∃ A, A = h2place m0 (H2Mat.super rb cb m m son) := ⟨_, rfl⟩
    have fr : ∀ {m1 : Mem K}, Frame x.Cell m0 m1 → ∀ i j, H2Ready m1 (son i j) ∧
        ∀ r c, h2place m1 (son i j) r c = h2place m0 (son i j) r c :=
      fun h i j => ready_frame (hrd' i j) (hap' i j).1 (hap' i j).2.1 (hap' i j).2.2 h
    have inseg : ∀ {t : CRef G} {r : Nat}, r ∈ seg t ↔ In t r := fun {t r} => mem_seg
    have hAs : ∀ {i j : Fin m} {r c : Nat}, r ∈ seg (C i) → c ∈ seg (C j) → A r c = h2place m0 (son i j) r c := by
      intro i j r c hr hc
      rw [hA]
      exact place_son hRC hok hR hC or oc (by rw [hCi]; exact inseg.mp hr) (by rw [hCj]; exact inseg.mp hc)
    obtain ⟨T, hT⟩ : ∃ T, T = op trans (tri lower unit A) := ⟨_, rfl⟩
    replace hx : x.dim = t.cl.size := by rw [et]; exact hx
    have hrt : ∀ i j, (son i j).rb.t = C i := fun i j => by rw [(hRC i j).1]; exact hCi i
    have hct : ∀ i j, (son i j).cb.t = C j := fun i j => by rw [(hRC i j).2]; exact hCj j
    have hsz : ∀ i j, (son i j).rb.size = (C i).cl.size := fun i j => by unfold CBas.size; rw [hrt]
    have hcsz : ∀ i j, (son i j).cb.size = (C j).cl.size := fun i j => by unfold CBas.size; rw [hct]
    obtain ⟨sz, hszd⟩ : ∃ sz : Fin m → Nat, sz = fun k => (C k).cl.size := ⟨_, rfl⟩
    have hoff : ∀ i, (C i).cl.off = t.cl.off + pre sz i.1 := fun i => by rw [hszd]; exact segments_off hSeg i
    have hend : ∀ i, (C i).cl.off + (C i).cl.size ≤ t.cl.off + t.cl.size := fun i => by
      have := segments_end hSeg i
      have e := segments_off hSeg i
      omega
    replace hD : unit = false → ∀ r ∈ seg t, A r r ≠ 0 := by rw [hA, et]; exact hD
    -- windows
    have win : ∀ {i : Fin m} {x1 : Vec}, initSubVec x (C i).cl.size (pre sz i.1) = .ok x1 → ∀ (m1 : Mem K), ∀ r ∈ seg (C i),
        HMat.xv (C i) x1 m1 r = HMat.xv t x m1 r := by
      intro i x1 e m1 r hr
      unfold HMat.xv
      rw [sub_val e]
      have := mem_seg.mp hr
      rw [hoff] at this
      rw [hoff, show pre sz i.1 + (r - (t.cl.off + pre sz i.1)) = r - t.cl.off by omega]
    have wout : ∀ {i : Fin m} {x1 : Vec}, initSubVec x (C i).cl.size (pre sz i.1) = .ok x1 → ∀ {m1 m2 : Mem K}, Frame x1.Cell m1 m2 →
        ∀ r ∈ seg t, r ∉ seg (C i) → HMat.xv t x m2 r = HMat.xv t x m1 r := by
      intro i x1 e m1 m2 hf r hr hn
      unfold HMat.xv Vec.val
      rw [hf _ (HMat.sub_disj e fun h => hn ?_)]
      have := mem_seg.mp hr
      rw [mem_seg, hoff]; omega
    have wfr : ∀ {i : Fin m} {x1 : Vec}, initSubVec x (C i).cl.size (pre sz i.1) = .ok x1 → ∀ {m1 m2 : Mem K}, Frame x1.Cell m1 m2 →
        Frame x.Cell m1 m2 := fun e _ _ hf c hc => hf c fun h => hc (sub_cell e h)
    have wval : ∀ {i : Fin m} {x1 : Vec}, initSubVec x (C i).cl.size (pre sz i.1) = .ok x1 → ∀ {m1 m2 : Mem K}, Frame x1.Cell m1 m2 →
        x.Valid m1 → x1.Valid m2 → x.Valid m2 := by
      intro i x1 e m1 m2 hf h1 h2 l hl
      by_cases h : pre sz i.1 ≤ l ∧ l < pre sz i.1 + (C i).cl.size
      · have := h2 (l - pre sz i.1) (by rw [sub_dim e]; omega)
        obtain ⟨-, rfl⟩ := initSubVec_ok.mp e
        simp only [Vec.addr] at this ⊢
        rw [show x.base + l = x.base + pre sz i.1 + (l - pre sz i.1) by omega]; exact this
      · rw [hf _ (HMat.sub_disj e h)]; exact h1 l hl
    obtain ⟨fwd, hf⟩ : ∃ fwd, fwd = (lower != trans) := ⟨_, rfl⟩
    have wok : ∀ i : Fin m, ∃ x1, initSubVec x (C i).cl.size (pre sz i.1) = .ok x1 := fun i =>
      ⟨_, initSubVec_ok.mpr ⟨by have := hend i; rw [hoff] at this; omega, rfl⟩⟩
    have hsm : (rb.t.same cb.t) = true := by rw [ht]; exact HV.same_refl _
    have wap : ∀ {i : Fin m} {x1 : Vec}, initSubVec x (C i).cl.size (pre sz i.1) = .ok x1 → ∀ k l, H2Apart (son k l) x1 := by
      intro i x1 e k l
      obtain ⟨w1, w2, w3⟩ := hap' k l
      exact ⟨fun c hc h => w1 c hc (sub_cell e h), fun c hc h => w2 c hc (sub_cell e h), fun c hc h => w3 c hc (sub_cell e h)⟩
    unfold triSolveVec
    refine Tot.cassert (by simp) ?_
    refine Tot.cassert hsm (Tot.cassert (decide_eq_true (by rw [← et]; exact hx.symm)) ?_)
    simp only
    rw [← hf, ← et]
    -- the outer loop
    refine Tot.bind (sweep_tot (I := fun p (st : VSt K × Nat) => st.1.act = act ∧ x.Valid st.1.mem ∧ Frame x.Cell m0 st.1.mem ∧
      st.2 = pre sz p ∧
      SInv T (seg t) (Done fwd t C p) (fun r (_ : Nat) => HMat.xv t x m0 r) (fun r (_ : Nat) => HMat.xv t x st.1.mem r)) ?_ ?_) ?_
    · refine ⟨rfl, hxv, fun _ _ => rfl, ?_, ?_⟩
      · unfold bstart
        cases fwd
        · show t.cl.size = _
          rw [if_neg (by simp), pre_all, hszd, hSeg.2]
        · show 0 = _
          rw [if_pos rfl, pre_zero]
      · rw [done_start hSeg]; exact sinv_start fun _ _ _ => rfl
    · rintro i hi ⟨⟨m1, a1⟩, roff⟩ ⟨g0, g1, g2, g3, g4⟩
      replace g0 : a1 = act := g0
      subst g0
      replace g1 : x.Valid m1 := g1
      replace g2 : Frame x.Cell m0 m1 := g2
      replace g3 : roff = _ := g3
      replace g4 : SInv T (seg t) (Done fwd t C (bprev fwd i)) (fun r (_ : Nat) => HMat.xv t x m0 r)
        (fun r (_ : Nat) => HMat.xv t x m1 r) := g4
      subst g3
      obtain ⟨ii, hii⟩ : ∃ ii : Fin m, ii = ⟨i, hi⟩ := ⟨_, rfl⟩
      have eii : ii.1 = i := by rw [hii]
      have ess : sonSize t i = .ok (C ii).cl.size := by rw [← eii]; exact hss ii
      rw [dif_pos ⟨hi, hi⟩, ess, ok_bind]
      have eoff : HV.offAt fwd (pre sz (bprev fwd i)) ((C ii).cl.size) = .ok (pre sz i) := by
        have := offAt_ok (fwd := fwd) sz ii
        rw [eii] at this
        rw [← this]; rw [hszd]
      rw [← hii, eoff, ok_bind]
      obtain ⟨x1, ex1⟩ := wok ii
      have ex1' : initSubVec x (C ii).cl.size (pre sz i) = .ok x1 := by rw [← eii]; exact ex1
      rw [openSub_eq ex1', ok_bind]
      simp only
      obtain ⟨f1, f2⟩ := fr g2 ii ii
      have hD' : unit = false → ∀ r ∈ seg (son ii ii).rb.t, h2place m1 (son ii ii) r r ≠ 0 := by
        intro hu r hr
        rw [hrt] at hr
        rw [f2, ← hAs hr hr]
        exact hD hu r (seg_son hSeg hr)
      refine Tot.bind (ih ii ii (x := x1) (s := ⟨m1, a1 + 1⟩) (bounded_frame hbm g2) f1 (hs ii) (sub_valid ex1 g1) (wap ex1 ii ii)
        (by rw [sub_dim ex1, hrt]) hD') ?_
      rintro ⟨m2, a2⟩ - ⟨k0, k1, k2, k3⟩
      replace k0 : a2 = a1 + 1 := k0
      subst k0
      simp only at k1 k2 k3
      rw [hrt] at k3
      have a1' : x.Valid m2 := wval ex1 k2 g1 k1
      have a2' : Frame x.Cell m0 m2 := fun c hc => (wfr ex1 k2 c hc).trans (g2 c hc)
      have enx : HV.offNext fwd (pre sz i) (C ii).cl.size = pre sz (bnext fwd i) := by
        have := offNext_eq (fwd := fwd) sz ii
        rw [eii] at this
        rw [← this]; rw [hszd]
      rw [enx]
      -- the inner loop
      refine Tot.bind (sweepRest_tot hi (I := fun p (st : VSt K × Nat) => st.1.act = a1 + 1 ∧ x.Valid st.1.mem ∧
        Frame x.Cell m0 st.1.mem ∧ st.2 = pre sz (if fwd then p - 1 else p) ∧ ∀ r ∈ seg t, HMat.xv t x st.1.mem r = HMat.xv t x m2 r -
          if r ∈ Done fwd t C p ∧ r ∉ Done fwd t C (bnext fwd i) then
            ∑ c ∈ seg (C ii), T r c * HMat.xv t x m2 c else 0) ?_ ?_) ?_
      · refine ⟨rfl, a1', a2', ?_, fun r _ => ?_⟩
        · unfold bnext
          cases fwd <;> simp
        · rw [if_neg (fun h => h.2 h.1), sub_zero]
      · rintro j hj haf ⟨⟨m3, a3⟩, roff2⟩ ⟨p0, p1, p2, p3, p4⟩
        replace p0 : a3 = a1 + 1 := p0
        subst p0
        replace p1 : x.Valid m3 := p1
        replace p2 : Frame x.Cell m0 m3 := p2
        replace p3 : roff2 = _ := p3
        replace p4 : ∀ r ∈ seg t, HMat.xv t x m3 r = _ := p4
        obtain ⟨jj, hjj⟩ : ∃ jj : Fin m, jj = ⟨j, hj⟩ := ⟨_, rfl⟩
        have ejj : jj.1 = j := by rw [hjj]
        have esj : sonSize t j = .ok (C jj).cl.size := by rw [← ejj]; exact hss jj
        rw [nextBlock_ok (sz := sz) (by rw [hszd]; exact hss) hj haf p3, ok_bind, esj, ok_bind]
        obtain ⟨x2, ex2⟩ := wok jj
        have ex2' : initSubVec x (C jj).cl.size (pre sz j) = .ok x2 := by rw [← ejj]; exact ex2
        rw [openSub_eq ex2', ok_bind]
        simp only
        have hij : ¬ ii = jj := by
          intro e
          unfold after at haf
          rw [← eii, ← ejj, e] at haf
          cases fwd <;> simp at haf
        have nij : ∀ r, r ∈ seg (C ii) → r ∉ seg (C jj) := fun r h1 h2 => hij (seg_unique hSeg h1 h2)
        have d12 : Disj x1.Cell x2.Cell := by
          intro c h1 h2
          obtain ⟨-, rfl⟩ := initSubVec_ok.mp ex1
          obtain ⟨-, rfl⟩ := initSubVec_ok.mp ex2
          obtain ⟨l1, hl1, rfl⟩ := h1
          obtain ⟨l2, hl2, e⟩ := h2
          replace hl1 : l1 < (C ii).cl.size := hl1
          replace hl2 : l2 < (C jj).cl.size := hl2
          simp only [Vec.addr] at e
          refine nij (t.cl.off + pre sz ii.1 + l1) ?_ ?_
          · rw [mem_seg, hoff]; omega
          · rw [mem_seg, hoff]; omega
        -- the update
        have egs : getSon son (if trans = true then i else j) (if trans = true then j else i) =
            .ok (son (if trans then ii else jj) (if trans then jj else ii)) := by
          cases trans
          · simp only [Bool.false_eq_true, if_false]; rw [getSon_ok hj hi, hii, hjj]
          · simp only [if_true]; rw [getSon_ok hi hj, hii, hjj]
        rw [egs, ok_bind]
        obtain ⟨b, hb⟩ : ∃ b, b = son (if trans then ii else jj) (if trans then jj else ii) := ⟨_, rfl⟩
        have es : (srcB trans b).t = C ii := by
          rw [hb]; unfold srcB
          cases trans
          · exact hct _ _
          · exact hrt _ _
        have ett : (tgtB trans b).t = C jj := by
          rw [hb]; unfold tgtB
          cases trans
          · exact hrt _ _
          · exact hct _ _
        obtain ⟨f3, f4⟩ : H2Ready m3 b ∧ ∀ r c, h2place m3 b r c = h2place m0 b r c := by rw [hb]; exact fr p2 _ _
        have hda : H2Apart b x2 := by rw [hb]; exact wap ex2 _ _
        have upd := subMul_tot (alloc := alloc) (junk := junk) (trans := trans) (b := b) (x1 := x1) (x2 := x2)
          (s := ⟨m3, a1 + 1 + 1⟩) hal (bounded_frame hbm p2) f3 (by unfold tgtB; split; exact hda.2.2; exact hda.2.1)
          (sub_valid ex1 p1) (sub_valid ex2 p1) d12 (by rw [sub_dim ex1]; unfold CBas.size; rw [es])
          (by rw [sub_dim ex2]; unfold CBas.size; rw [ett])
        rw [← hb]
        refine Tot.bind upd ?_
        rintro ⟨m4, a4⟩ - ⟨q0, q1, qv, q2⟩
        replace q0 : a4 = a1 + 1 + 1 := q0
        subst q0
        simp only at q1 qv q2
        have q3 : ∀ r ∈ seg (C jj), HMat.xv t x m4 r = HMat.xv t x m3 r - ∑ c ∈ seg (C ii), T r c * HMat.xv t x m3 c := by
          intro r hr
          rw [← win ex2 m4 r hr, ← win ex2 m3 r hr]
          have hr' := mem_seg.mp hr
          unfold HMat.xv
          rw [qv (r - (C jj).cl.off) (by rw [sub_dim ex2]; omega)]
          rw [neg_one_mul, ← sub_eq_add_neg, sum_seg, ett, es,
            show (C jj).cl.off + (r - (C jj).cl.off) = r by omega, show (srcB trans b).size = (C ii).cl.size by unfold CBas.size; rw [es]]
          congr 1
          refine Finset.sum_congr rfl fun k hk => ?_
          have hk := Finset.mem_range.mp hk
          have hc : (C ii).cl.off + k ∈ seg (C ii) := by rw [mem_seg]; omega
          rw [hT, op_tri_after hSeg ii jj (by rw [← hf, eii, ejj]; exact haf) hr hc]
          have := win ex1 m3 _ hc
          unfold HMat.xv at this
          rw [← this, Nat.add_sub_cancel_left]
          congr 1
          rw [hb] at f4 ⊢
          cases trans
          · exact (f4 _ _).trans (hAs hr hc).symm
          · exact congrArg star ((f4 _ _).trans (hAs hc hr).symm)
        rw [uninit_eq, ok_bind]
        refine Tot.pure ⟨rfl, wval ex2 q2 p1 q1, fun c hc => (wfr ex2 q2 c hc).trans (p2 c hc), ?_, fun r hr0 => ?_⟩
        · show pre sz j = _
          unfold bnext
          cases fwd <;> simp
        show HMat.xv t x m4 r = _
        have nx : ∀ r, r ∈ Done fwd t C (bnext fwd j) ↔ r ∈ Done fwd t C (bprev fwd j) ∨ r ∈ seg (C jj) := by
          intro r
          have := done_next (fwd := fwd) hSeg jj (r := r)
          rw [ejj] at this; exact this
        by_cases hr : r ∈ seg (C jj)
        · have n1 : r ∉ Done fwd t C (bprev fwd j) := by
            have := done_not (fwd := fwd) hSeg jj hr
            rw [ejj] at this; exact this
          have n2 : r ∉ Done fwd t C (bnext fwd i) := by
            have := after_not (fwd := fwd) hSeg ii jj (by rw [eii, ejj]; exact haf) hr
            rw [eii] at this; exact this
          rw [q3 r hr, p4 r hr0, if_neg (fun h => n1 h.1), if_pos ⟨(nx r).mpr (.inr hr), n2⟩, sub_zero]
          congr 1
          refine Finset.sum_congr rfl fun c hc => ?_
          have hc' : c ∈ Done fwd t C (bnext fwd i) := by
            have := done_next (fwd := fwd) hSeg ii (r := c)
            rw [eii] at this
            exact this.mpr (.inr hc)
          rw [p4 c (seg_son hSeg hc), if_neg (fun h => h.2 hc'), sub_zero]
        · have e1 : (r ∈ Done fwd t C (bnext fwd j) ∧ r ∉ Done fwd t C (bnext fwd i)) ↔
              (r ∈ Done fwd t C (bprev fwd j) ∧ r ∉ Done fwd t C (bnext fwd i)) := by
            rw [nx]
            exact ⟨fun h => ⟨h.1.resolve_right hr, h.2⟩, fun h => ⟨.inl h.1, h.2⟩⟩
          rw [wout ex2 q2 r hr0 hr, p4 r hr0]
          simp only [e1]
      · rintro ⟨⟨m3, a3⟩, ro2⟩ - ⟨p0, p1, p2, p3, p4⟩
        replace p0 : a3 = a1 + 1 := p0
        subst p0
        replace p1 : x.Valid m3 := p1
        replace p2 : Frame x.Cell m0 m3 := p2
        replace p4 : ∀ r ∈ seg t, HMat.xv t x m3 r = _ := p4
        rw [done_end hSeg] at p4
        simp only
        rw [uninit_eq, ok_bind]
        refine Tot.pure ⟨rfl, p1, p2, rfl, ?_⟩
        · show SInv T (seg t) (Done fwd t C (bnext fwd i)) (fun r (_ : Nat) => HMat.xv t x m0 r) (fun r (_ : Nat) => HMat.xv t x m3 r)
          have nx : ∀ r, r ∈ Done fwd t C (bnext fwd i) ↔ r ∈ Done fwd t C (bprev fwd i) ∨ r ∈ seg (C ii) := by
            intro r
            have := done_next (fwd := fwd) hSeg ii (r := r)
            rw [eii] at this; exact this
          have nn : ∀ r ∈ seg (C ii), r ∉ Done fwd t C (bprev fwd i) := by
            intro r hr
            have := done_not (fwd := fwd) hSeg ii hr
            rw [eii] at this; exact this
          have dsub : ∀ r ∈ Done fwd t C (bprev fwd i), r ∈ seg t := fun r hr =>
            done_sub hSeg _ (by unfold bprev; split <;> omega) hr
          have old : ∀ r ∈ seg t, r ∈ Done fwd t C (bnext fwd i) → HMat.xv t x m3 r = HMat.xv t x m2 r := by
            intro r h0 hr
            rw [p4 r h0, if_neg (fun h => h.2 hr), sub_zero]
          refine sinv_step g4 nx nn (fun r hr => seg_son hSeg hr) ?_ ?_ ?_ ?_
          · intro r hr c hc
            rw [hT]
            exact op_tri_zero hSeg ii (by rw [← hf, eii]; exact hr) hc
          · intro r hr q
            beta_reduce
            rw [old r (dsub r hr) ((nx r).mpr (.inl hr)), wout ex1 k2 r (dsub r hr) (fun h => nn r h hr)]
          · intro r hr q
            beta_reduce
            rw [← win ex1 m1 r hr, ← k3 r hr]
            refine Finset.sum_congr rfl fun c hc => ?_
            rw [old c (seg_son hSeg hc) ((nx c).mpr (.inr hc)), win ex1 m2 c hc, hT]
            congr 1
            apply HV.optri_congr
            · cases trans
              · exact (hAs hr hc).trans (f2 r c).symm
              · exact congrArg star ((hAs hc hr).trans (f2 c r).symm)
            · cases trans
              · exact (hAs hr hr).trans (f2 r r).symm
              · exact congrArg star ((hAs hr hr).trans (f2 r r).symm)
          · intro r hr hn q
            beta_reduce
            rw [p4 r hr, if_pos ⟨hr, hn⟩, wout ex1 k2 r hr (fun h => hn ((nx r).mpr (.inr h)))]
            congr 1
            refine Finset.sum_congr rfl fun c hc => ?_
            rw [old c (seg_son hSeg hc) ((nx c).mpr (.inr hc))]
    · rintro ⟨⟨m1, a1⟩, ro⟩ - ⟨p0, p1, p2, p3, p4⟩
      refine Tot.pure ⟨p0, p1, p2, fun r hr => ?_⟩
      rw [done_end hSeg] at p4
      have := p4.1 r (by rw [et]; exact hr) 0
      rw [hT, hA, et] at this
      exact this

end H2Mat
end H2
