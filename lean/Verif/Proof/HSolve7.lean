import Verif.Proof.HSolve6
import Verif.Proof.HMatrix
import Verif.Spec.HSolve

/-! Triangular solves with H-matrices in memory. -/

set_option linter.unusedSectionVars false

namespace H2
open Spec Dense
variable {G K : Type} [Field K] [StarRing K]

namespace HMat

theorem _root_.H2.Spec.HSqOk.eq {h : HMat G} (hs : HSqOk h) : h.rc = h.cc := by
  cases h with
  | rk => exact hs.elim
  | full t s d f => exact hs
  | super t s d m n son => exact hs.1

theorem place_out {m : Mem K} {h : HMat G} (ho : HOk h) {r c : Nat} (hn : ¬ (r ∈ seg h.rc ∧ c ∈ seg h.cc)) : place m h r c = 0 :=
  place_zero ho fun ⟨h1, h2, h3, h4⟩ => hn ⟨mem_seg.mpr ⟨h1, h2⟩, mem_seg.mpr ⟨h3, h4⟩⟩

theorem place_son {mm : Mem K} {t s : CRef G} {d m n : Nat} {son : Fin m → Fin n → HMat G} {R : Fin m → CRef G} {C : Fin n → CRef G}
    (hRC : ∀ i j, (son i j).rc = R i ∧ (son i j).cc = C j) (hok : ∀ i j, HOk (son i j)) (hR : Segments t R) (hC : Segments s C)
    {i : Fin m} {j : Fin n} {r c : Nat} (hr : r ∈ seg (R i)) (hc : c ∈ seg (C j)) :
    place mm (.super t s d m n son) r c = place mm (son i j) r c := by
  rw [place_super, Finset.sum_eq_single j, Finset.sum_eq_single i]
  · intro i' _ hi
    refine place_out (hok i' j) fun h => hi ?_
    rw [(hRC i' j).1] at h
    exact seg_unique hR h.1 hr
  · intro h; exact absurd (Finset.mem_univ _) h
  · intro j' _ hj
    refine Finset.sum_eq_zero fun i' _ => place_out (hok i' j') fun h => hj ?_
    rw [(hRC i' j').2] at h
    exact seg_unique hC h.2 hc
  · intro h; exact absurd (Finset.mem_univ _) h

theorem getSon_ok {m n : Nat} {son : Fin m → Fin n → HMat G} {i j : Nat} (hi : i < m) (hj : j < n) :
    getSon son i j = .ok (son ⟨i, hi⟩ ⟨j, hj⟩) := by
  unfold getSon; rw [dif_pos ⟨hi, hj⟩]

/-- the vector `x`, indexed by positions in the index array -/
def xv (t : CRef G) (x : Vec) (m : Mem K) (r : Nat) : K := x.val m (r - t.cl.off)

/-- `x` is replaced by the solution of the triangular system -/
def VSolves (lower unit trans : Bool) (A : Nat → Nat → K) (t : CRef G) (x : Vec) (m m' : Mem K) : Prop :=
  x.Valid m' ∧ Frame x.Cell m m' ∧ ∀ r ∈ seg t, ∑ c ∈ seg t, op trans (tri lower unit A) r c * xv t x m' c = xv t x m r

theorem sub_disj {y y1 : Vec} {dim off : Nat} (h : initSubVec y dim off = .ok y1) {i : Nat} (hn : ¬ (off ≤ i ∧ i < off + dim)) :
    ¬ y1.Cell (y.addr i) := by
  obtain ⟨h1, rfl⟩ := initSubVec_ok.mp h
  rintro ⟨l, hl, e⟩
  replace hl : l < dim := hl
  simp only [Vec.addr] at e
  omega

theorem triSolveVec_tot {lower unit trans : Bool} : ∀ {a : HMat G} {x : Vec} {m : Mem K}, HOk a → HSqOk a → HValid m a → x.Valid m →
    Disj (HCell a) x.Cell → x.dim = a.rsize → (unit = false → ∀ r ∈ seg a.rc, place m a r r ≠ 0) →
    Tot (triSolveVec lower unit trans a x m) (VSolves lower unit trans (place m a) a.rc x m) := by
  intro a
  induction a with
  | rk t s d r => intro x m _ hs; exact hs.elim
  | full t s d f =>
    intro x m ho hs hv hxv hd hx hD
    obtain rfl : t = s := hs
    replace hx : x.dim = t.cl.size := hx
    obtain ⟨h1, h2⟩ := ho
    replace hv : f.Valid m := hv
    replace hd : Disj f.Cell x.Cell := hd
    unfold triSolveVec
    refine Tot.cassert (HV.same_refl t) (Tot.cassert (decide_eq_true hx.symm) ?_)
    have eh : ∀ i < t.cl.size, ∀ j < t.cl.size, place m (.full t t d f) (t.cl.off + i) (t.cl.off + j) = f.val m i j :=
      fun i hi j hj => place_full hi hj
    have emin : min f.rows f.cols = t.cl.size := by rw [h1, h2]; exact Nat.min_self _
    refine (trisolveVec_tot hv hxv hd (by omega) (by omega) lower unit trans ?_).mono ?_
    · intro hu j hj
      rw [emin] at hj
      rw [← eh j hj j hj]
      exact hD hu _ (by rw [mem_seg]; show t.cl.off ≤ _ ∧ _ < t.cl.off + t.cl.size; omega)
    · rintro m' ⟨X, hX, g, -⟩
      rw [emin] at g
      refine ⟨hX.1, hX.2.2, fun r hr => ?_⟩
      replace hr := mem_seg.mp hr
      replace hr : t.cl.off ≤ r ∧ r < t.cl.off + t.cl.size := hr
      show ∑ c ∈ seg t, _ = x.val m (r - t.cl.off)
      rw [sum_seg, ← g (r - t.cl.off) (by omega)]
      refine Finset.sum_congr rfl fun j hj => ?_
      have hj := Finset.mem_range.mp hj
      show _ * x.val m' (t.cl.off + j - t.cl.off) = _
      rw [Nat.add_sub_cancel_left, hX.2.1 j (by omega)]
      congr 1
      obtain ⟨i, rfl⟩ : ∃ i, r = t.cl.off + i := ⟨r - t.cl.off, by omega⟩
      rw [op_tri, op_tri, Nat.add_sub_cancel_left]
      simp only [Nat.add_right_inj, Nat.add_lt_add_iff_left]
      have e1 : op trans (place m (.full t t d f)) (t.cl.off + i) (t.cl.off + i) = op trans (f.val m) i i := by
        unfold op; rw [eh i (by omega) i (by omega)]
      have e2 : op trans (place m (.full t t d f)) (t.cl.off + i) (t.cl.off + j) = op trans (f.val m) i j := by
        unfold op; rw [eh i (by omega) j (by omega), eh j (by omega) i (by omega)]
      rw [e1, e2]
  | super t s d m n son ih =>
    intro x m0 ho hs hv hxv hdj hx hD
    obtain ⟨rfl, e, hs⟩ := hs
    subst e
    obtain ⟨hm, -, ⟨R, C, hRC, hR, hC⟩, hok⟩ := ho
    have hRC' : C = R := by
      funext i
      have := (hs i).eq
      rw [(hRC i _).1, (hRC i _).2] at this
      exact this.symm
    subst hRC'
    replace hv : ∀ i j, HValid m0 (son i j) := hv
    have hdj' : ∀ i j, Disj (HCell (son i j)) x.Cell := fun i j c hc => hdj c ⟨i, j, hc⟩
    obtain ⟨A, hA⟩ : ∃ A, A = place m0 (HMat.super t t d m m son) := ⟨_, rfl⟩
    -- the matrix does not change
    have fr : ∀ {m1 : Mem K}, Frame x.Cell m0 m1 → ∀ i j, HValid m1 (son i j) ∧ ∀ r c, place m1 (son i j) r c = place m0 (son i j) r c :=
      fun h i j => place_frame h (hok i j) (hv i j) (hdj' i j)
    have hAs : ∀ {i j : Fin m} {r c : Nat}, r ∈ seg (C i) → c ∈ seg (C j) → A r c = place m0 (son i j) r c := by
      intro i j r c hr hc
      rw [hA]; exact place_son hRC hok hR hC hr hc
    obtain ⟨T, hT⟩ : ∃ T, T = op trans (tri lower unit A) := ⟨_, rfl⟩
    replace hx : x.dim = t.cl.size := hx
    have hsz : ∀ i j, (son i j).rsize = (C i).cl.size := fun i j => by unfold HMat.rsize; rw [(hRC i j).1]
    have hcsz : ∀ i j, (son i j).csize = (C j).cl.size := fun i j => by unfold HMat.csize; rw [(hRC i j).2]
    obtain ⟨sz, hszd⟩ : ∃ sz : Fin m → Nat, sz = fun k => (C k).cl.size := ⟨_, rfl⟩
    have hoff : ∀ i, (C i).cl.off = t.cl.off + pre sz i.1 := fun i => by rw [hszd]; exact segments_off hR i
    have hend : ∀ i, (C i).cl.off + (C i).cl.size ≤ t.cl.off + t.cl.size := fun i => by
      have := segments_end hR i
      have e := segments_off hR i
      omega
    -- windows
    have win : ∀ {i : Fin m} {x1 : Vec}, initSubVec x (C i).cl.size (pre sz i.1) = .ok x1 → ∀ (m1 : Mem K), ∀ r ∈ seg (C i),
        xv (C i) x1 m1 r = xv t x m1 r := by
      intro i x1 e m1 r hr
      unfold xv
      rw [sub_val e]
      have := mem_seg.mp hr
      rw [hoff] at this
      rw [hoff, show pre sz i.1 + (r - (t.cl.off + pre sz i.1)) = r - t.cl.off by omega]
    have wout : ∀ {i : Fin m} {x1 : Vec}, initSubVec x (C i).cl.size (pre sz i.1) = .ok x1 → ∀ {m1 m2 : Mem K}, Frame x1.Cell m1 m2 →
        ∀ r ∈ seg t, r ∉ seg (C i) → xv t x m2 r = xv t x m1 r := by
      intro i x1 e m1 m2 hf r hr hn
      unfold xv Vec.val
      rw [hf _ (sub_disj e fun h => hn ?_)]
      have := mem_seg.mp hr
      rw [mem_seg, hoff]; omega
    have wfr : ∀ {i : Fin m} {x1 : Vec}, initSubVec x (C i).cl.size (pre sz i.1) = .ok x1 → ∀ {m1 m2 : Mem K}, Frame x1.Cell m1 m2 →
        Frame x.Cell m1 m2 := fun e _ _ hf c hc => hf c fun h => hc (sub_cell e h)
    have wval : ∀ {i : Fin m} {x1 : Vec}, initSubVec x (C i).cl.size (pre sz i.1) = .ok x1 → ∀ {m1 m2 : Mem K}, Frame x1.Cell m1 m2 →
        x.Valid m1 → x1.Valid m2 → x.Valid m2 := by
      intro i x1 e m1 m2 hf h1 h2 l hl
      by_cases h : pre sz i.1 ≤ l ∧ l < pre sz i.1 + (C i).cl.size
      · have := h2 (l - pre sz i.1) (by rw [sub_dim e]; omega)
        obtain ⟨-, rfl⟩ := initSubVec_ok.mp e
        simp only [Vec.addr] at this ⊢
        rw [show x.base + l = x.base + pre sz i.1 + (l - pre sz i.1) by omega]; exact this
      · rw [hf _ (sub_disj e h)]; exact h1 l hl
    obtain ⟨fwd, hf⟩ : ∃ fwd, fwd = (lower != trans) := ⟨_, rfl⟩
    have wok : ∀ i : Fin m, ∃ x1, initSubVec x (C i).cl.size (pre sz i.1) = .ok x1 := fun i =>
      ⟨_, initSubVec_ok.mpr ⟨by have := hend i; rw [hoff] at this; omega, rfl⟩⟩
    unfold triSolveVec
    refine Tot.cassert (HV.same_refl t) (Tot.cassert (decide_eq_true hx.symm) (Tot.cassert (decide_eq_true rfl) ?_))
    simp only
    rw [← hf]
    -- the outer loop
    refine Tot.bind (sweep_tot (I := fun p (st : Mem K × Nat) => x.Valid st.1 ∧ Frame x.Cell m0 st.1 ∧ st.2 = pre sz p ∧
      SInv T (seg t) (Done fwd t C p) (fun r (_ : Nat) => xv t x m0 r) (fun r (_ : Nat) => xv t x st.1 r)) ?_ ?_) ?_
    · refine ⟨hxv, fun _ _ => rfl, ?_, ?_⟩
      · unfold bstart
        cases fwd
        · show t.cl.size = _
          rw [if_neg (by simp), pre_all, hszd, hR.2]
        · show 0 = _
          rw [if_pos rfl, pre_zero]
      · rw [done_start hR]; exact sinv_start fun _ _ _ => rfl
    · rintro i hi ⟨m1, roff⟩ ⟨g1, g2, g3, g4⟩
      replace g1 : x.Valid m1 := g1
      replace g2 : Frame x.Cell m0 m1 := g2
      replace g3 : roff = _ := g3
      replace g4 : SInv T (seg t) (Done fwd t C (bprev fwd i)) (fun r (_ : Nat) => xv t x m0 r) (fun r (_ : Nat) => xv t x m1 r) := g4
      subst g3
      obtain ⟨ii, hii⟩ : ∃ ii : Fin m, ii = ⟨i, hi⟩ := ⟨_, rfl⟩
      have eii : ii.1 = i := by rw [hii]
      rw [dif_pos ⟨hi, hi⟩, getSon_ok hi hm, ok_bind]
      beta_reduce
      rw [hsz]
      have eoff : HV.offAt fwd (pre sz (bprev fwd i)) ((C ii).cl.size) = .ok (pre sz i) := by
        have := offAt_ok (fwd := fwd) sz ii
        rw [eii] at this
        rw [← this]; rw [hszd]
      rw [← hii, eoff, ok_bind]
      obtain ⟨x1, ex1⟩ := wok ii
      have ex1' : initSubVec x (C ii).cl.size (pre sz i) = .ok x1 := by rw [← eii]; exact ex1
      rw [ex1', ok_bind]
      obtain ⟨f1, f2⟩ := fr g2 ii ii
      have hD' : unit = false → ∀ r ∈ seg (son ii ii).rc, place m1 (son ii ii) r r ≠ 0 := by
        intro hu r hr
        rw [(hRC ii ii).1] at hr
        rw [f2, ← hAs hr hr, hA]
        exact hD hu r (seg_son hR hr)
      refine Tot.bind (ih ii ii (hok ii ii) (hs ii) f1 (sub_valid ex1 g1) (fun c hc h => hdj' ii ii c hc (sub_cell ex1 h))
        (by rw [sub_dim ex1, hsz]) hD') ?_
      rintro m2 - ⟨k1, k2, k3⟩
      rw [(hRC ii ii).1] at k3
      have a1 : x.Valid m2 := wval ex1 k2 g1 k1
      have a2 : Frame x.Cell m0 m2 := fun c hc => (wfr ex1 k2 c hc).trans (g2 c hc)
      have enx : HV.offNext fwd (pre sz i) (C ii).cl.size = pre sz (bnext fwd i) := by
        have := offNext_eq (fwd := fwd) sz ii
        rw [eii] at this
        rw [← this]; rw [hszd]
      rw [enx]
      -- the inner loop
      refine Tot.bind (sweepRest_tot hi (I := fun p (st : Mem K × Nat) => x.Valid st.1 ∧ Frame x.Cell m0 st.1 ∧
        st.2 = pre sz p ∧ ∀ r ∈ seg t, xv t x st.1 r = xv t x m2 r -
          if r ∈ Done fwd t C p ∧ r ∉ Done fwd t C (bnext fwd i) then
            ∑ c ∈ seg (C ii), T r c * xv t x m2 c else 0) ?_ ?_) ?_
      · refine ⟨a1, a2, rfl, fun r _ => ?_⟩
        rw [if_neg (fun h => h.2 h.1), sub_zero]
      · rintro j hj haf ⟨m3, roff2⟩ ⟨p1, p2, p3, p4⟩
        replace p1 : x.Valid m3 := p1
        replace p2 : Frame x.Cell m0 m3 := p2
        replace p3 : roff2 = _ := p3
        subst p3
        replace p4 : ∀ r ∈ seg t, xv t x m3 r = _ := p4
        obtain ⟨jj, hjj⟩ : ∃ jj : Fin m, jj = ⟨j, hj⟩ := ⟨_, rfl⟩
        have ejj : jj.1 = j := by rw [hjj]
        rw [getSon_ok hj hm, ok_bind]
        beta_reduce
        rw [hsz]
        have eoff : HV.offAt fwd (pre sz (bprev fwd j)) ((C jj).cl.size) = .ok (pre sz j) := by
          have := offAt_ok (fwd := fwd) sz jj
          rw [ejj] at this
          rw [← this]; rw [hszd]
        rw [← hjj, eoff, ok_bind]
        obtain ⟨x2, ex2⟩ := wok jj
        have ex2' : initSubVec x (C jj).cl.size (pre sz j) = .ok x2 := by rw [← ejj]; exact ex2
        rw [ex2', ok_bind]
        have hij : ¬ ii = jj := by
          intro e
          unfold after at haf
          rw [← eii, ← ejj, e] at haf
          cases fwd <;> simp at haf
        have nij : ∀ r, r ∈ seg (C ii) → r ∉ seg (C jj) := fun r h1 h2 => hij (seg_unique hR h1 h2)
        have d12 : Disj x1.Cell x2.Cell := by
          intro c h1 h2
          obtain ⟨-, rfl⟩ := initSubVec_ok.mp ex1
          obtain ⟨-, rfl⟩ := initSubVec_ok.mp ex2
          obtain ⟨l1, hl1, rfl⟩ := h1
          obtain ⟨l2, hl2, e⟩ := h2
          replace hl1 : l1 < (C ii).cl.size := hl1
          replace hl2 : l2 < (C jj).cl.size := hl2
          simp only [Vec.addr] at e
          refine nij (t.cl.off + pre sz ii.1 + l1) ?_ ?_
          · rw [mem_seg, hoff]; omega
          · rw [mem_seg, hoff]; omega
        -- the update
        have upd : Tot (if trans = true then do
              let aij ← getSon son i j
              fastaddevaltrans (-1) aij x1 x2 m3
            else do
              let aji ← getSon son j i
              fastaddeval (-1) aji x1 x2 m3) fun m4 => x2.Valid m4 ∧ Frame x2.Cell m3 m4 ∧
              ∀ r ∈ seg (C jj), xv t x m4 r = xv t x m3 r - ∑ c ∈ seg (C ii), T r c * xv t x m3 c := by
          have fin : ∀ {m4 : Mem K} {g : Nat → K}, VAdd x2 m3 g m4 → (∀ l < (C jj).cl.size,
              g l = -1 * ∑ k ∈ Finset.range (C ii).cl.size, op trans A ((C jj).cl.off + l) ((C ii).cl.off + k) * x1.val m3 k) →
              x2.Valid m4 ∧ Frame x2.Cell m3 m4 ∧
              ∀ r ∈ seg (C jj), xv t x m4 r = xv t x m3 r - ∑ c ∈ seg (C ii), T r c * xv t x m3 c := by
            intro m4 g h hg
            refine ⟨h.1, h.2.2, fun r hr => ?_⟩
            rw [← win ex2 m4 r hr, ← win ex2 m3 r hr]
            have hr' := mem_seg.mp hr
            unfold xv
            rw [h.2.1 (r - (C jj).cl.off) (by rw [sub_dim ex2]; omega)]
            beta_reduce
            rw [hg _ (by omega), neg_one_mul, ← sub_eq_add_neg, sum_seg,
              show (C jj).cl.off + (r - (C jj).cl.off) = r by omega]
            congr 1
            refine Finset.sum_congr rfl fun k hk => ?_
            have hk := Finset.mem_range.mp hk
            have hc : (C ii).cl.off + k ∈ seg (C ii) := by rw [mem_seg]; omega
            rw [hT, op_tri_after hR ii jj (by rw [← hf, eii, ejj]; exact haf) hr hc]
            have := win ex1 m3 _ hc
            unfold xv at this
            rw [← this, Nat.add_sub_cancel_left]
          by_cases htr : trans = true
          · rw [if_pos htr, getSon_ok hi hj, ok_bind, ← hii, ← hjj]
            obtain ⟨f3, f4⟩ := fr p2 ii jj
            refine (fastaddevaltrans_tot (-1) (hok ii jj) f3 (sub_valid ex1 p1) (sub_valid ex2 p1)
              (fun c hc h => hdj' ii jj c hc (sub_cell ex2 h)) d12 (by rw [sub_dim ex1, hsz]) (by rw [sub_dim ex2, hcsz])).mono ?_
            intro m4 h
            refine fin h fun l hl => ?_
            rw [hsz, (hRC ii jj).1, (hRC ii jj).2]
            congr 1
            refine Finset.sum_congr rfl fun k hk => ?_
            have hk := Finset.mem_range.mp hk
            rw [htr, f4, ← hAs (i := ii) (j := jj) (by rw [mem_seg]; omega) (by rw [mem_seg]; omega)]
            rfl
          · rw [if_neg htr, getSon_ok hj hi, ok_bind, ← hii, ← hjj]
            obtain ⟨f3, f4⟩ := fr p2 jj ii
            refine (fastaddeval_tot (-1) (hok jj ii) f3 (sub_valid ex1 p1) (sub_valid ex2 p1)
              (fun c hc h => hdj' jj ii c hc (sub_cell ex2 h)) d12 (by rw [sub_dim ex1, hcsz]) (by rw [sub_dim ex2, hsz])).mono ?_
            intro m4 h
            refine fin h fun l hl => ?_
            rw [hcsz, (hRC jj ii).1, (hRC jj ii).2]
            congr 1
            refine Finset.sum_congr rfl fun k hk => ?_
            have hk := Finset.mem_range.mp hk
            rw [Bool.eq_false_of_not_eq_true htr, f4, ← hAs (i := jj) (j := ii) (by rw [mem_seg]; omega) (by rw [mem_seg]; omega)]
            rfl
        refine Tot.bind upd ?_
        rintro m4 - ⟨q1, q2, q3⟩
        have enx' : HV.offNext fwd (pre sz j) (C jj).cl.size = pre sz (bnext fwd j) := by
          have := offNext_eq (fwd := fwd) sz jj
          rw [ejj] at this
          rw [← this]; rw [hszd]
        rw [enx']
        refine Tot.pure ⟨wval ex2 q2 p1 q1, fun c hc => (wfr ex2 q2 c hc).trans (p2 c hc), rfl, fun r hr0 => ?_⟩
        show xv t x m4 r = _
        have nx : ∀ r, r ∈ Done fwd t C (bnext fwd j) ↔ r ∈ Done fwd t C (bprev fwd j) ∨ r ∈ seg (C jj) := by
          intro r
          have := done_next (fwd := fwd) hR jj (r := r)
          rw [ejj] at this; exact this
        by_cases hr : r ∈ seg (C jj)
        · have n1 : r ∉ Done fwd t C (bprev fwd j) := by
            have := done_not (fwd := fwd) hR jj hr
            rw [ejj] at this; exact this
          have n2 : r ∉ Done fwd t C (bnext fwd i) := by
            have := after_not (fwd := fwd) hR ii jj (by rw [eii, ejj]; exact haf) hr
            rw [eii] at this; exact this
          rw [q3 r hr, p4 r hr0, if_neg (fun h => n1 h.1), if_pos ⟨(nx r).mpr (.inr hr), n2⟩, sub_zero]
          congr 1
          refine Finset.sum_congr rfl fun c hc => ?_
          have hc' : c ∈ Done fwd t C (bnext fwd i) := by
            have := done_next (fwd := fwd) hR ii (r := c)
            rw [eii] at this
            exact this.mpr (.inr hc)
          rw [p4 c (seg_son hR hc), if_neg (fun h => h.2 hc'), sub_zero]
        · have e1 : (r ∈ Done fwd t C (bnext fwd j) ∧ r ∉ Done fwd t C (bnext fwd i)) ↔
              (r ∈ Done fwd t C (bprev fwd j) ∧ r ∉ Done fwd t C (bnext fwd i)) := by
            rw [nx]
            exact ⟨fun h => ⟨h.1.resolve_right hr, h.2⟩, fun h => ⟨.inl h.1, h.2⟩⟩
          rw [wout ex2 q2 r hr0 hr, p4 r hr0]
          simp only [e1]
      · rintro ⟨m3, ro2⟩ - ⟨p1, p2, p3, p4⟩
        replace p1 : x.Valid m3 := p1
        replace p2 : Frame x.Cell m0 m3 := p2
        replace p3 : ro2 = _ := p3
        replace p4 : ∀ r ∈ seg t, xv t x m3 r = _ := p4
        rw [done_end hR] at p4
        refine Tot.cassert (decide_eq_true ?_) (Tot.pure ⟨p1, p2, rfl, ?_⟩)
        · show ro2 = _
          rw [p3]
          unfold bend
          cases fwd
          · rw [if_neg (by simp), if_neg (by simp), pre_zero]
          · rw [if_pos rfl, if_pos rfl, pre_all, hszd, hR.2]
        · show SInv T (seg t) (Done fwd t C (bnext fwd i)) (fun r (_ : Nat) => xv t x m0 r) (fun r (_ : Nat) => xv t x m3 r)
          have nx : ∀ r, r ∈ Done fwd t C (bnext fwd i) ↔ r ∈ Done fwd t C (bprev fwd i) ∨ r ∈ seg (C ii) := by
            intro r
            have := done_next (fwd := fwd) hR ii (r := r)
            rw [eii] at this; exact this
          have nn : ∀ r ∈ seg (C ii), r ∉ Done fwd t C (bprev fwd i) := by
            intro r hr
            have := done_not (fwd := fwd) hR ii hr
            rw [eii] at this; exact this
          have dsub : ∀ r ∈ Done fwd t C (bprev fwd i), r ∈ seg t := fun r hr =>
            done_sub hR _ (by unfold bprev; split <;> omega) hr
          have old : ∀ r ∈ seg t, r ∈ Done fwd t C (bnext fwd i) → xv t x m3 r = xv t x m2 r := by
            intro r h0 hr
            rw [p4 r h0, if_neg (fun h => h.2 hr), sub_zero]
          refine sinv_step g4 nx nn (fun r hr => seg_son hR hr) ?_ ?_ ?_ ?_
          · intro r hr c hc
            rw [hT]
            exact op_tri_zero hR ii (by rw [← hf, eii]; exact hr) hc
          · intro r hr q
            beta_reduce
            rw [old r (dsub r hr) ((nx r).mpr (.inl hr)), wout ex1 k2 r (dsub r hr) (fun h => nn r h hr)]
          · intro r hr q
            beta_reduce
            rw [← win ex1 m1 r hr, ← k3 r hr]
            refine Finset.sum_congr rfl fun c hc => ?_
            rw [old c (seg_son hR hc) ((nx c).mpr (.inr hc)), win ex1 m2 c hc, hT]
            congr 1
            apply HV.optri_congr
            · cases trans
              · exact (hAs hr hc).trans (f2 r c).symm
              · exact congrArg star ((hAs hc hr).trans (f2 c r).symm)
            · cases trans
              · exact (hAs hr hr).trans (f2 r r).symm
              · exact congrArg star ((hAs hr hr).trans (f2 r r).symm)
          · intro r hr hn q
            beta_reduce
            rw [p4 r hr, if_pos ⟨hr, hn⟩, wout ex1 k2 r hr (fun h => hn ((nx r).mpr (.inr h)))]
            congr 1
            refine Finset.sum_congr rfl fun c hc => ?_
            rw [old c (seg_son hR hc) ((nx c).mpr (.inr hc))]
    · rintro ⟨m1, ro⟩ - ⟨p1, p2, p3, p4⟩
      replace p3 : ro = _ := p3
      refine Tot.cassert (decide_eq_true ?_) (Tot.pure ⟨p1, p2, fun r hr => ?_⟩)
      · show ro = _
        rw [p3]
        unfold bend
        cases fwd
        · rw [if_neg (by simp), if_neg (by simp), pre_zero]
        · rw [if_pos rfl, if_pos rfl, pre_all, hszd, hR.2]
      · rw [done_end hR] at p4
        have := p4.1 r hr 0
        rw [hT, hA] at this
        exact this

end HMat
end H2
