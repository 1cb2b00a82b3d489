import Verif.Proof.HSolve8
import Verif.Proof.FactorEval
import Verif.Model.HMul

/-! Multiplication by triangular H-matrices: sweeps over the blocks. -/

set_option linter.unusedSectionVars false

namespace H2
open Spec Dense
variable {G K : Type} [Field K] [StarRing K]

theorem bprev_not (fwd : Bool) (i : Nat) : bprev (!fwd) i = bnext fwd i := by cases fwd <;> rfl

theorem done_compl {t : CRef G} {n : Nat} {R : Fin n → CRef G} (hR : Segments t R) (fwd : Bool) {p : Nat} (hp : p ≤ n) {r : Nat}
    (hr : r ∈ seg t) : r ∈ Done (!fwd) t R p ↔ r ∉ Done fwd t R p := by
  have e : pre (fun k => (R k).cl.size) p ≤ t.cl.size := by
    rw [← hR.2, ← pre_all]; exact pre_mono _ hp
  rw [mem_seg] at hr
  unfold Done
  cases fwd
  · simp only [Bool.not_false, Bool.false_eq_true, if_false, if_true, Finset.mem_Ico]
    omega
  · simp only [Bool.not_true, Bool.false_eq_true, if_false, if_true, Finset.mem_Ico]
    omega

theorem op_tri_zero' {lower unit trans : Bool} {A : Nat → Nat → K} {t : CRef G} {n : Nat} {R : Fin n → CRef G} (hR : Segments t R)
    (i : Fin n) {r c : Nat} (hr : r ∈ seg (R i)) (hc : c ∈ Done (!(lower != trans)) t R (bprev (!(lower != trans)) i.1)) :
    op trans (tri lower unit A) r c = 0 := by
  have e1 := segments_off hR i
  have e3 := pre_succ (fun k => (R k).cl.size) i
  rw [mem_seg] at hr
  rw [op_tri]
  generalize (lower != trans) = fwd at hc ⊢
  unfold Done bprev at hc
  cases fwd
  · simp only [Bool.not_false, if_true, Finset.mem_Ico, Bool.false_eq_true, if_false] at hc ⊢
    rw [if_neg (by omega), if_neg (by omega)]
  · simp only [Bool.not_true, Bool.false_eq_true, if_false, Finset.mem_Ico, if_true] at hc ⊢
    rw [if_neg (by omega), if_neg (by omega)]

/-- The rows in `S` contain the product with the columns in `S`, the remaining ones have not been changed. -/
def EInv (T : Nat → Nat → K) (all S : Finset Nat) (X0 X : Nat → Nat → K) : Prop :=
  (∀ r ∈ S, ∀ q, X r q = ∑ c ∈ S, T r c * X0 c q) ∧ ∀ r ∈ all, r ∉ S → ∀ q, X r q = X0 r q

theorem einv_start {T : Nat → Nat → K} {all : Finset Nat} {X0 X : Nat → Nat → K} (h : ∀ r ∈ all, ∀ q, X r q = X0 r q) :
    EInv T all ∅ X0 X :=
  ⟨fun r hr => absurd hr (Finset.notMem_empty r), fun r hr _ q => h r hr q⟩

theorem einv_step {T : Nat → Nat → K} {all S S' B : Finset Nat} {X0 X X' : Nat → Nat → K} (h : EInv T all S X0 X)
    (hS : ∀ r, r ∈ S' ↔ r ∈ S ∨ r ∈ B) (hd : ∀ r ∈ B, r ∉ S) (hB : B ⊆ all) (hT : ∀ r ∈ B, ∀ c ∈ S, T r c = 0)
    (h1 : ∀ r ∈ S, ∀ q, X' r q = X r q + ∑ c ∈ B, T r c * X c q) (h2 : ∀ r ∈ B, ∀ q, X' r q = ∑ c ∈ B, T r c * X c q)
    (h3 : ∀ r ∈ all, r ∉ S' → ∀ q, X' r q = X r q) : EInv T all S' X0 X' := by
  have hS' : S' = S ∪ B := Finset.ext fun r => by rw [hS, Finset.mem_union]
  have hdj : Disjoint S B := Finset.disjoint_left.mpr fun r hr hr' => hd r hr' hr
  subst hS'
  have hX : ∀ c ∈ B, ∀ q, X c q = X0 c q := fun c hc q => h.2 c (hB hc) (hd c hc) q
  constructor
  · intro r hr q
    rw [Finset.sum_union hdj]
    rcases Finset.mem_union.mp hr with hr | hr
    · rw [h1 r hr, h.1 r hr]
      congr 1
      exact Finset.sum_congr rfl fun c hc => by rw [hX c hc]
    · rw [h2 r hr, Finset.sum_eq_zero (s := S) (fun c hc => by rw [hT r hr c hc, zero_mul]), zero_add]
      exact Finset.sum_congr rfl fun c hc => by rw [hX c hc]
  · intro r hr hn q
    rw [h3 r hr hn, h.2 r hr (fun h' => hn (Finset.mem_union_left _ h'))]

namespace HMat

/-- `x` is replaced by the product -/
def VMuls (lower unit trans : Bool) (A : Nat → Nat → K) (t : CRef G) (x : Vec) (m m' : Mem K) : Prop :=
  x.Valid m' ∧ Frame x.Cell m m' ∧ ∀ r ∈ seg t, xv t x m' r = ∑ c ∈ seg t, op trans (tri lower unit A) r c * xv t x m c

theorem triMulVec_tot {lower unit trans : Bool} : ∀ {a : HMat G} {x : Vec} {m : Mem K}, HOk a → HSqOk a → HValid m a → x.Valid m →
    Disj (HCell a) x.Cell → x.dim = a.rsize →
    Tot (triMulVec lower unit trans a x m) (VMuls lower unit trans (place m a) a.rc x m) := by
  intro a
  induction a with
  | rk t s d r => intro x m _ hs; exact hs.elim
  | full t s d f =>
    intro x m ho hs hv hxv hd hx
    obtain rfl : t = s := hs
    replace hx : x.dim = t.cl.size := hx
    obtain ⟨h1, h2⟩ := ho
    replace hv : f.Valid m := hv
    replace hd : Disj f.Cell x.Cell := hd
    unfold triMulVec
    refine Tot.cassert (HV.same_refl t) (Tot.cassert (decide_eq_true hx.symm) ?_)
    have eh : ∀ i < t.cl.size, ∀ j < t.cl.size, place m (.full t t d f) (t.cl.off + i) (t.cl.off + j) = f.val m i j :=
      fun i hi j hj => place_full hi hj
    have er : opRows trans f = t.cl.size := by unfold opRows; rw [h1, h2]; exact ite_self _
    have ec : opCols trans f = t.cl.size := by unfold opCols; rw [h1, h2]; exact ite_self _
    refine (trievalVec_tot hv hxv hd (by omega) (by omega) lower unit trans).mono ?_
    intro m' hX
    rw [er, ec] at hX
    refine ⟨hX.1, hX.2.2, fun r hr => ?_⟩
    replace hr := mem_seg.mp hr
    replace hr : t.cl.off ≤ r ∧ r < t.cl.off + t.cl.size := hr
    show x.val m' (r - t.cl.off) = ∑ c ∈ seg t, _
    rw [sum_seg, hX.2.1 (r - t.cl.off) (by omega)]
    beta_reduce
    rw [if_pos (by omega)]
    refine Finset.sum_congr rfl fun j hj => ?_
    have hj := Finset.mem_range.mp hj
    show _ = _ * x.val m (t.cl.off + j - t.cl.off)
    rw [Nat.add_sub_cancel_left]
    congr 1
    obtain ⟨i, rfl⟩ : ∃ i, r = t.cl.off + i := ⟨r - t.cl.off, by omega⟩
    rw [op_tri, op_tri, Nat.add_sub_cancel_left]
    simp only [Nat.add_right_inj, Nat.add_lt_add_iff_left]
    have e1 : op trans (place m (.full t t d f)) (t.cl.off + i) (t.cl.off + i) = op trans (f.val m) i i := by
      unfold op; rw [eh i (by omega) i (by omega)]
    have e2 : op trans (place m (.full t t d f)) (t.cl.off + i) (t.cl.off + j) = op trans (f.val m) i j := by
      unfold op; rw [eh i (by omega) j (by omega), eh j (by omega) i (by omega)]
    rw [e1, e2]
  | super t s d m n son ih =>
    intro x m0 ho hs hv hxv hdj hx
    obtain ⟨rfl, e, hs⟩ := hs
    subst e
    obtain ⟨hm, -, ⟨R, C, hRC, hR, hC⟩, hok⟩ := ho
    have hRC' : C = R := by
      funext i
      have := (hs i).eq
      rw [(hRC i _).1, (hRC i _).2] at this
      exact this.symm
    subst hRC'
    replace hv : ∀ i j, HValid m0 (son i j) := hv
    have hdj' : ∀ i j, Disj (HCell (son i j)) x.Cell := fun i j c hc => hdj c ⟨i, j, hc⟩
    obtain ⟨A, hA⟩ : ∃ A, A = place m0 (HMat.super t t d m m son) := ⟨_, rfl⟩
    -- the matrix does not change
    have fr : ∀ {m1 : Mem K}, Frame x.Cell m0 m1 → ∀ i j, HValid m1 (son i j) ∧ ∀ r c, place m1 (son i j) r c = place m0 (son i j) r c :=
      fun h i j => place_frame h (hok i j) (hv i j) (hdj' i j)
    have hAs : ∀ {i j : Fin m} {r c : Nat}, r ∈ seg (C i) → c ∈ seg (C j) → A r c = place m0 (son i j) r c := by
      intro i j r c hr hc
      rw [hA]; exact place_son hRC hok hR hC hr hc
    obtain ⟨T, hT⟩ : ∃ T, T = op trans (tri lower unit A) := ⟨_, rfl⟩
    replace hx : x.dim = t.cl.size := hx
    have hsz : ∀ i j, (son i j).rsize = (C i).cl.size := fun i j => by unfold HMat.rsize; rw [(hRC i j).1]
    have hcsz : ∀ i j, (son i j).csize = (C j).cl.size := fun i j => by unfold HMat.csize; rw [(hRC i j).2]
    obtain ⟨sz, hszd⟩ : ∃ sz : Fin m → Nat, sz = fun k => (C k).cl.size := ⟨_, rfl⟩
    have hoff : ∀ i, (C i).cl.off = t.cl.off + pre sz i.1 := fun i => by rw [hszd]; exact segments_off hR i
    have hend : ∀ i, (C i).cl.off + (C i).cl.size ≤ t.cl.off + t.cl.size := fun i => by
      have := segments_end hR i
      have e := segments_off hR i
      omega
    -- windows
    have win : ∀ {i : Fin m} {x1 : Vec}, initSubVec x (C i).cl.size (pre sz i.1) = .ok x1 → ∀ (m1 : Mem K), ∀ r ∈ seg (C i),
        xv (C i) x1 m1 r = xv t x m1 r := by
      intro i x1 e m1 r hr
      unfold xv
      rw [sub_val e]
      have := mem_seg.mp hr
      rw [hoff] at this
      rw [hoff, show pre sz i.1 + (r - (t.cl.off + pre sz i.1)) = r - t.cl.off by omega]
    have wout : ∀ {i : Fin m} {x1 : Vec}, initSubVec x (C i).cl.size (pre sz i.1) = .ok x1 → ∀ {m1 m2 : Mem K}, Frame x1.Cell m1 m2 →
        ∀ r ∈ seg t, r ∉ seg (C i) → xv t x m2 r = xv t x m1 r := by
      intro i x1 e m1 m2 hf r hr hn
      unfold xv Vec.val
      rw [hf _ (sub_disj e fun h => hn ?_)]
      have := mem_seg.mp hr
      rw [mem_seg, hoff]; omega
    have wfr : ∀ {i : Fin m} {x1 : Vec}, initSubVec x (C i).cl.size (pre sz i.1) = .ok x1 → ∀ {m1 m2 : Mem K}, Frame x1.Cell m1 m2 →
        Frame x.Cell m1 m2 := fun e _ _ hf c hc => hf c fun h => hc (sub_cell e h)
    have wval : ∀ {i : Fin m} {x1 : Vec}, initSubVec x (C i).cl.size (pre sz i.1) = .ok x1 → ∀ {m1 m2 : Mem K}, Frame x1.Cell m1 m2 →
        x.Valid m1 → x1.Valid m2 → x.Valid m2 := by
      intro i x1 e m1 m2 hf h1 h2 l hl
      by_cases h : pre sz i.1 ≤ l ∧ l < pre sz i.1 + (C i).cl.size
      · have := h2 (l - pre sz i.1) (by rw [sub_dim e]; omega)
        obtain ⟨-, rfl⟩ := initSubVec_ok.mp e
        simp only [Vec.addr] at this ⊢
        rw [show x.base + l = x.base + pre sz i.1 + (l - pre sz i.1) by omega]; exact this
      · rw [hf _ (sub_disj e h)]; exact h1 l hl
    obtain ⟨fwd, hf⟩ : ∃ fwd, fwd = (lower != trans) := ⟨_, rfl⟩
    have wok : ∀ i : Fin m, ∃ x1, initSubVec x (C i).cl.size (pre sz i.1) = .ok x1 := fun i =>
      ⟨_, initSubVec_ok.mpr ⟨by have := hend i; rw [hoff] at this; omega, rfl⟩⟩
    unfold triMulVec
    refine Tot.cassert (HV.same_refl t) (Tot.cassert (decide_eq_true hx.symm) (Tot.cassert (decide_eq_true rfl) ?_))
    simp only
    rw [← hf]
    -- the outer loop
    refine Tot.bind (sweep_tot (I := fun p (st : Mem K × Nat) => x.Valid st.1 ∧ Frame x.Cell m0 st.1 ∧ st.2 = pre sz p ∧
      EInv T (seg t) (Done (!fwd) t C p) (fun r (_ : Nat) => xv t x m0 r) (fun r (_ : Nat) => xv t x st.1 r)) ?_ ?_) ?_
    · refine ⟨hxv, fun _ _ => rfl, ?_, ?_⟩
      · unfold bstart
        cases fwd
        · show 0 = _
          rw [Bool.not_false, if_pos rfl, pre_zero]
        · show t.cl.size = _
          rw [Bool.not_true, if_neg (by simp), pre_all, hszd, hR.2]
      · rw [done_start hR]; exact einv_start fun _ _ _ => rfl
    · rintro i hi ⟨m1, roff⟩ ⟨g1, g2, g3, g4⟩
      replace g1 : x.Valid m1 := g1
      replace g2 : Frame x.Cell m0 m1 := g2
      replace g3 : roff = _ := g3
      replace g4 : EInv T (seg t) (Done (!fwd) t C (bprev (!fwd) i)) (fun r (_ : Nat) => xv t x m0 r) (fun r (_ : Nat) => xv t x m1 r) := g4
      subst g3
      obtain ⟨ii, hii⟩ : ∃ ii : Fin m, ii = ⟨i, hi⟩ := ⟨_, rfl⟩
      have eii : ii.1 = i := by rw [hii]
      rw [dif_pos ⟨hi, hi⟩, getSon_ok hi hm, ok_bind]
      beta_reduce
      rw [hsz]
      have eoff : HV.offAt (!fwd) (pre sz (bprev (!fwd) i)) ((C ii).cl.size) = .ok (pre sz i) := by
        have := offAt_ok (fwd := !fwd) sz ii
        rw [eii] at this
        rw [← this]; rw [hszd]
      rw [← hii, eoff, ok_bind]
      obtain ⟨x1, ex1⟩ := wok ii
      have ex1' : initSubVec x (C ii).cl.size (pre sz i) = .ok x1 := by rw [← eii]; exact ex1
      rw [ex1', ok_bind]
      have enx : HV.offNext fwd (pre sz i) (C ii).cl.size = pre sz (bnext fwd i) := by
        have := offNext_eq (fwd := fwd) sz ii
        rw [eii] at this
        rw [← this]; rw [hszd]
      rw [enx]
      -- the inner loop
      refine Tot.bind (sweepRest_tot hi (I := fun p (st : Mem K × Nat) => x.Valid st.1 ∧ Frame x.Cell m0 st.1 ∧
        st.2 = pre sz p ∧ ∀ r ∈ seg t, xv t x st.1 r = xv t x m1 r +
          if r ∈ Done fwd t C p ∧ r ∉ Done fwd t C (bnext fwd i) then
            ∑ c ∈ seg (C ii), T r c * xv t x m1 c else 0) ?_ ?_) ?_
      · refine ⟨g1, g2, rfl, fun r _ => ?_⟩
        rw [if_neg (fun h => h.2 h.1), add_zero]
      · rintro j hj haf ⟨m3, roff2⟩ ⟨p1, p2, p3, p4⟩
        replace p1 : x.Valid m3 := p1
        replace p2 : Frame x.Cell m0 m3 := p2
        replace p3 : roff2 = _ := p3
        subst p3
        replace p4 : ∀ r ∈ seg t, xv t x m3 r = _ := p4
        obtain ⟨jj, hjj⟩ : ∃ jj : Fin m, jj = ⟨j, hj⟩ := ⟨_, rfl⟩
        have ejj : jj.1 = j := by rw [hjj]
        rw [getSon_ok hj hm, ok_bind]
        beta_reduce
        rw [hsz]
        have eoff : HV.offAt fwd (pre sz (bprev fwd j)) ((C jj).cl.size) = .ok (pre sz j) := by
          have := offAt_ok (fwd := fwd) sz jj
          rw [ejj] at this
          rw [← this]; rw [hszd]
        rw [← hjj, eoff, ok_bind]
        obtain ⟨x2, ex2⟩ := wok jj
        have ex2' : initSubVec x (C jj).cl.size (pre sz j) = .ok x2 := by rw [← ejj]; exact ex2
        rw [ex2', ok_bind]
        have hij : ¬ ii = jj := by
          intro e
          unfold after at haf
          rw [← eii, ← ejj, e] at haf
          cases fwd <;> simp at haf
        have nij : ∀ r, r ∈ seg (C ii) → r ∉ seg (C jj) := fun r h1 h2 => hij (seg_unique hR h1 h2)
        have d12 : Disj x1.Cell x2.Cell := by
          intro c h1 h2
          obtain ⟨-, rfl⟩ := initSubVec_ok.mp ex1
          obtain ⟨-, rfl⟩ := initSubVec_ok.mp ex2
          obtain ⟨l1, hl1, rfl⟩ := h1
          obtain ⟨l2, hl2, e⟩ := h2
          replace hl1 : l1 < (C ii).cl.size := hl1
          replace hl2 : l2 < (C jj).cl.size := hl2
          simp only [Vec.addr] at e
          refine nij (t.cl.off + pre sz ii.1 + l1) ?_ ?_
          · rw [mem_seg, hoff]; omega
          · rw [mem_seg, hoff]; omega
        -- the update
        have upd : Tot (if trans = true then do
              let aij ← getSon son i j
              fastaddevaltrans 1 aij x1 x2 m3
            else do
              let aji ← getSon son j i
              fastaddeval 1 aji x1 x2 m3) fun m4 => x2.Valid m4 ∧ Frame x2.Cell m3 m4 ∧
              ∀ r ∈ seg (C jj), xv t x m4 r = xv t x m3 r + ∑ c ∈ seg (C ii), T r c * xv t x m3 c := by
          have fin : ∀ {m4 : Mem K} {g : Nat → K}, VAdd x2 m3 g m4 → (∀ l < (C jj).cl.size,
              g l = 1 * ∑ k ∈ Finset.range (C ii).cl.size, op trans A ((C jj).cl.off + l) ((C ii).cl.off + k) * x1.val m3 k) →
              x2.Valid m4 ∧ Frame x2.Cell m3 m4 ∧
              ∀ r ∈ seg (C jj), xv t x m4 r = xv t x m3 r + ∑ c ∈ seg (C ii), T r c * xv t x m3 c := by
            intro m4 g h hg
            refine ⟨h.1, h.2.2, fun r hr => ?_⟩
            rw [← win ex2 m4 r hr, ← win ex2 m3 r hr]
            have hr' := mem_seg.mp hr
            unfold xv
            rw [h.2.1 (r - (C jj).cl.off) (by rw [sub_dim ex2]; omega)]
            beta_reduce
            rw [hg _ (by omega), one_mul, sum_seg,
              show (C jj).cl.off + (r - (C jj).cl.off) = r by omega]
            congr 1
            refine Finset.sum_congr rfl fun k hk => ?_
            have hk := Finset.mem_range.mp hk
            have hc : (C ii).cl.off + k ∈ seg (C ii) := by rw [mem_seg]; omega
            rw [hT, op_tri_after hR ii jj (by rw [← hf, eii, ejj]; exact haf) hr hc]
            have := win ex1 m3 _ hc
            unfold xv at this
            rw [← this, Nat.add_sub_cancel_left]
          by_cases htr : trans = true
          · rw [if_pos htr, getSon_ok hi hj, ok_bind, ← hii, ← hjj]
            obtain ⟨f3, f4⟩ := fr p2 ii jj
            refine (fastaddevaltrans_tot 1 (hok ii jj) f3 (sub_valid ex1 p1) (sub_valid ex2 p1)
              (fun c hc h => hdj' ii jj c hc (sub_cell ex2 h)) d12 (by rw [sub_dim ex1, hsz]) (by rw [sub_dim ex2, hcsz])).mono ?_
            intro m4 h
            refine fin h fun l hl => ?_
            rw [hsz, (hRC ii jj).1, (hRC ii jj).2]
            congr 1
            refine Finset.sum_congr rfl fun k hk => ?_
            have hk := Finset.mem_range.mp hk
            rw [htr, f4, ← hAs (i := ii) (j := jj) (by rw [mem_seg]; omega) (by rw [mem_seg]; omega)]
            rfl
          · rw [if_neg htr, getSon_ok hj hi, ok_bind, ← hii, ← hjj]
            obtain ⟨f3, f4⟩ := fr p2 jj ii
            refine (fastaddeval_tot 1 (hok jj ii) f3 (sub_valid ex1 p1) (sub_valid ex2 p1)
              (fun c hc h => hdj' jj ii c hc (sub_cell ex2 h)) d12 (by rw [sub_dim ex1, hcsz]) (by rw [sub_dim ex2, hsz])).mono ?_
            intro m4 h
            refine fin h fun l hl => ?_
            rw [hcsz, (hRC jj ii).1, (hRC jj ii).2]
            congr 1
            refine Finset.sum_congr rfl fun k hk => ?_
            have hk := Finset.mem_range.mp hk
            rw [Bool.eq_false_of_not_eq_true htr, f4, ← hAs (i := jj) (j := ii) (by rw [mem_seg]; omega) (by rw [mem_seg]; omega)]
            rfl
        refine Tot.bind upd ?_
        rintro m4 - ⟨q1, q2, q3⟩
        have enx' : HV.offNext fwd (pre sz j) (C jj).cl.size = pre sz (bnext fwd j) := by
          have := offNext_eq (fwd := fwd) sz jj
          rw [ejj] at this
          rw [← this]; rw [hszd]
        rw [enx']
        refine Tot.pure ⟨wval ex2 q2 p1 q1, fun c hc => (wfr ex2 q2 c hc).trans (p2 c hc), rfl, fun r hr0 => ?_⟩
        show xv t x m4 r = _
        have nx : ∀ r, r ∈ Done fwd t C (bnext fwd j) ↔ r ∈ Done fwd t C (bprev fwd j) ∨ r ∈ seg (C jj) := by
          intro r
          have := done_next (fwd := fwd) hR jj (r := r)
          rw [ejj] at this; exact this
        by_cases hr : r ∈ seg (C jj)
        · have n1 : r ∉ Done fwd t C (bprev fwd j) := by
            have := done_not (fwd := fwd) hR jj hr
            rw [ejj] at this; exact this
          have n2 : r ∉ Done fwd t C (bnext fwd i) := by
            have := after_not (fwd := fwd) hR ii jj (by rw [eii, ejj]; exact haf) hr
            rw [eii] at this; exact this
          rw [q3 r hr, p4 r hr0, if_neg (fun h => n1 h.1), if_pos ⟨(nx r).mpr (.inr hr), n2⟩, add_zero]
          congr 1
          refine Finset.sum_congr rfl fun c hc => ?_
          have hc' : c ∈ Done fwd t C (bnext fwd i) := by
            have := done_next (fwd := fwd) hR ii (r := c)
            rw [eii] at this
            exact this.mpr (.inr hc)
          rw [p4 c (seg_son hR hc), if_neg (fun h => h.2 hc'), add_zero]
        · have e1 : (r ∈ Done fwd t C (bnext fwd j) ∧ r ∉ Done fwd t C (bnext fwd i)) ↔
              (r ∈ Done fwd t C (bprev fwd j) ∧ r ∉ Done fwd t C (bnext fwd i)) := by
            rw [nx]
            exact ⟨fun h => ⟨h.1.resolve_right hr, h.2⟩, fun h => ⟨.inl h.1, h.2⟩⟩
          rw [wout ex2 q2 r hr0 hr, p4 r hr0]
          simp only [e1]
      · rintro ⟨m3, ro2⟩ - ⟨p1, p2, p3, p4⟩
        replace p1 : x.Valid m3 := p1
        replace p2 : Frame x.Cell m0 m3 := p2
        replace p3 : ro2 = _ := p3
        replace p4 : ∀ r ∈ seg t, xv t x m3 r = _ := p4
        rw [done_end hR] at p4
        refine Tot.cassert (decide_eq_true ?_) ?_
        · show ro2 = _
          rw [p3]
          unfold bend
          cases fwd
          · rw [if_neg (by simp), if_neg (by simp), pre_zero]
          · rw [if_pos rfl, if_pos rfl, pre_all, hszd, hR.2]
        obtain ⟨f1, f2⟩ := fr p2 ii ii
        refine Tot.bind (ih ii ii (hok ii ii) (hs ii) f1 (sub_valid ex1 p1) (fun c hc h => hdj' ii ii c hc (sub_cell ex1 h))
          (by rw [sub_dim ex1, hsz])) ?_
        rintro m2 - ⟨k1, k2, k3⟩
        rw [(hRC ii ii).1] at k3
        have enx' : HV.offNext (!fwd) (pre sz i) (C ii).cl.size = pre sz (bnext (!fwd) i) := by
          have := offNext_eq (fwd := !fwd) sz ii
          rw [eii] at this
          rw [← this]; rw [hszd]
        rw [enx']
        refine Tot.pure ⟨wval ex1 k2 p1 k1, fun c hc => (wfr ex1 k2 c hc).trans (p2 c hc), rfl, ?_⟩
        show EInv T (seg t) (Done (!fwd) t C (bnext (!fwd) i)) (fun r (_ : Nat) => xv t x m0 r) (fun r (_ : Nat) => xv t x m2 r)
        have nx : ∀ r, r ∈ Done (!fwd) t C (bnext (!fwd) i) ↔ r ∈ Done (!fwd) t C (bprev (!fwd) i) ∨ r ∈ seg (C ii) := by
          intro r
          have := done_next (fwd := !fwd) hR ii (r := r)
          rw [eii] at this; exact this
        have nn : ∀ r ∈ seg (C ii), r ∉ Done (!fwd) t C (bprev (!fwd) i) := by
          intro r hr
          have := done_not (fwd := !fwd) hR ii hr
          rw [eii] at this; exact this
        have ble : bnext fwd i ≤ m := by unfold bnext; cases fwd <;> simp <;> omega
        have dsub : ∀ r ∈ Done (!fwd) t C (bprev (!fwd) i), r ∈ seg t := by
          intro r hr
          rw [bprev_not] at hr
          exact done_sub hR _ ble hr
        have cmp : ∀ r ∈ seg t, (r ∈ Done (!fwd) t C (bprev (!fwd) i) ↔ r ∉ Done fwd t C (bnext fwd i)) := by
          intro r hr
          rw [bprev_not]
          exact done_compl hR fwd ble hr
        have old : ∀ r ∈ seg t, r ∉ Done (!fwd) t C (bprev (!fwd) i) → xv t x m3 r = xv t x m1 r := by
          intro r h0 hr
          rw [p4 r h0, if_neg (fun h => hr ((cmp r h0).mpr h.2)), add_zero]
        refine einv_step g4 nx nn (fun r hr => seg_son hR hr) ?_ ?_ ?_ ?_
        · intro r hr c hc
          rw [hT]
          rw [hf, ← eii] at hc
          exact op_tri_zero' hR ii hr hc
        · intro r hr q
          beta_reduce
          rw [wout ex1 k2 r (dsub r hr) (fun h => nn r h hr), p4 r (dsub r hr), if_pos ⟨dsub r hr, (cmp r (dsub r hr)).mp hr⟩]
        · intro r hr q
          beta_reduce
          rw [← win ex1 m2 r hr, k3 r hr]
          refine Finset.sum_congr rfl fun c hc => ?_
          rw [win ex1 m3 c hc, old c (seg_son hR hc) (nn c hc), hT]
          congr 1
          apply HV.optri_congr
          · cases trans
            · exact ((hAs hr hc).trans (f2 r c).symm).symm
            · exact (congrArg star ((hAs hc hr).trans (f2 c r).symm)).symm
          · cases trans
            · exact ((hAs hr hr).trans (f2 r r).symm).symm
            · exact (congrArg star ((hAs hr hr).trans (f2 r r).symm)).symm
        · intro r hr hn q
          beta_reduce
          rw [wout ex1 k2 r hr (fun h => hn ((nx r).mpr (.inr h))), old r hr (fun h => hn ((nx r).mpr (.inl h)))]
    · rintro ⟨m1, ro⟩ - ⟨p1, p2, p3, p4⟩
      replace p3 : ro = _ := p3
      refine Tot.cassert (decide_eq_true ?_) (Tot.pure ⟨p1, p2, fun r hr => ?_⟩)
      · show ro = _
        rw [p3]
        unfold bend
        cases fwd
        · rw [Bool.not_false, if_pos rfl, if_neg (by simp), pre_all, hszd, hR.2]
        · rw [Bool.not_true, if_neg (by simp), if_pos rfl, pre_zero]
      · rw [done_end hR] at p4
        have := p4.1 r hr 0
        rw [hT, hA] at this
        exact this

/-- the multiplication without permutation, in local numbering -/
theorem triMulVec_local {lower unit trans : Bool} {a : HMat G} {x : Vec} {m : Mem K} (ho : HOk a) (hs : HSqOk a) (hv : HValid m a)
    (hx : x.Valid m) (hd : Disj (HCell a) x.Cell) (hxd : x.dim = a.rsize) :
    Tot (triMulVec lower unit trans a x m) fun m' => x.Valid m' ∧ Frame x.Cell m m' ∧ ∀ i < a.rsize, x.val m' i =
      ∑ j ∈ Finset.range a.rsize, op trans (tri lower unit fun i j => place m a (a.rc.cl.off + i) (a.rc.cl.off + j)) i j * x.val m j := by
  refine (triMulVec_tot ho hs hv hx hd hxd).mono ?_
  rintro m' ⟨h1, h2, h3⟩
  refine ⟨h1, h2, fun i hi => ?_⟩
  have hi' : i < a.rc.cl.size := hi
  have := h3 (a.rc.cl.off + i) (by rw [mem_seg]; omega)
  rw [sum_seg] at this
  unfold xv at this
  rw [Nat.add_sub_cancel_left] at this
  rw [this]
  refine Finset.sum_congr rfl fun j _ => ?_
  rw [Nat.add_sub_cancel_left]
  congr 1
  have e := fun i j => HV.tri_shift lower unit (place m a) a.rc.cl.off i j
  unfold op
  rw [e, e]

theorem mul2_tot {a : HMat G} {x : Vec} {m : Mem K} (ho : HOk a) (hs : HSqOk a) (hv : HValid m a)
    (hx : x.Valid m) (hd : Disj (HCell a) x.Cell) (hxd : x.dim = a.rsize) (lower unit trans lower' unit' trans' : Bool)
    {M : Nat → Nat → K} (hM : ∀ r < a.rsize, ∀ c < a.rsize, M r c = ∑ l ∈ Finset.range a.rsize,
      op trans' (tri lower' unit' fun i j => place m a (a.rc.cl.off + i) (a.rc.cl.off + j)) r l *
      op trans (tri lower unit fun i j => place m a (a.rc.cl.off + i) (a.rc.cl.off + j)) l c) :
    Tot (triMulVec lower unit trans a x m >>= triMulVec lower' unit' trans' a x) fun m' => x.Valid m' ∧ Frame x.Cell m m' ∧
      ∀ i < a.rsize, x.val m' i = ∑ j ∈ Finset.range a.rsize, M i j * x.val m j := by
  refine Tot.bind (triMulVec_local ho hs hv hx hd hxd) ?_
  rintro m1 - ⟨h1, h2, h3⟩
  obtain ⟨f1, f2⟩ := place_frame h2 ho hv hd
  refine (triMulVec_local ho hs f1 h1 hd hxd).mono ?_
  rintro m2 ⟨g1, g2, g3⟩
  simp only [f2] at g3
  refine ⟨g1, fun c hc => (g2 c hc).trans (h2 c hc), fun i hi => ?_⟩
  rw [g3 i hi, Finset.sum_congr rfl (fun l hl => by rw [h3 l (Finset.mem_range.mp hl), Finset.mul_sum]), Finset.sum_comm]
  refine Finset.sum_congr rfl fun j hj => ?_
  rw [hM i hi j (Finset.mem_range.mp hj), Finset.sum_mul]
  exact Finset.sum_congr rfl fun l _ => by rw [mul_assoc]

/-- `f` multiplies by the matrix `M` in the permuted numbering. -/
theorem permutedMul_tot {idx : Arr Nat} {px : Nat} {junk : Nat → K} {a : HMat G} {f : Vec → Mem K → R (Mem K)} {x : Vec} {m : Mem K}
    (hp : IsPerm idx a.rc.cl.off a.rsize) (hx : x.Valid m) (hd : x.dim = a.rsize) (hfr : Fresh m px x.dim) {M : Nat → Nat → K}
    (hf : ∀ (xp : Vec) (m1 : Mem K), (∀ c, (m c).isSome → m1 c = m c ∧ ¬ xp.Cell c) → xp.Valid m1 → xp.dim = a.rsize →
      Tot (f xp m1) fun m2 => xp.Valid m2 ∧ Frame xp.Cell m1 m2 ∧
        ∀ i < a.rsize, xp.val m2 i = ∑ j ∈ Finset.range a.rsize, M i j * xp.val m1 j) :
    Tot (permutedN idx px junk a f x m) fun m' => ∃ X, VecBecomes x m X m' ∧
      ∀ i < a.rsize, X (idx.v (a.rc.cl.off + i)) = ∑ j ∈ Finset.range a.rsize, M i j * x.val m (idx.v (a.rc.cl.off + j)) := by
  have cellSome : ∀ {v : Vec} {m : Mem K} {c : Nat}, v.Valid m → v.Cell c → (m c).isSome := by
    rintro v m c hv ⟨i, hi, rfl⟩; exact hv i hi
  unfold permutedN
  refine Tot.cassert (decide_eq_true hd) ?_
  simp only [newVec]
  rw [← hd] at hf hp ⊢
  obtain ⟨xp, exp⟩ : ∃ xp : Vec, xp = ⟨px, x.dim⟩ := ⟨_, rfl⟩
  have dxp : xp.dim = x.dim := by rw [exp]
  obtain ⟨m1, em1⟩ : ∃ m1, m1 = m.alloc px x.dim junk := ⟨_, rfl⟩
  rw [← exp, ← em1]
  have old1 : ∀ c, (m c).isSome → m1 c = m c := fun c h => by rw [em1]; exact alloc_old hfr h
  have vc : ∀ {c}, xp.Cell c ↔ px ≤ c ∧ c < px + x.dim := by intro c; rw [exp]; exact vcell_iff
  have xpN : ∀ c, (m c).isSome → ¬ xp.Cell c := by
    intro c h hc
    rw [vc] at hc
    rw [hfr c hc.1 hc.2] at h; exact absurd h (by simp)
  have val1 : ∀ i < x.dim, x.val m1 i = x.val m i := fun i hi => by
    unfold Vec.val; rw [old1 _ (hx i hi)]
  have hv1 : xp.Valid m1 := by rw [exp, em1]; exact alloc_vvalid
  have gt := gatherN_tot (t := a.rc) (v := x) (vp := xp) (m := m1) (idx := idx) (by rw [dxp]; exact hp) dxp.symm
    (fun i hi => by rw [old1 _ (hx i hi)]; exact hx i hi) hv1 fun c hc => xpN c (cellSome hx hc)
  rw [dxp] at gt
  refine Tot.bind gt fun m2 _ h2 => ?_
  have old2 : ∀ c, (m c).isSome → m2 c = m c := fun c h => by rw [h2.2.2 c (xpN c h), old1 c h]
  refine Tot.bind (hf xp m2 (fun c h => ⟨old2 c h, xpN c h⟩) h2.1 dxp) ?_
  rintro m3 - ⟨k1, k2, k3⟩
  have old3 : ∀ c, (m c).isSome → m3 c = m c := fun c h => by rw [k2 c (xpN c h), old2 c h]
  have st := scatterN_tot (t := a.rc) (v := x) (vp := xp) (m := m3) (idx := idx) (by rw [dxp]; exact hp) dxp.symm
    (fun i hi => by rw [old3 _ (hx i hi)]; exact hx i hi) k1 fun c hc h => xpN c (cellSome hx h) hc
  rw [dxp] at st
  refine Tot.bind st ?_
  rintro m4 - ⟨s1, s2, s3⟩
  have nf : ∀ c, (m c).isSome → delVec xp m4 c = m4 c := by
    intro c h
    have b := xpN c h
    rw [vc] at b
    rw [exp]
    simp only [delVec, Mem.free]
    rw [if_neg b]
  refine Tot.pure ⟨x.val m4, ⟨fun i hi => ?_, fun i hi => ?_, fun c hc => ?_⟩, fun i hi => ?_⟩
  · rw [nf _ (hx i hi)]; exact s1 i hi
  · unfold Vec.val; rw [nf _ (hx i hi)]
  · by_cases h : (m c).isSome
    · rw [nf c h, s3 c hc, old3 c h]
    · have hn : m c = none := by simpa using h
      rw [hn, exp]
      simp only [delVec, Mem.free]
      by_cases h1 : px ≤ c ∧ c < px + x.dim
      · rw [if_pos h1]
      · rw [if_neg h1, s3 c hc, k2 c fun h => h1 (vc.mp h), h2.2.2 c fun h => h1 (vc.mp h), em1, Rk.alloc_of_not h1, hn]
  · rw [s2 i hi, k3 i hi]
    refine Finset.sum_congr rfl fun j hj => ?_
    have hj := Finset.mem_range.mp hj
    have e := h2.2.1 j (by rw [dxp]; exact hj)
    beta_reduce at e
    rw [e, val1 _ (hp.2.1 j hj)]

end HMat
end H2
