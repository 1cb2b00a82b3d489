import Verif.Proof.H2Matrix2
import Verif.Proof.CbMatrix2
import Verif.Model.H2Mul

set_option linter.unusedSectionVars false

namespace H2
open Spec Dense

section
variable {K : Type} [Field K] [StarRing K]

def MAdd (y : Mat) (m : Mem K) (g : Nat → Nat → K) (m' : Mem K) : Prop := MatBecomes y m (fun i j => y.val m i j + g i j) m'

theorem MAdd.refl {y : Mat} {m : Mem K} (hy : y.Valid m) : MAdd y m (fun _ _ => 0) m :=
  ⟨hy, fun _ _ _ _ => (add_zero _).symm, fun _ _ => rfl⟩

theorem MAdd.trans {y : Mat} {m m' m'' : Mem K} {g g' : Nat → Nat → K} (h : MAdd y m g m') (h' : MAdd y m' g' m'') :
    MAdd y m (fun i j => g i j + g' i j) m'' :=
  ⟨h'.1, fun i hi j hj => by
    have e := h'.2.1 i hi j hj; have e' := h.2.1 i hi j hj; simp only at e e' ⊢; rw [e, e', add_assoc],
    fun c hc => (h'.2.2 c hc).trans (h.2.2 c hc)⟩

theorem MAdd.win {y : Mat} {rs ro : Nat} {m m' : Mem K} {g : Nat → Nat → K} (hy : y.Valid m) (h : ro + rs ≤ y.rows)
    (ha : MAdd (Dense.win y rs ro y.cols 0) m g m') :
    MAdd y m (fun i j => if ro ≤ i ∧ i < ro + rs then g (i - ro) j else 0) m' := by
  have b0 : 0 + y.cols ≤ y.cols := by omega
  refine ⟨wrevalid hy ha.1 ha.2.2, fun i hi j hj => ?_, wframe h b0 ha.2.2⟩
  by_cases hw : ro ≤ i ∧ i < ro + rs
  · have := ha.2.1 (i - ro) (show i - ro < rs by omega) j hj
    simp only at this ⊢
    rw [win_val, win_val, zero_add, show ro + (i - ro) = i by omega] at this
    rw [if_pos hw, this]
  · simp only
    rw [if_neg hw, add_zero, wkeep hy.1 h ha.2.2 hi hw]
end

namespace H2Mat
open VSt CBas
variable {G : Type} {K : Type} [Field K] [StarRing K]

theorem sonOfs_le (K : Type) [Field K] [StarRing K] {cb : CBas G} {n : Nat} {f : Fin n → CBas G} (hs : SonBases cb f) (ho : CbOk cb) (i : Fin n) :
    sonOfs cb f i + (f i).ktree ≤ cb.ktree := by
  obtain ⟨v1, e, -⟩ := openSon_eq (K := K) hs ho (v := ⟨0, cb.ktree⟩) rfl i
  have := (initSubVec_ok.mp e).1
  replace this : (f i).ktree + sonOfs cb f i ≤ cb.ktree := this
  omega

theorem openSonMat_eq {cb : CBas G} {n : Nat} {f : Fin n → CBas G} (hs : SonBases cb f) (ho : CbOk cb) {X : Mat} {cols : Nat}
    (hX : X.rows = cb.ktree) (hc : cols ≤ X.cols) (i : Fin n) (m : Mem K) (a : Nat) :
    openSonMat cb X cols i.1 (runOfs cb f i.1) ⟨m, a⟩ = .ok (win X (f i).ktree (sonOfs cb f i) cols 0, ⟨m, a + 1⟩) := by
  have hle := sonOfs_le K hs ho i
  cases cb with
  | mk t k kt kb V E ns son =>
    replace hX : X.rows = kt := hX
    replace hle : sonOfs (.mk t k kt kb V E ns son) f i + (f i).ktree ≤ kt := hle
    by_cases h0 : 0 < ns
    · obtain ⟨e, he⟩ := hs.1 h0
      replace e : n = ns := e
      subst e
      have he : ∀ i, f i = son i := he
      have hf : f = son := funext he
      subst hf
      have eo : sonOfs (.mk t k kt kb V E n f) f i = k + ofs (fun i => (f i).ktree) i := if_pos h0
      have er : runOfs (.mk t k kt kb V E n f) f i.1 = k + ofs (fun i => (f i).ktree) i := by
        unfold runOfs
        rw [if_pos (show 0 < (CBas.mk t k kt kb V E n f).sons from h0)]; rfl
      rw [eo] at hle ⊢
      rw [er]
      unfold openSonMat
      rw [if_pos (show 0 < (CBas.mk t k kt kb V E n f).sons from h0),
        dif_pos (show i.1 < (CBas.mk t k kt kb V E n f).sons from i.2)]
      exact openMat_eq (by show _ + (f i).ktree ≤ _; omega) (by omega) m a
    · have hz : ns = 0 := by omega
      obtain ⟨e, he⟩ := hs.2 hz
      have eo : sonOfs (.mk t k kt kb V E ns son) f i = 0 := if_neg h0
      rw [eo, he i]
      unfold openSonMat
      rw [if_neg (show ¬ 0 < (CBas.mk t k kt kb V E ns son).sons from h0)]
      exact openMat_eq (by show 0 + kt ≤ _; omega) (by omega) m a

/-- `sum over c of T r c * X c` -/
noncomputable def tSum (T : Nat → Nat → K) (sb : CBas G) (X : Nat → K) (r : Nat) : K :=
  ∑ i ∈ Finset.range sb.t.cl.size, T r (sb.t.cl.off + i) * X (sb.t.cl.off + i)

def MulPost (m0 : Mem K) (alpha : K) (tb sb : CBas G) (T X : Nat → Nat → K) (Yt : Mat) (s s' : VSt K) : Prop :=
  s'.act = s.act ∧ ∃ g, MAdd Yt s.mem g s'.mem ∧ ∀ c < Yt.cols, ∀ r, In tb.t r →
    synth m0 tb (fun q => g q c) r = alpha * tSum T sb (fun r => X r c) r

def MulCall (S : Nat → Prop) (m0 : Mem K) (alpha : K) (tb sb : CBas G) (T : Nat → Nat → K)
    (F : (Xt Yt : Mat) → VSt K → R (VSt K)) : Prop :=
  ∀ (Xt Yt : Mat) (s : VSt K) (X : Nat → Nat → K), Xt.Valid m0 → Disj Xt.Cell S → Xt.rows = sb.ktree → Yt.rows = tb.ktree →
    Xt.cols = Yt.cols → (∀ c, Yt.Cell c → S c) → Frame S m0 s.mem → Yt.Valid s.mem →
    (∀ c < Xt.cols, IsCoeffs m0 sb (fun r => X r c) (fun q => Xt.val m0 q c)) → Tot (F Xt Yt s) (MulPost m0 alpha tb sb T X Yt s)

theorem mulUni_tot {S : Nat → Prop} {m0 : Mem K} {alpha : K} {tb sb : CBas G} {tr : Bool} {S' : Mat} (ht : CbOk tb) (hs : CbOk sb)
    (e1 : opRows tr S' = tb.k) (e2 : opCols tr S' = sb.k) (hv : S'.Valid m0) (hd : Disj S'.Cell S) :
    MulCall S m0 alpha tb sb (fun r c => ∑ a ∈ Finset.range tb.k, ∑ b ∈ Finset.range sb.k,
      basis m0 tb r a * op tr (S'.val m0) a b * star (basis m0 sb c b)) (mulUni alpha tr tb sb S') := by
  rintro Xt Yt ⟨m, a⟩ X hx hxd hxr hyr hcl hyS hf hy hX
  simp only at hf hy
  have kt := k_le_ktree ht
  have ks := k_le_ktree hs
  have b0 : 0 + Xt.cols ≤ Xt.cols := by omega
  have b0' : 0 + Yt.cols ≤ Yt.cols := by omega
  have b1 : 0 + sb.k ≤ Xt.rows := by omega
  have b2 : 0 + tb.k ≤ Yt.rows := by omega
  unfold mulUni
  rw [openMat_eq b1 b0, ok_bind]
  simp only
  rw [openMat_eq b2 b0', ok_bind]
  simp only
  refine Tot.bind (run_tot (addmul_tot (Rk.frame_valid hf hd hv) (win_valid (Rk.frame_valid hf hxd hx) b1 b0) (win_valid hy b2 b0')
    (fun c h1 h2 => hd c h1 (hyS c (wcell b2 b0' h2))) (fun c h1 h2 => hxd c (wcell b1 b0 h1) (hyS c (wcell b2 b0' h2))) tr false
    e2 (le_of_eq e1) (le_of_eq hcl) alpha)) ?_
  rintro ⟨m', a'⟩ - ⟨ha, q⟩
  simp only at ha q
  subst ha
  rw [uninit_eq, ok_bind, uninit_eq]
  have va : MAdd (win Yt tb.k 0 Yt.cols 0) m (fun i c => alpha * ∑ j ∈ Finset.range sb.k, op tr (S'.val m0) i j * Xt.val m0 j c) m' := by
    refine ⟨q.1, fun i hi c hc => ?_, q.2.2⟩
    replace hi : i < tb.k := hi
    replace hc : c < Yt.cols := hc
    have := q.2.1 i hi c hc
    simp only at this ⊢
    rw [this, if_pos ⟨by omega, show c < Xt.cols by omega⟩, e2]
    congr 2
    refine Finset.sum_congr rfl fun j hj => ?_
    have hj := Finset.mem_range.mp hj
    have e : op false ((win Xt sb.k 0 Xt.cols 0).val m) j c = Xt.val m0 j c := by
      show (win Xt sb.k 0 Xt.cols 0).val m j c = _
      rw [win_val, zero_add, zero_add, Rk.frame_val hf hxd (by omega) (by omega)]
    rw [e]
    congr 1
    unfold op opRows opCols at *
    cases tr
    · simp only [Bool.false_eq_true, if_false] at *
      exact Rk.frame_val hf hd (by omega) (by omega)
    · simp only [if_true] at *
      rw [Rk.frame_val hf hd (by omega) (by omega)]
  refine ⟨_, rfl, rfl, _, MAdd.win hy b2 va, fun c hc r hr => ?_⟩
  rw [synth_head (Y := fun _ => 0) (D := fun i => alpha * ∑ j ∈ Finset.range sb.k, op tr (S'.val m0) i j * Xt.val m0 j c) ht
    (fun nu hnu => by rw [if_pos (by omega), zero_add, Nat.sub_zero]) (fun q h1 h2 => if_neg (by omega)) hr, synth_null, zero_add]
  unfold tSum
  have e : ∀ j ∈ Finset.range sb.k, Xt.val m0 j c = ∑ i ∈ Finset.range sb.t.cl.size,
      star (basis m0 sb (sb.t.cl.off + i) j) * X (sb.t.cl.off + i) c := by
    intro j hj
    have := hX c (by omega)
    cases sb with
    | mk t k kt kb V E n son => exact this.1 j (Finset.mem_range.mp hj)
  calc _ = alpha * ∑ nu ∈ Finset.range tb.k, ∑ j ∈ Finset.range sb.k, ∑ i ∈ Finset.range sb.t.cl.size,
        basis m0 tb r nu * op tr (S'.val m0) nu j * star (basis m0 sb (sb.t.cl.off + i) j) * X (sb.t.cl.off + i) c := by
        rw [Finset.mul_sum]
        refine Finset.sum_congr rfl fun nu _ => ?_
        rw [mul_left_comm, Finset.mul_sum]
        congr 1
        refine Finset.sum_congr rfl fun j hj => ?_
        rw [e j hj, Finset.mul_sum, Finset.mul_sum]
        exact Finset.sum_congr rfl fun i _ => by ring
    _ = _ := by
        congr 1
        simp only [Finset.sum_mul]
        rw [Finset.sum_congr rfl fun nu _ => Finset.sum_comm, Finset.sum_comm]

theorem mulFull_tot {S : Nat → Prop} {m0 : Mem K} {alpha : K} {tb sb : CBas G} {tr : Bool} {f : Mat} (ht : CbOk tb) (hs : CbOk sb)
    (h1 : tb.sons = 0) (h2 : sb.sons = 0)
    (e1 : opRows tr f = tb.t.cl.size) (e2 : opCols tr f = sb.t.cl.size) (hv : f.Valid m0) (hd : Disj f.Cell S) :
    MulCall S m0 alpha tb sb (fun r c => if In tb.t r ∧ In sb.t c then op tr (f.val m0) (r - tb.t.cl.off) (c - sb.t.cl.off) else 0)
      (mulFull alpha tr tb sb f) := by
  rintro Xt Yt ⟨m, a⟩ X hx hxd hxr hyr hcl hyS hf hy hX
  simp only at hf hy
  cases tb with
  | mk t k kt kb V E n son =>
  cases sb with
  | mk t' k' kt' kb' V' E' n' son' =>
  replace h1 : n = 0 := h1
  replace h2 : n' = 0 := h2
  subst h1 h2
  replace hxr : Xt.rows = kt' := hxr
  replace hyr : Yt.rows = kt := hyr
  replace e1 : opRows tr f = t.cl.size := e1
  replace e2 : opCols tr f = t'.cl.size := e2
  have o1 := (ht.1 rfl).2.2
  have o2 := (hs.1 rfl).2.2
  have b0 : 0 + Xt.cols ≤ Xt.cols := by omega
  have b0' : 0 + Yt.cols ≤ Yt.cols := by omega
  have b1 : k' + t'.cl.size ≤ Xt.rows := by omega
  have b2 : k + t.cl.size ≤ Yt.rows := by omega
  unfold mulFull
  simp only [CBas.t, CBas.k]
  rw [openMat_eq b1 b0, ok_bind]
  simp only
  rw [openMat_eq b2 b0', ok_bind]
  simp only
  refine Tot.bind (run_tot (addmul_tot (Rk.frame_valid hf hd hv) (win_valid (Rk.frame_valid hf hxd hx) b1 b0) (win_valid hy b2 b0')
    (fun c h1 h2 => hd c h1 (hyS c (wcell b2 b0' h2))) (fun c h1 h2 => hxd c (wcell b1 b0 h1) (hyS c (wcell b2 b0' h2))) tr false
    e2 (le_of_eq e1) (le_of_eq hcl) alpha)) ?_
  rintro ⟨m', a'⟩ - ⟨ha, q⟩
  simp only at ha q
  subst ha
  rw [uninit_eq, ok_bind, uninit_eq]
  have va : MAdd (win Yt t.cl.size k Yt.cols 0) m
      (fun i c => alpha * ∑ j ∈ Finset.range t'.cl.size, op tr (f.val m0) i j * Xt.val m0 (k' + j) c) m' := by
    refine ⟨q.1, fun i hi c hc => ?_, q.2.2⟩
    replace hi : i < t.cl.size := hi
    replace hc : c < Yt.cols := hc
    have := q.2.1 i hi c hc
    simp only at this ⊢
    rw [this, if_pos ⟨by omega, show c < Xt.cols by omega⟩, e2]
    congr 2
    refine Finset.sum_congr rfl fun j hj => ?_
    have hj := Finset.mem_range.mp hj
    have e : op false ((win Xt t'.cl.size k' Xt.cols 0).val m) j c = Xt.val m0 (k' + j) c := by
      show (win Xt t'.cl.size k' Xt.cols 0).val m j c = _
      rw [win_val, zero_add, Rk.frame_val hf hxd (by omega) (by omega)]
    rw [e]
    congr 1
    unfold op opRows opCols at *
    cases tr
    · simp only [Bool.false_eq_true, if_false] at *
      exact Rk.frame_val hf hd (by omega) (by omega)
    · simp only [if_true] at *
      rw [Rk.frame_val hf hd (by omega) (by omega)]
  refine ⟨_, rfl, rfl, _, MAdd.win hy b2 va, fun c hc r hr => ?_⟩
  replace hr : In t r := hr
  obtain ⟨i, hi, rfl⟩ : ∃ i, i < t.cl.size ∧ r = t.cl.off + i := ⟨r - t.cl.off, by unfold In at hr; omega, by
    unfold In at hr; omega⟩
  rw [synth_leaf _ hi, Finset.sum_eq_zero, zero_add, if_pos (by omega), Nat.add_sub_cancel_left]
  · congr 1
    unfold tSum
    refine Finset.sum_congr rfl fun j hj => ?_
    have hj := Finset.mem_range.mp hj
    have := (hX c (by omega)).2.1 rfl j hj
    simp only [CBas.t, Nat.add_sub_cancel_left] at this ⊢
    rw [this, if_pos ⟨In.add hi, In.add hj⟩]
  · intro l hl
    rw [if_neg (by have := Finset.mem_range.mp hl; omega), mul_zero]

theorem mulNode_tot {S : Nat → Prop} {m0 : Mem K} {alpha : K} {tb sb : CBas G} {rs cs : Nat} {R' : Fin rs → CBas G} {C : Fin cs → CBas G}
    {call : Fin rs → Fin cs → (Xt Yt : Mat) → VSt K → R (VSt K)} {T : Fin rs → Fin cs → Nat → Nat → K} (ht : CbOk tb) (hs : CbOk sb)
    (hR : SonBases tb R') (hC : SonBases sb C) (hcall : ∀ i j, MulCall S m0 alpha (R' i) (C j) (T i j) (call i j))
    (hT : ∀ i j r c, (¬ In (R' i).t r ∨ ¬ In (C j).t c) → T i j r c = 0) :
    MulCall S m0 alpha tb sb (fun r c => ∑ i, ∑ j, T i j r c) (mulNode tb sb rs cs call) := by
  rintro Xt Yt ⟨m, a⟩ X hx hxd hxr hyr hcl hyS hf hy hX
  simp only at hf hy
  have b0 : 0 + Xt.cols ≤ Xt.cols := by omega
  have b0' : 0 + Yt.cols ≤ Yt.cols := by omega
  unfold mulNode
  refine Tot.bind (foldFinM_tot (fun j (st : VSt K × Nat) => st.1.act = a ∧ st.2 = runOfs sb C j ∧
    ∃ g, MAdd Yt m g st.1.mem ∧ ∀ c < Yt.cols, ∀ r, In tb.t r → synth m0 tb (fun q => g q c) r =
      alpha * pre (fun j => ∑ i, tSum (T i j) sb (fun r => X r c) r) j) ?_ ?_) ?_
  · exact ⟨rfl, runOfs_zero.symm, _, MAdd.refl hy, fun c _ r _ => by rw [synth_null, pre_zero, mul_zero]⟩
  · rintro j ⟨⟨m2, a2⟩, o⟩ ⟨ha, ho, g, hg, hgs⟩
    simp only at ha ho hg hgs
    subst ha ho
    simp only
    refine Tot.cassert (by simpa using sonBases_assert hC) ?_
    have lx := sonOfs_le K hC hs j
    obtain ⟨c1, c2, -, c4⟩ := sonBases_son (K := K) hC hs j
    rw [openSonMat_eq hC hs hxr le_rfl, ok_bind]
    simp only
    refine Tot.bind (foldFinM_tot (fun i (st : VSt K × Nat) => st.1.act = a2 + 1 ∧ st.2 = runOfs tb R' i ∧
      ∃ g, MAdd Yt m g st.1.mem ∧ ∀ c < Yt.cols, ∀ r, In tb.t r → synth m0 tb (fun q => g q c) r =
        alpha * (pre (fun j => ∑ i, tSum (T i j) sb (fun r => X r c) r) j.1 +
          pre (fun i => tSum (T i j) sb (fun r => X r c) r) i)) ?_ ?_) ?_
    · exact ⟨rfl, runOfs_zero.symm, g, hg, fun c hc r hr' => by rw [pre_zero, add_zero]; exact hgs c hc r hr'⟩
    · rintro i ⟨⟨m3, a3⟩, o⟩ ⟨ha, ho, g', hg', hgs'⟩
      simp only at ha ho hg' hgs'
      subst ha ho
      simp only
      refine Tot.cassert (by simpa using sonBases_assert hR) ?_
      have ly := sonOfs_le K hR ht i
      obtain ⟨r1, r2, r3, -⟩ := sonBases_son (K := K) hR ht i
      rw [openSonMat_eq hR ht hyr hcl.le, ok_bind]
      simp only
      have hf3 : Frame S m0 m3 := hf.trans (Frame.mono hg'.2.2 hyS)
      rw [hcl]
      have bx : sonOfs sb C j + (C j).ktree ≤ Xt.rows := by omega
      have bx' : 0 + Yt.cols ≤ Xt.cols := by omega
      have by' : sonOfs tb R' i + (R' i).ktree ≤ Yt.rows := by omega
      have hi := hcall i j (win Xt (C j).ktree (sonOfs sb C j) Yt.cols 0)
        (win Yt (R' i).ktree (sonOfs tb R' i) Yt.cols 0) ⟨m3, a2 + 1 + 1⟩ X (win_valid hx bx bx')
        (fun c h => hxd c (wcell bx bx' h)) rfl rfl rfl (fun c h => hyS c (wcell by' b0' h)) hf3 (win_valid hg'.1 by' b0')
        (by intro c hc
            refine isCoeffs_y c1 (fun _ _ => rfl) (fun q _ => ?_) (c4 m0 (fun r => X r c) (fun q => Xt.val m0 q c) (hX c ?_))
            · rw [win_val, zero_add]
            · have : c < Yt.cols := hc
              omega)
      refine Tot.bind hi ?_
      rintro ⟨m4, a4⟩ - ⟨ha, g1, hg1, hgs1⟩
      simp only at ha hg1 hgs1
      subst ha
      rw [uninit_eq, ok_bind, nextOff_eq hR, ok_bind]
      refine Tot.pure ⟨rfl, rfl, _, hg'.trans (MAdd.win hg'.1 by' hg1), fun c hc r hr' => ?_⟩
      have hsum : tSum (T i j) (C j) (fun r => X r c) r = tSum (T i j) sb (fun r => X r c) r :=
        sum_in c2 (fun c' => T i j r c' * X c' c) fun c' hc' => by rw [hT i j r c' (.inr hc'), zero_mul]
      have key : synth m0 (R' i) (fun q => g1 q c) r = alpha * tSum (T i j) sb (fun r => X r c) r := by
        by_cases hin : In (R' i).t r
        · rw [hgs1 c hc r hin, hsum]
        · rw [synth_out hin]
          unfold tSum
          rw [Finset.sum_eq_zero, mul_zero]
          intro c' _
          rw [hT i j _ _ (.inl hin), zero_mul]
      rw [synth_add, hgs' c hc r hr', r3 m0 (fun q => g1 q c) r hr', pre_succ, key]
      ring
    · rintro ⟨⟨m3, a3⟩, o⟩ - ⟨ha, ho, g', hg', hgs'⟩
      simp only at ha ho hg' hgs'
      subst ha ho
      simp only
      refine Tot.cassert (by simpa using runOfs_end hR ht) ?_
      rw [uninit_eq, ok_bind, nextOff_eq hC, ok_bind]
      refine Tot.pure ⟨rfl, rfl, g', hg', fun c hc r hr' => ?_⟩
      rw [hgs' c hc r hr', pre_all, pre_succ]
  · rintro ⟨⟨m2, a2⟩, o⟩ - ⟨ha, ho, g, hg, hgs⟩
    simp only at ha ho hg hgs
    subst ha ho
    simp only
    refine Tot.cassert (by simpa using runOfs_end hC hs) ?_
    refine Tot.pure ⟨rfl, g, hg, fun c hc r hr' => ?_⟩
    rw [hgs c hc r hr', pre_all]
    congr 1
    unfold tSum
    simp only [Finset.sum_mul]
    rw [Finset.sum_comm, Finset.sum_comm (s := Finset.range _)]
    refine Finset.sum_congr rfl fun i _ => ?_
    rw [Finset.sum_comm]

theorem fastaddmul_tot {S : Nat → Prop} {m0 : Mem K} {alpha : K} : ∀ {h : H2Mat G},
    H2Ok h → CbOk h.rb → CbOk h.cb → H2Valid m0 h → Disj (H2Cell h) S →
    MulCall S m0 alpha h.rb h.cb (h2place m0 h) (fastaddmul alpha false h) := by
  intro h
  induction h with
  | zero rb cb =>
    rintro - hr hc - - Xt Yt ⟨m, a⟩ X hx hxd hxr hyr hcl hyS hf hy hX
    unfold fastaddmul
    refine Tot.pure ⟨rfl, _, MAdd.refl hy, fun c _ r _ => ?_⟩
    rw [synth_null]
    unfold tSum
    simp [h2place]
  | uni rb cb S' =>
    rintro ⟨o1, o2⟩ hr hc hv hd
    have := mulUni_tot (alpha := alpha) (tr := false) hr hc o1 o2 hv hd
    intro Xt Yt s X
    have e : h2place m0 (uni rb cb S') = fun r c => ∑ a ∈ Finset.range rb.k, ∑ b ∈ Finset.range cb.k,
      basis m0 rb r a * S'.val m0 a b * star (basis m0 cb c b) := by funext r c; rw [h2place]
    rw [e]
    unfold fastaddmul
    exact this Xt Yt s X
  | full rb cb f =>
    rintro ⟨o1, o2, o3, o4⟩ hr hc hv hd
    have := mulFull_tot (alpha := alpha) (tr := false) hr hc o1 o2 o3 o4 hv hd
    intro Xt Yt s X
    have e : h2place m0 (full rb cb f) = fun r c => if In rb.t r ∧ In cb.t c then
      f.val m0 (r - rb.t.cl.off) (c - cb.t.cl.off) else 0 := by funext r c; rw [h2place]
    rw [e]
    unfold fastaddmul
    exact this Xt Yt s X
  | super rb cb rs cs son ih =>
    rintro ⟨⟨R', C, hRC, hR, hC⟩, hs⟩ hr hc hv hd
    have := mulNode_tot (K := K) (S := S) (m0 := m0) (alpha := alpha) (T := fun i j => h2place m0 (son i j)) hr hc hR hC
      (call := fun i j => fastaddmul alpha false (son i j)) (fun i j => by
        obtain ⟨e1, e2⟩ := hRC i j
        have := ih i j (hs i j) (by rw [e1]; exact (sonBases_son (K := K) hR hr i).1)
          (by rw [e2]; exact (sonBases_son (K := K) hC hc j).1) (hv i j) (fun c h => hd c ⟨i, j, h⟩)
        rw [e1, e2] at this
        exact this) (fun i j r c hn => by
        obtain ⟨e1, e2⟩ := hRC i j
        exact place_zero (hs i j) (by rw [e1]; exact (sonBases_son (K := K) hR hr i).1)
          (by rw [e2]; exact (sonBases_son (K := K) hC hc j).1) (by rw [e1, e2]; exact hn))
    intro Xt Yt s X
    have e : h2place m0 (super rb cb rs cs son) = fun r c => ∑ i, ∑ j, h2place m0 (son i j) r c := by funext r c; rw [h2place]
    rw [e]
    unfold fastaddmul
    exact this Xt Yt s X

theorem fastaddmul_trans_tot {S : Nat → Prop} {m0 : Mem K} {alpha : K} : ∀ {h : H2Mat G},
    H2Ok h → CbOk h.rb → CbOk h.cb → H2Valid m0 h → Disj (H2Cell h) S →
    MulCall S m0 alpha h.cb h.rb (op true (h2place m0 h)) (fastaddmul alpha true h) := by
  intro h
  induction h with
  | zero rb cb =>
    rintro - hr hc - - Xt Yt ⟨m, a⟩ X hx hxd hxr hyr hcl hyS hf hy hX
    unfold fastaddmul
    refine Tot.pure ⟨rfl, _, MAdd.refl hy, fun c _ r _ => ?_⟩
    rw [synth_null]
    unfold tSum op
    simp [h2place]
  | uni rb cb S' =>
    rintro ⟨o1, o2⟩ hr hc hv hd
    have := mulUni_tot (alpha := alpha) (tr := true) hc hr o2 o1 hv hd
    intro Xt Yt s X
    have e : op true (h2place m0 (uni rb cb S')) = fun r c => ∑ a ∈ Finset.range cb.k, ∑ b ∈ Finset.range rb.k,
      basis m0 cb r a * op true (S'.val m0) a b * star (basis m0 rb c b) := by
      funext r c
      unfold op
      simp only [if_true]
      rw [h2place, Finset.sum_comm]
      simp only [star_sum, star_mul', star_star]
      exact Finset.sum_congr rfl fun _ _ => Finset.sum_congr rfl fun _ _ => by ring
    rw [e]
    unfold fastaddmul
    exact this Xt Yt s X
  | full rb cb f =>
    rintro ⟨o1, o2, o3, o4⟩ hr hc hv hd
    have := mulFull_tot (alpha := alpha) (tr := true) hc hr o2 o1 o4 o3 hv hd
    intro Xt Yt s X
    have e : op true (h2place m0 (full rb cb f)) = fun r c => if In cb.t r ∧ In rb.t c then
      op true (f.val m0) (r - cb.t.cl.off) (c - rb.t.cl.off) else 0 := by
      funext r c
      unfold op
      simp only [if_true]
      rw [h2place]
      by_cases h : In rb.t c ∧ In cb.t r
      · rw [if_pos h, if_pos ⟨h.2, h.1⟩]
      · rw [if_neg h, if_neg fun h' => h ⟨h'.2, h'.1⟩, star_zero]
    rw [e]
    unfold fastaddmul
    exact this Xt Yt s X
  | super rb cb rs cs son ih =>
    rintro ⟨⟨R', C, hRC, hR, hC⟩, hs⟩ hr hc hv hd
    have := mulNode_tot (K := K) (S := S) (m0 := m0) (alpha := alpha) (T := fun i j => op true (h2place m0 (son j i))) hc hr hC hR
      (call := fun i j => fastaddmul alpha true (son j i)) (fun i j => by
        obtain ⟨e1, e2⟩ := hRC j i
        have := ih j i (hs j i) (by rw [e1]; exact (sonBases_son (K := K) hR hr j).1)
          (by rw [e2]; exact (sonBases_son (K := K) hC hc i).1) (hv j i) (fun c h => hd c ⟨j, i, h⟩)
        rw [e1, e2] at this
        exact this) (fun i j r c hn => by
        obtain ⟨e1, e2⟩ := hRC j i
        unfold op
        simp only [if_true]
        rw [place_zero (hs j i) (by rw [e1]; exact (sonBases_son (K := K) hR hr j).1)
          (by rw [e2]; exact (sonBases_son (K := K) hC hc i).1) (by rw [e1, e2]; exact hn.symm), star_zero])
    intro Xt Yt s X
    have e : op true (h2place m0 (super rb cb rs cs son)) = fun r c => ∑ i, ∑ j, op true (h2place m0 (son j i)) r c := by
      funext r c
      unfold op
      simp only [if_true]
      rw [h2place, Finset.sum_comm]
      simp only [star_sum]
    rw [e]
    unfold fastaddmul
    exact this Xt Yt s X

end H2Mat
end H2
