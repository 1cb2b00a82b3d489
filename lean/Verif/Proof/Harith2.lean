import Verif.Proof.Harith

set_option linter.unusedSectionVars false

namespace H2
open Spec
variable {G K : Type} [Field K] [StarRing K]

namespace HV

/-- the effect of `addmul_hmatrix_amatrix_amatrix` -/
def MulBecomes (alpha : K) (atrans : Bool) (a : HV G K) (bt : Bool) (b : VMat K) (ct : Bool) (c c' : VMat K) : Prop :=
  c'.rows = c.rows ∧ c'.cols = c.cols ∧ ∀ r k, oat ct (a.orc atrans).cl.off c' r k = oat ct (a.orc atrans).cl.off c r k +
    alpha * ∑ l ∈ seg (a.occ atrans), ohval atrans a r l * oat bt (a.occ atrans).cl.off b l k

theorem oat_sub {trans : Bool} {ro off size : Nat} {b w : VMat K} (hw1 : w.orows trans = size)
    (hs : off + size ≤ b.orows trans)
    (hw2 : w.ocols trans = b.ocols trans) (hw3 : ∀ i j, w.oe trans i j = b.oe trans (off + i) j) {r : Nat}
    (hr : ro + off ≤ r ∧ r < ro + off + size) (k : Nat) : oat trans (ro + off) w r k = oat trans ro b r k := by
  unfold oat
  rw [hw1, hw2, hw3]
  by_cases hk : k < b.ocols trans
  · rw [if_pos ⟨hr, hk⟩, if_pos ⟨by omega, hk⟩]
    congr 1
    omega
  · rw [if_neg (fun h => hk h.2), if_neg (fun h => hk h.2)]

theorem addmulN_tot (alpha : K) (bt ct : Bool) : ∀ {a : HV G K} {b c : VMat K}, HVOk a → b.orows bt = a.csize →
    b.ocols bt = c.ocols ct → c.orows ct = a.rsize →
    Tot (addmulN alpha bt ct a b c) (MulBecomes alpha false a bt b ct c) := by
  intro a
  induction a with
  | rk t s x =>
    rintro b c ⟨ho, hA, hB⟩ h1 h2 h3
    replace h1 : b.orows bt = s.cl.size := h1
    replace h3 : c.orows ct = t.cl.size := h3
    simp only [addmulN]
    refine Tot.cassert (by simpa using h1) (Tot.cassert (by simpa using h2) (Tot.cassert (by simpa using h3) ?_))
    refine Tot.mono (addmulRkAm_tot ho (by rw [h3]; exact hA.symm) h2.symm (by rw [h1]; exact hB.symm)) ?_
    rintro c' ⟨e1, e2, e3⟩
    refine ⟨e1, e2, fun r k => ?_⟩
    refine oat_of_local (F := fun i l => rkVal x i l) (s := s) (t := t) h1 h2 h3 e1 e2 ?_ ?_ r k
    · intro i hi k hk
      rw [e3 i (by omega) k hk, h1]
      rfl
    · intro r c hc
      show hval _ r c = _
      rw [hval_rk]
      by_cases hr : r ∈ seg t
      · rw [if_pos ⟨hr, hc⟩, if_pos hr]
      · rw [if_neg (fun h => hr h.1), if_neg hr]
  | full t s f =>
    rintro b c ⟨hA, hB⟩ h1 h2 h3
    replace h1 : b.orows bt = s.cl.size := h1
    replace h3 : c.orows ct = t.cl.size := h3
    simp only [addmulN]
    refine Tot.cassert (by simpa using h1) (Tot.cassert (by simpa using h2) (Tot.cassert (by simpa using h3) ?_))
    refine Tot.mono (oaddmul_tot (at' := false) (a := f) (b := b) (c := c) (bt := bt) (ct := ct) (alpha := alpha)
      (by rw [h1]; exact hB) (by rw [h3]; exact hA.symm) h2.symm) ?_
    rintro c' ⟨e1, e2, e3⟩
    refine ⟨e1, e2, fun r k => ?_⟩
    refine oat_of_local (F := fun i l => f.e i l) (s := s) (t := t) h1 h2 h3 e1 e2 ?_ ?_ r k
    · intro i hi k hk
      rw [e3 i (by omega) k hk, show f.ocols false = s.cl.size from hB]
      rfl
    · intro r c hc
      show hval _ r c = _
      rw [hval_full]
      by_cases hr : r ∈ seg t
      · rw [if_pos ⟨hr, hc⟩, if_pos hr]
      · rw [if_neg (fun h => hr h.1), if_neg hr]
  | super t s m n son ih =>
    rintro b c ⟨hm, hn, ⟨R, C, hrc, hR, hC⟩, hs⟩ h1 h2 h3
    replace h1 : b.orows bt = s.cl.size := h1
    replace h3 : c.orows ct = t.cl.size := h3
    have hrs : ∀ i j, (son i j).rsize = (R i).cl.size := fun i j => by unfold rsize; rw [(hrc i j).1]
    have hcs : ∀ i j, (son i j).csize = (C j).cl.size := fun i j => by unfold csize; rw [(hrc i j).2]
    simp only [addmulN]
    refine Tot.cassert (by simpa using h1) (Tot.cassert (by simpa using h2) (Tot.cassert (by simpa using h3) ?_))
    let D : Fin n → Fin m → Nat → Nat → K := fun j i r k =>
      alpha * ∑ l ∈ seg (C j), hval (son i j) r l * oat bt s.cl.off b l k
    refine Tot.bind (P := fun (st : VMat K × Nat) => (st.1.rows = c.rows ∧ st.1.cols = c.cols) ∧
        st.2 = ∑ j, (C j).cl.size ∧ ∀ r k, oat ct t.cl.off st.1 r k = oat ct t.cl.off c r k + ∑ j, ∑ i, D j i r k) ?_ ?_
    · refine addloop (I := fun c' => c'.rows = c.rows ∧ c'.cols = c.cols) (Gv := fun c' => oat ct t.cl.off c')
        (D := fun j r k => ∑ i, D j i r k) (sz := fun j => (C j).cl.size) ?_ ⟨rfl, rfl⟩
      rintro j c1 hc1
      simp only [dif_pos hm]
      have hbo := segments_end hC j
      refine Tot.bind (osub_tot (by rw [hcs, h1]; exact hbo)) ?_
      rintro b1 - ⟨hb1, hb2, hb3⟩
      rw [hcs] at hb1
      refine Tot.bind (P := fun (st : VMat K × Nat) => (st.1.rows = c.rows ∧ st.1.cols = c.cols) ∧
        st.2 = ∑ i, (R i).cl.size ∧ ∀ r k, oat ct t.cl.off st.1 r k = oat ct t.cl.off c1 r k + ∑ i, D j i r k) ?_ ?_
      · refine addloop (I := fun c' => c'.rows = c.rows ∧ c'.cols = c.cols) (Gv := fun c' => oat ct t.cl.off c')
          (D := fun i r k => D j i r k) (sz := fun i => (R i).cl.size) ?_ hc1
        rintro i c2 hc2
        simp only [hrs]
        have ho := segments_end hR i
        have hc2r : c2.orows ct = t.cl.size := by rw [← h3]; unfold VMat.orows; rw [hc2.1, hc2.2]
        have hc2c : c2.ocols ct = c.ocols ct := by unfold VMat.ocols; rw [hc2.1, hc2.2]
        refine Tot.bind (osub_tot (by rw [hc2r]; exact ho)) ?_
        rintro w - ⟨hw1, hw2, hw3⟩
        refine Tot.bind (ih i j (hs i j) (by rw [hb1, hcs]) (by rw [hb2, h2, hw2, hc2c]) (by rw [hw1, hrs])) ?_
        rintro w' - ⟨f1, f2, f3⟩
        refine Tot.pure ⟨?_, (pre_succ (fun i => (R i).cl.size) i).symm, ?_⟩
        · exact ⟨oglue_rows.1.trans hc2.1, oglue_rows.2.trans hc2.2⟩
        · refine oat_glue (by rw [hc2r]; exact ho) hw1 hw2 hw3 f1 f2 ?_ ?_
          · intro r k
            have := f3 r k
            simp only [orc, occ, Bool.false_eq_true, if_false, (hrc i j).1, (hrc i j).2, ohval] at this
            rw [segments_off hR i] at this
            rw [this]
            congr 2
            refine Finset.sum_congr rfl fun l hl => ?_
            rw [segments_off hC j]
            rw [mem_seg, segments_off hC j] at hl
            rw [oat_sub hb1 (by rw [h1]; exact hbo) hb2 hb3 (by omega)]
          · intro r k hr
            show alpha * ∑ l ∈ seg (C j), _ = 0
            rw [Finset.sum_eq_zero, mul_zero]
            intro l _
            rw [hval_out (hs i j), zero_mul]
            rintro ⟨h', -⟩
            rw [(hrc i j).1, mem_seg, segments_off hR i] at h'
            exact hr h'
      · rintro ⟨c2, o⟩ - ⟨g1, g2, g3⟩
        replace g2 : o = _ := g2
        refine Tot.cassert (by simp [g2, hR.2]) (Tot.pure ⟨g1, ?_, g3⟩)
        show _ + _ = _
        rw [hcs]
        exact (pre_succ (fun j => (C j).cl.size) j).symm
    · rintro ⟨c2, o⟩ - ⟨g1, g2, g3⟩
      replace g2 : o = _ := g2
      refine Tot.cassert (by simp [g2, hC.2]) (Tot.pure ⟨g1.1, g1.2, fun r k => ?_⟩)
      show oat ct t.cl.off c2 r k = oat ct t.cl.off c r k + alpha * ∑ l ∈ seg s, hval _ r l * oat bt s.cl.off b l k
      rw [g3 r k, sum_hsegs hC]
      congr 1
      rw [Finset.mul_sum]
      refine Finset.sum_congr rfl fun j _ => ?_
      show ∑ i, alpha * _ = _
      rw [← Finset.mul_sum]
      congr 1
      rw [Finset.sum_comm]
      refine Finset.sum_congr rfl fun l hl => ?_
      rw [← Finset.sum_mul, hval_super]
      congr 1
      refine Finset.sum_congr rfl fun i _ => ?_
      rw [Finset.sum_eq_single j]
      · intro j' _ hj
        refine hval_out (hs i j') ?_
        rintro ⟨-, h'⟩
        rw [(hrc i j').2] at h'
        exact hj (seg_unique hC h' hl)
      · intro h; exact (h (Finset.mem_univ _)).elim

theorem addmulT_tot (alpha : K) (bt ct : Bool) : ∀ {a : HV G K} {b c : VMat K}, HVOk a → b.orows bt = a.rsize →
    b.ocols bt = c.ocols ct → c.orows ct = a.csize →
    Tot (addmulT alpha bt ct a b c) (MulBecomes alpha true a bt b ct c) := by
  intro a
  induction a with
  | rk t s x =>
    rintro b c ⟨ho, hA, hB⟩ h1 h2 h3
    replace h1 : b.orows bt = t.cl.size := h1
    replace h3 : c.orows ct = s.cl.size := h3
    simp only [addmulT]
    refine Tot.cassert (by simpa using h1) (Tot.cassert (by simpa using h2) (Tot.cassert (by simpa using h3) ?_))
    refine Tot.mono (addmulRkAm_tot ho (by rw [h3]; exact hB.symm) h2.symm (by rw [h1]; exact hA.symm)) ?_
    rintro c' ⟨e1, e2, e3⟩
    refine ⟨e1, e2, fun r k => ?_⟩
    refine oat_of_local (F := fun i l => star (rkVal x l i)) (s := t) (t := s) h1 h2 h3 e1 e2 ?_ ?_ r k
    · intro i hi k hk
      rw [e3 i (by omega) k hk, h1]
      rfl
    · intro r c hc
      show star (hval _ c r) = _
      rw [hval_rk]
      by_cases hr : r ∈ seg s
      · rw [if_pos ⟨hc, hr⟩, if_pos hr]
      · rw [if_neg (fun h => hr h.2), if_neg hr, star_zero]
  | full t s f =>
    rintro b c ⟨hA, hB⟩ h1 h2 h3
    replace h1 : b.orows bt = t.cl.size := h1
    replace h3 : c.orows ct = s.cl.size := h3
    simp only [addmulT]
    refine Tot.cassert (by simpa using h1) (Tot.cassert (by simpa using h2) (Tot.cassert (by simpa using h3) ?_))
    refine Tot.mono (oaddmul_tot (at' := true) (a := f) (b := b) (c := c) (bt := bt) (ct := ct) (alpha := alpha)
      (by rw [h1]; exact hA) (by rw [h3]; exact hB.symm) h2.symm) ?_
    rintro c' ⟨e1, e2, e3⟩
    refine ⟨e1, e2, fun r k => ?_⟩
    refine oat_of_local (F := fun i l => star (f.e l i)) (s := t) (t := s) h1 h2 h3 e1 e2 ?_ ?_ r k
    · intro i hi k hk
      rw [e3 i (by omega) k hk, show f.ocols true = t.cl.size from hA]
      rfl
    · intro r c hc
      show star (hval _ c r) = _
      rw [hval_full]
      by_cases hr : r ∈ seg s
      · rw [if_pos ⟨hc, hr⟩, if_pos hr]
      · rw [if_neg (fun h => hr h.2), if_neg hr, star_zero]
  | super t s m n son ih =>
    rintro b c ⟨hm, hn, ⟨R, C, hrc, hR, hC⟩, hs⟩ h1 h2 h3
    replace h1 : b.orows bt = t.cl.size := h1
    replace h3 : c.orows ct = s.cl.size := h3
    have hrs : ∀ i j, (son i j).rsize = (R i).cl.size := fun i j => by unfold rsize; rw [(hrc i j).1]
    have hcs : ∀ i j, (son i j).csize = (C j).cl.size := fun i j => by unfold csize; rw [(hrc i j).2]
    simp only [addmulT]
    refine Tot.cassert (by simpa using h1) (Tot.cassert (by simpa using h2) (Tot.cassert (by simpa using h3) ?_))
    let D : Fin n → Fin m → Nat → Nat → K := fun j i r k =>
      alpha * ∑ l ∈ seg (R i), star (hval (son i j) l r) * oat bt t.cl.off b l k
    refine Tot.bind (P := fun (st : VMat K × Nat) => (st.1.rows = c.rows ∧ st.1.cols = c.cols) ∧
        st.2 = ∑ j, (C j).cl.size ∧ ∀ r k, oat ct s.cl.off st.1 r k = oat ct s.cl.off c r k + ∑ j, ∑ i, D j i r k) ?_ ?_
    · refine addloop (I := fun c' => c'.rows = c.rows ∧ c'.cols = c.cols) (Gv := fun c' => oat ct s.cl.off c')
        (D := fun j r k => ∑ i, D j i r k) (sz := fun j => (C j).cl.size) ?_ ⟨rfl, rfl⟩
      rintro j c1 hc1
      simp only [dif_pos hm, hcs]
      have hco := segments_end hC j
      have hc1r : c1.orows ct = s.cl.size := by rw [← h3]; unfold VMat.orows; rw [hc1.1, hc1.2]
      have hc1c : c1.ocols ct = c.ocols ct := by unfold VMat.ocols; rw [hc1.1, hc1.2]
      refine Tot.bind (osub_tot (by rw [hc1r]; exact hco)) ?_
      rintro w - ⟨hw1, hw2, hw3⟩
      refine Tot.bind (P := fun (st : VMat K × Nat) => (st.1.rows = w.rows ∧ st.1.cols = w.cols) ∧
        st.2 = ∑ i, (R i).cl.size ∧ ∀ r k, oat ct (C j).cl.off st.1 r k = oat ct (C j).cl.off w r k + ∑ i, D j i r k) ?_ ?_
      · refine addloop (I := fun c' => c'.rows = w.rows ∧ c'.cols = w.cols) (Gv := fun c' => oat ct (C j).cl.off c')
          (D := fun i r k => D j i r k) (sz := fun i => (R i).cl.size) ?_ ⟨rfl, rfl⟩
        rintro i c2 hc2
        simp only [hrs]
        have hbo := segments_end hR i
        have hc2r : c2.orows ct = (C j).cl.size := by rw [← hw1]; unfold VMat.orows; rw [hc2.1, hc2.2]
        have hc2c : c2.ocols ct = c.ocols ct := by rw [← hc1c, ← hw2]; unfold VMat.ocols; rw [hc2.1, hc2.2]
        refine Tot.bind (osub_tot (by rw [h1]; exact hbo)) ?_
        rintro b1 - ⟨hb1, hb2, hb3⟩
        refine Tot.bind (ih i j (hs i j) (by rw [hb1, hrs]) (by rw [hb2, h2, hc2c]) (by rw [hc2r, hcs])) ?_
        rintro w' - ⟨f1, f2, f3⟩
        refine Tot.pure ⟨⟨f1.trans hc2.1, f2.trans hc2.2⟩, (pre_succ (fun i => (R i).cl.size) i).symm, ?_⟩
        intro r k
        have := f3 r k
        simp only [orc, occ, if_true, (hrc i j).1, (hrc i j).2, ohval] at this
        rw [this]
        congr 2
        refine Finset.sum_congr rfl fun l hl => ?_
        rw [segments_off hR i]
        rw [mem_seg, segments_off hR i] at hl
        rw [oat_sub hb1 (by rw [h1]; exact hbo) hb2 hb3 (by omega)]
      · rintro ⟨w', o⟩ - ⟨g1, g2, g3⟩
        replace g2 : o = _ := g2
        refine Tot.cassert (by simp [g2, hR.2]) (Tot.pure ⟨?_, (pre_succ (fun j => (C j).cl.size) j).symm, ?_⟩)
        · exact ⟨oglue_rows.1.trans hc1.1, oglue_rows.2.trans hc1.2⟩
        · refine oat_glue (by rw [hc1r]; exact hco) hw1 hw2 hw3 g1.1 g1.2 ?_ ?_
          · rw [segments_off hC j] at g3
            exact g3
          · intro r k hr
            refine Finset.sum_eq_zero fun i _ => ?_
            show alpha * ∑ l ∈ seg (R i), _ = 0
            rw [Finset.sum_eq_zero, mul_zero]
            intro l _
            rw [hval_out (hs i j), star_zero, zero_mul]
            rintro ⟨-, h'⟩
            rw [(hrc i j).2, mem_seg, segments_off hC j] at h'
            exact hr h'
    · rintro ⟨c2, o⟩ - ⟨g1, g2, g3⟩
      replace g2 : o = _ := g2
      refine Tot.cassert (by simp [g2, hC.2]) (Tot.pure ⟨g1.1, g1.2, fun r k => ?_⟩)
      show oat ct s.cl.off c2 r k = oat ct s.cl.off c r k + alpha * ∑ l ∈ seg t, star (hval _ l r) * oat bt t.cl.off b l k
      rw [g3 r k, sum_hsegs hR, Finset.sum_comm]
      congr 1
      rw [Finset.mul_sum]
      refine Finset.sum_congr rfl fun i _ => ?_
      show ∑ j, alpha * _ = _
      rw [← Finset.mul_sum]
      congr 1
      rw [Finset.sum_comm]
      refine Finset.sum_congr rfl fun l hl => ?_
      rw [← Finset.sum_mul, hval_super, ← star_sum]
      congr 2
      symm
      rw [Finset.sum_eq_single i]
      · intro i' _ hi
        refine Finset.sum_eq_zero fun j _ => ?_
        refine hval_out (hs i' j) ?_
        rintro ⟨h', -⟩
        rw [(hrc i' j).1] at h'
        exact hi (seg_unique hR h' hl)
      · intro h; exact (h (Finset.mem_univ _)).elim

/-- harith.c `addmul_hmatrix_amatrix_amatrix` adds the product. -/
theorem addmulHAA_tot (alpha : K) (atrans bt ct : Bool) {a : HV G K} {b c : VMat K} (ha : HVOk a)
    (h1 : b.orows bt = (a.occ atrans).cl.size) (h2 : b.ocols bt = c.ocols ct) (h3 : c.orows ct = (a.orc atrans).cl.size) :
    Tot (addmulHAA alpha atrans a bt b ct c) (MulBecomes alpha atrans a bt b ct c) := by
  unfold addmulHAA
  cases atrans with
  | true => exact addmulT_tot alpha bt ct ha h1 h2 h3
  | false => exact addmulN_tot alpha bt ct ha h1 h2 h3

end HV
end H2
