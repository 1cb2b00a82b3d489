import Verif.Proof.HChol

/-! The lower triangular part of products of H-matrices (C65): leaves. -/

set_option linter.unusedSectionVars false

namespace H2
open Spec Dense
variable {G K : Type} [Field K] [StarRing K]

namespace HV

/-- `op(x) op(y)` -/
theorem prod_one {xt yt : Bool} {x y : HV G K} {r c : Nat} (alpha : K) : alpha * prod 1 xt x yt y r c = prod alpha xt x yt y r c := by
  unfold prod; rw [one_mul]

theorem addHAm_entry {trans : Bool} {a : HV G K} {b : VMat K} (h1 : b.rows = (a.orc trans).cl.size) (h2 : b.cols = (a.occ trans).cl.size)
    (hb : b = .zero b.rows b.cols) (ho : HVOk a) :
    Tot (addHAm 1 trans a b) (fun b' => b'.rows = b.rows ∧ b'.cols = b.cols ∧ ∀ i < b.rows, ∀ j < b.cols,
      b'.e i j = ohval trans a ((a.orc trans).cl.off + i) ((a.occ trans).cl.off + j)) := by
  refine (addHAm_tot 1 trans ho h1 h2).mono fun b' hb' => ?_
  refine ⟨hb'.ok.1.trans h1.symm, hb'.ok.2.trans h2.symm, fun i hi j hj => ?_⟩
  have := hb'.val ((a.orc trans).cl.off + i) ((a.occ trans).cl.off + j)
  rw [hval_full, hval_full, if_pos (by rw [mem_seg, mem_seg]; omega), if_pos (by rw [mem_seg, mem_seg]; omega),
    Nat.add_sub_cancel_left, Nat.add_sub_cancel_left, one_mul] at this
  rw [this, hb]
  show (0 : K) + _ = _
  rw [zero_add]

theorem addmulLowerXf_tot {T : TruncOps K} (hT : Lossless T) (alpha : K) (xt yt : Bool) {xr xc : CRef G} {xf : VMat K}
    {y z : HV G K} (hx : HVOk (.full xr xc xf : HV G K)) (hy : HVOk y) (hz : HVOk z) (hs : SqOk z)
    (h1 : z.rc = orc xt (.full xr xc xf : HV G K)) (h2 : z.cc = y.occ yt) (h3 : occ xt (.full xr xc xf : HV G K) = y.orc yt) :
    Tot (addmulLowerXf T alpha xt xf yt y z) (fun z' => UpdLow z z' (prod alpha xt (.full xr xc xf) yt y)) := by
  have hdr : xf.orows xt = z.rsize := by
    unfold rsize; rw [h1]; cases xt
    · exact hx.1
    · exact hx.2
  have hdc : xf.ocols xt = (y.orc yt).cl.size := by
    rw [← h3]; cases xt
    · exact hx.2
    · exact hx.1
  have hcs : (y.occ yt).cl.size = z.csize := by unfold csize; rw [h2]
  have hP0 : ∀ r c, ¬ (r ∈ seg z.rc ∧ c ∈ seg z.cc) → prod 1 xt (.full xr xc xf) yt y r c = 0 := by
    intro r c h; refine prod_out hx hy ?_; rw [← h1, ← h2]; exact h
  have hxv : ∀ i < z.rsize, ∀ l ∈ seg (y.orc yt), ohval xt (.full xr xc xf : HV G K) (z.rc.cl.off + i) l =
      xf.oe xt i (l - (y.orc yt).cl.off) := by
    intro i hi l hl
    rw [ohval_full xt (by rw [← h1, mem_seg]; unfold rsize at hi; omega) (by rw [h3]; exact hl), h3, ← h1, Nat.add_sub_cancel_left]
  have hprod : ∀ i < z.rsize, ∀ c, prod 1 xt (.full xr xc xf) yt y (z.rc.cl.off + i) c =
      ∑ l ∈ seg (y.orc yt), xf.oe xt i (l - (y.orc yt).cl.off) * ohval yt y l c := by
    intro i hi c
    unfold prod
    rw [h3, one_mul]
    exact Finset.sum_congr rfl fun l hl => by rw [hxv i hi l hl]
  have fin : ∀ z', UpdLow z z' (fun r c => alpha * prod 1 xt (.full xr xc xf) yt y r c) →
      UpdLow z z' (prod alpha xt (.full xr xc xf) yt y) := fun z' h => h.congr fun r c _ => prod_one alpha
  unfold addmulLowerXf
  by_cases hlt : xf.orows xt ≤ xf.ocols xt
  · rw [if_pos hlt]
    have d1 : xf.orows (!xt) = (y.occ (!yt)).cl.size := by rw [occ_not, orows_not]; exact hdc
    have d2 : xf.ocols (!xt) = (VMat.zero (xf.orows xt) (y.occ yt).cl.size : VMat K).ocols true := by rw [ocols_not]; rfl
    have d3 : (VMat.zero (xf.orows xt) (y.occ yt).cl.size : VMat K).orows true = (y.orc (!yt)).cl.size := by rw [orc_not]; rfl
    refine Tot.bind (addmulHAA_tot 1 (!yt) (!xt) true hy d1 d2 d3) ?_
    rintro M - hM
    refine (am_low hT hz hs (hM.1.trans hdr) (hM.2.1.trans hcs) (fun i hi j hj => ?_) hP0).mono fin
    have := mulLocal hM d1 d2 d3 (i := j) (k := i) (by show j < (y.occ yt).cl.size; omega) (by show i < xf.orows xt; omega)
    rw [orc_not, occ_not, ← h2] at this
    rw [hprod i hi, ← star_star (M.e i j), show star (M.e i j) = M.oe true j i from rfl, this, star_add, star_mul', star_one, one_mul,
      star_sum]
    have e0 : star ((VMat.zero (xf.orows xt) z.cc.cl.size : VMat K).oe true j i) = 0 := by
      show star (star (0 : K)) = 0; rw [star_zero, star_zero]
    rw [e0, zero_add]
    refine Finset.sum_congr rfl fun l _ => ?_
    rw [star_mul', star_ohval_not, mul_comm]
    congr 1
    exact star_oe_not xt xf _ _
  · rw [if_neg hlt, copy_tot rfl rfl, ok_bind]
    refine Tot.bind (addHAm_entry (trans := !yt) (a := y) (b := .zero (y.occ yt).cl.size (xf.ocols xt)) (by rw [orc_not]; rfl)
      (by rw [occ_not]; exact hdc) rfl hy) ?_
    rintro B - ⟨b1, b2, b3⟩
    refine (rk_low hT hz hs ⟨rfl, b2⟩ hdr (b1.trans hcs) (fun i hi j hj => ?_) hP0).mono fin
    rw [hprod i hi, sum_seg]
    unfold rkVal
    show ∑ nu ∈ Finset.range (xf.ocols xt), xf.oe xt i nu * star (B.e j nu) = _
    rw [hdc]
    refine Finset.sum_congr rfl fun nu hnu => ?_
    have hnu := Finset.mem_range.mp hnu
    rw [b3 j (by show j < (y.occ yt).cl.size; omega) nu (by show nu < xf.ocols xt; omega), orc_not, occ_not, star_ohval_not, ← h2,
      Nat.add_sub_cancel_left]

theorem addmulLowerXr_tot {T : TruncOps K} (hT : Lossless T) (alpha : K) (xt yt : Bool) {xr xc : CRef G} {x : VRk K}
    {y z : HV G K} (hx : HVOk (.rk xr xc x : HV G K)) (hy : HVOk y) (hz : HVOk z) (hs : SqOk z)
    (h1 : z.rc = orc xt (.rk xr xc x : HV G K)) (h2 : z.cc = y.occ yt) (h3 : occ xt (.rk xr xc x : HV G K) = y.orc yt) :
    Tot (addmulLowerXr T alpha xt xr xc x yt y z) (fun z' => UpdLow z z' (prod alpha xt (.rk xr xc x) yt y)) := by
  have hx' := hx
  obtain ⟨ho, hA, hB⟩ := hx'
  have hdr : (if xt then x.B else x.A).rows = (if xt then xc.cl.size else xr.cl.size) := by
    cases xt
    · exact hA
    · exact hB
  have hdz : (if xt then xc.cl.size else xr.cl.size) = z.rsize := by
    unfold rsize; rw [h1]; cases xt <;> rfl
  have hcs : (y.occ yt).cl.size = z.csize := by unfold csize; rw [h2]
  have hdc : (if xt then x.A else x.B).rows = (y.orc yt).cl.size := by
    rw [← h3]; cases xt
    · exact hB
    · exact hA
  have hk1 : (if xt then x.B else x.A).cols = x.k := by cases xt; exacts [ho.1, ho.2]
  have hk2 : (if xt then x.A else x.B).cols = x.k := by cases xt; exacts [ho.2, ho.1]
  have hP0 : ∀ r c, ¬ (r ∈ seg z.rc ∧ c ∈ seg z.cc) → prod 1 xt (.rk xr xc x) yt y r c = 0 := by
    intro r c h; refine prod_out hx hy ?_; rw [← h1, ← h2]; exact h
  unfold addmulLowerXr
  rw [copy_tot (atrans := false) hdr hk1, ok_bind]
  have d1 : (if xt then x.A else x.B).orows false = (y.occ (!yt)).cl.size := by rw [occ_not]; exact hdc
  have d2 : (if xt then x.A else x.B).ocols false = (VMat.zero (y.occ yt).cl.size x.k : VMat K).ocols false := hk2
  have d3 : (VMat.zero (y.occ yt).cl.size x.k : VMat K).orows false = (y.orc (!yt)).cl.size := by
    rw [orc_not]; rfl
  refine Tot.bind (addmulHAA_tot 1 (!yt) false false hy d1 d2 d3) ?_
  rintro B - hB'
  refine (rk_low hT hz hs ⟨rfl, hB'.2.1⟩ hdz (hB'.1.trans hcs) (fun i hi j hj => ?_) hP0).mono fun z' h => h.congr fun r c _ => prod_one alpha
  unfold prod
  rw [h3, one_mul]
  have hl : ∀ l ∈ seg (y.orc yt), ohval xt (.rk xr xc x : HV G K) (z.rc.cl.off + i) l = _ := fun l hl =>
    ohval_rk xt (by rw [← h1, mem_seg]; unfold rsize at hi; omega) (by rw [h3]; exact hl)
  rw [Finset.sum_congr rfl fun l h => by rw [hl l h], h3, ← h1, Nat.add_sub_cancel_left]
  have hBe : ∀ nu < x.k, star (B.e j nu) = ∑ l ∈ seg (y.orc yt), ohval yt y l (z.cc.cl.off + j) *
      star ((if xt then x.A else x.B).e (l - (y.orc yt).cl.off) nu) := by
    intro nu hnu
    have := mulLocal hB' d1 d2 d3 (i := j) (k := nu) (by show j < (y.occ yt).cl.size; omega) hnu
    rw [orc_not, occ_not, ← h2] at this
    rw [show B.e j nu = B.oe false j nu from rfl, this, star_add, star_mul', star_one, one_mul, star_sum]
    simp only [VMat.zero, VMat.oe, Bool.false_eq_true, if_false, star_zero, zero_add]
    refine Finset.sum_congr rfl fun l _ => ?_
    rw [star_mul', star_ohval_not]
  unfold rkVal
  show ∑ nu ∈ Finset.range x.k, (if xt then x.B else x.A).e i nu * star (B.e j nu) = _
  rw [Finset.sum_congr rfl fun nu hnu => by rw [hBe nu (Finset.mem_range.1 hnu)]]
  simp only [Finset.mul_sum, Finset.sum_mul]
  rw [Finset.sum_comm]
  refine Finset.sum_congr rfl fun l _ => Finset.sum_congr rfl fun nu _ => ?_
  ring

theorem addmulLowerYf_tot {T : TruncOps K} (hT : Lossless T) (alpha : K) (xt yt : Bool) {yr yc : CRef G} {yf : VMat K}
    {x z : HV G K} (hx : HVOk x) (hy : HVOk (.full yr yc yf : HV G K)) (hz : HVOk z) (hs : SqOk z)
    (h1 : z.rc = x.orc xt) (h2 : z.cc = occ yt (.full yr yc yf : HV G K)) (h3 : x.occ xt = orc yt (.full yr yc yf : HV G K)) :
    Tot (addmulLowerYf T alpha xt x yt yf z) (fun z' => UpdLow z z' (prod alpha xt x yt (.full yr yc yf))) := by
  have hdc : yf.ocols yt = z.csize := by
    unfold csize; rw [h2]; cases yt
    · exact hy.2
    · exact hy.1
  have hdr : yf.orows yt = (x.occ xt).cl.size := by
    rw [h3]; cases yt
    · exact hy.1
    · exact hy.2
  have hrs : (x.orc xt).cl.size = z.rsize := by unfold rsize; rw [h1]
  have hP0 : ∀ r c, ¬ (r ∈ seg z.rc ∧ c ∈ seg z.cc) → prod 1 xt x yt (.full yr yc yf) r c = 0 := by
    intro r c h; refine prod_out hx hy ?_; rw [← h1, ← h2]; exact h
  have hyv : ∀ j < z.csize, ∀ l ∈ seg (x.occ xt), ohval yt (.full yr yc yf : HV G K) l (z.cc.cl.off + j) =
      yf.oe yt (l - (x.occ xt).cl.off) j := by
    intro j hj l hl
    rw [ohval_full yt (by rw [← h3]; exact hl) (by rw [← h2, mem_seg]; unfold csize at hj; omega), ← h3, ← h2, Nat.add_sub_cancel_left]
  have hprod : ∀ j < z.csize, ∀ r, prod 1 xt x yt (.full yr yc yf) r (z.cc.cl.off + j) =
      ∑ l ∈ seg (x.occ xt), ohval xt x r l * yf.oe yt (l - (x.occ xt).cl.off) j := by
    intro j hj r
    unfold prod
    rw [one_mul]
    exact Finset.sum_congr rfl fun l hl => by rw [hyv j hj l hl]
  have fin : ∀ z', UpdLow z z' (fun r c => alpha * prod 1 xt x yt (.full yr yc yf) r c) →
      UpdLow z z' (prod alpha xt x yt (.full yr yc yf)) := fun z' h => h.congr fun r c _ => prod_one alpha
  unfold addmulLowerYf
  by_cases hlt : yf.ocols yt ≤ yf.orows yt
  · rw [if_pos hlt]
    have d1 : yf.orows yt = (x.occ xt).cl.size := hdr
    have d2 : yf.ocols yt = (VMat.zero (x.orc xt).cl.size (yf.ocols yt) : VMat K).ocols false := rfl
    have d3 : (VMat.zero (x.orc xt).cl.size (yf.ocols yt) : VMat K).orows false = (x.orc xt).cl.size := rfl
    refine Tot.bind (addmulHAA_tot 1 xt yt false hx d1 d2 d3) ?_
    rintro M - hM
    refine (am_low hT hz hs (hM.1.trans hrs) (hM.2.1.trans hdc) (fun i hi j hj => ?_) hP0).mono fin
    have := mulLocal hM d1 d2 d3 (i := i) (k := j) (by show i < (x.orc xt).cl.size; omega) (by show j < yf.ocols yt; omega)
    rw [hprod j hj, show M.e i j = M.oe false i j from rfl, this, ← h1, one_mul]
    show (0 : K) + _ = _
    rw [zero_add]
  · rw [if_neg hlt]
    refine Tot.bind (addHAm_entry (trans := xt) (a := x) (b := .zero (x.orc xt).cl.size (yf.orows yt)) rfl hdr rfl hx) ?_
    rintro A - ⟨a1, a2, a3⟩
    rw [copy_tot (orows_not yt yf) (ocols_not yt yf), ok_bind]
    refine (rk_low hT hz hs ⟨a2, rfl⟩ (a1.trans hrs) hdc (fun i hi j hj => ?_) hP0).mono fin
    rw [hprod j hj, sum_seg]
    unfold rkVal
    show ∑ nu ∈ Finset.range (yf.orows yt), A.e i nu * star (yf.oe (!yt) j nu) = _
    rw [hdr]
    refine Finset.sum_congr rfl fun nu hnu => ?_
    have hnu := Finset.mem_range.mp hnu
    rw [a3 i (by show i < (x.orc xt).cl.size; omega) nu (by show nu < yf.orows yt; omega), star_oe_not, ← h1, Nat.add_sub_cancel_left]

theorem addmulLowerYr_tot {T : TruncOps K} (hT : Lossless T) (alpha : K) (xt yt : Bool) {yr yc : CRef G} {y : VRk K}
    {x z : HV G K} (hx : HVOk x) (hy : HVOk (.rk yr yc y : HV G K)) (hz : HVOk z) (hs : SqOk z)
    (h1 : z.rc = x.orc xt) (h2 : z.cc = occ yt (.rk yr yc y : HV G K)) (h3 : x.occ xt = orc yt (.rk yr yc y : HV G K)) :
    Tot (addmulLowerYr T alpha xt x yt yr yc y z) (fun z' => UpdLow z z' (prod alpha xt x yt (.rk yr yc y))) := by
  have hy' := hy
  obtain ⟨ho, hA, hB⟩ := hy'
  have hdc : (if yt then y.A else y.B).rows = (if yt then yr.cl.size else yc.cl.size) := by
    cases yt
    · exact hB
    · exact hA
  have hdz : (if yt then yr.cl.size else yc.cl.size) = z.csize := by
    unfold csize; rw [h2]; cases yt <;> rfl
  have hrs : (x.orc xt).cl.size = z.rsize := by unfold rsize; rw [h1]
  have hdr : (if yt then y.B else y.A).rows = (x.occ xt).cl.size := by
    rw [h3]; cases yt
    · exact hA
    · exact hB
  have hk1 : (if yt then y.B else y.A).cols = y.k := by cases yt; exacts [ho.1, ho.2]
  have hk2 : (if yt then y.A else y.B).cols = y.k := by cases yt; exacts [ho.2, ho.1]
  have hP0 : ∀ r c, ¬ (r ∈ seg z.rc ∧ c ∈ seg z.cc) → prod 1 xt x yt (.rk yr yc y) r c = 0 := by
    intro r c h; refine prod_out hx hy ?_; rw [← h1, ← h2]; exact h
  unfold addmulLowerYr
  have d1 : (if yt then y.B else y.A).orows false = (x.occ xt).cl.size := hdr
  have d2 : (if yt then y.B else y.A).ocols false = (VMat.zero (x.orc xt).cl.size y.k : VMat K).ocols false := hk1
  have d3 : (VMat.zero (x.orc xt).cl.size y.k : VMat K).orows false = (x.orc xt).cl.size := rfl
  refine Tot.bind (addmulHAA_tot 1 xt false false hx d1 d2 d3) ?_
  rintro A - hA'
  rw [copy_tot (atrans := false) hdc hk2, ok_bind]
  refine (rk_low hT hz hs ⟨hA'.2.1, rfl⟩ (hA'.1.trans hrs) hdz (fun i hi j hj => ?_) hP0).mono fun z' h => h.congr fun r c _ => prod_one alpha
  unfold prod
  rw [one_mul]
  have hl : ∀ l ∈ seg (x.occ xt), ohval yt (.rk yr yc y : HV G K) l (z.cc.cl.off + j) = _ := fun l hl =>
    ohval_rk yt (by rw [← h3]; exact hl) (by rw [← h2, mem_seg]; unfold csize at hj; omega)
  rw [Finset.sum_congr rfl fun l h => by rw [hl l h], ← h3, ← h2, Nat.add_sub_cancel_left]
  have hAe : ∀ nu < y.k, A.e i nu = ∑ l ∈ seg (x.occ xt), ohval xt x (z.rc.cl.off + i) l *
      (if yt then y.B else y.A).e (l - (x.occ xt).cl.off) nu := by
    intro nu hnu
    have := mulLocal hA' d1 d2 d3 (i := i) (k := nu) (by show i < (x.orc xt).cl.size; omega) hnu
    rw [← h1] at this
    rw [show A.e i nu = A.oe false i nu from rfl, this]
    simp only [VMat.zero, VMat.oe, Bool.false_eq_true, if_false, zero_add, one_mul]
  unfold rkVal
  show ∑ nu ∈ Finset.range y.k, A.e i nu * star ((if yt then y.A else y.B).e j nu) = _
  rw [Finset.sum_congr rfl fun nu hnu => by rw [hAe nu (Finset.mem_range.1 hnu)]]
  simp only [Finset.mul_sum, Finset.sum_mul]
  rw [Finset.sum_comm]
  refine Finset.sum_congr rfl fun l _ => Finset.sum_congr rfl fun nu _ => ?_
  ring

end HV
end H2
