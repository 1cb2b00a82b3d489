import Verif.Proof.Harith6

set_option linter.unusedSectionVars false

namespace H2
open Spec
variable {G K : Type} [Field K] [StarRing K]

namespace HV

/-! ### products with leaves -/

/-- entry of `alpha op(x) op(y)` -/
def prod (alpha : K) (xt : Bool) (x : HV G K) (yt : Bool) (y : HV G K) (r c : Nat) : K :=
  alpha * ∑ l ∈ seg (x.occ xt), ohval xt x r l * ohval yt y l c

theorem orc_not (t : Bool) (x : HV G K) : x.orc (!t) = x.occ t := by cases t <;> rfl
theorem occ_not (t : Bool) (x : HV G K) : x.occ (!t) = x.orc t := by cases t <;> rfl
theorem star_ohval_not (t : Bool) (x : HV G K) (r c : Nat) : star (ohval (!t) x r c) = ohval t x c r := by
  unfold ohval; cases t <;> simp
theorem star_oe_not (t : Bool) (x : VMat K) (i j : Nat) : star (x.oe (!t) i j) = x.oe t j i := by
  unfold VMat.oe; cases t <;> simp
theorem orows_not (t : Bool) (x : VMat K) : x.orows (!t) = x.ocols t := by cases t <;> rfl
theorem ocols_not (t : Bool) (x : VMat K) : x.ocols (!t) = x.orows t := by cases t <;> rfl

theorem prod_out {alpha : K} {xt yt : Bool} {x y : HV G K} (hx : HVOk x) (hy : HVOk y) {r c : Nat}
    (h : ¬ (r ∈ seg (x.orc xt) ∧ c ∈ seg (y.occ yt))) : prod alpha xt x yt y r c = 0 := by
  unfold prod
  rw [Finset.sum_eq_zero, mul_zero]
  intro l _
  by_cases hr : r ∈ seg (x.orc xt)
  · rw [ohval_out hy (fun h' => h ⟨hr, h'.2⟩), mul_zero]
  · rw [ohval_out hx (fun h' => hr h'.1), zero_mul]

/-- `MulBecomes` with local indices -/
theorem mulLocal {alpha : K} {at' bt ct : Bool} {a : HV G K} {b c c' : VMat K} (h : MulBecomes alpha at' a bt b ct c c')
    (h1 : b.orows bt = (a.occ at').cl.size) (h2 : b.ocols bt = c.ocols ct) (h3 : c.orows ct = (a.orc at').cl.size)
    {i k : Nat} (hi : i < c.orows ct) (hk : k < c.ocols ct) :
    c'.oe ct i k = c.oe ct i k + alpha * ∑ l ∈ seg (a.occ at'),
      ohval at' a ((a.orc at').cl.off + i) l * b.oe bt (l - (a.occ at').cl.off) k := by
  obtain ⟨g1, g2, g3⟩ := h
  have := g3 ((a.orc at').cl.off + i) k
  have e1 : c'.orows ct = c.orows ct := by unfold VMat.orows; rw [g1, g2]
  have e2 : c'.ocols ct = c.ocols ct := by unfold VMat.ocols; rw [g1, g2]
  unfold oat at this
  rw [if_pos ⟨⟨by omega, by omega⟩, by omega⟩, if_pos ⟨⟨by omega, by omega⟩, by omega⟩, Nat.add_sub_cancel_left] at this
  rw [this]
  congr 2
  refine Finset.sum_congr rfl fun l hl => ?_
  rw [mem_seg] at hl
  rw [if_pos ⟨by rw [h1]; exact hl, by omega⟩]

theorem ohval_full {t s : CRef G} {f : VMat K} (trans : Bool) {r c : Nat}
    (hr : r ∈ seg (orc trans (.full t s f))) (hc : c ∈ seg (occ trans (.full t s f))) :
    ohval trans (.full t s f) r c = f.oe trans (r - (orc trans (.full t s f)).cl.off) (c - (occ trans (.full t s f)).cl.off) := by
  unfold ohval VMat.oe
  cases trans
  · simp only [Bool.false_eq_true, if_false]; rw [hval_full]; exact if_pos ⟨hr, hc⟩
  · simp only [if_true]; rw [hval_full]; congr 1; exact if_pos ⟨hc, hr⟩

theorem ohval_rk {t s : CRef G} {x : VRk K} (trans : Bool) {r c : Nat}
    (hr : r ∈ seg (orc trans (.rk t s x))) (hc : c ∈ seg (occ trans (.rk t s x))) :
    ohval trans (.rk t s x) r c = ∑ nu ∈ Finset.range x.k,
      (if trans then x.B else x.A).e (r - (orc trans (.rk t s x)).cl.off) nu *
        star ((if trans then x.A else x.B).e (c - (occ trans (.rk t s x)).cl.off) nu) := by
  unfold ohval
  cases trans
  · simp only [Bool.false_eq_true, if_false]; rw [hval_rk]; exact if_pos ⟨hr, hc⟩
  · simp only [if_true]; rw [hval_rk, if_pos (show c ∈ seg t ∧ r ∈ seg s from ⟨hc, hr⟩), rkVal, star_sum]
    refine Finset.sum_congr rfl fun nu _ => ?_
    rw [star_mul', star_star, mul_comm]; rfl

/-- adding a low-rank matrix that represents `P` -/
theorem rk_upd {T : TruncOps K} (hT : Lossless T) {z : HV G K} {x : VRk K} (hz : HVOk z) (hx : RkOk x)
    (h1 : x.A.rows = z.rsize) (h2 : x.B.rows = z.csize) {P : Nat → Nat → K}
    (hP : ∀ i < z.rsize, ∀ j < z.csize, rkVal x i j = P (z.rc.cl.off + i) (z.cc.cl.off + j))
    (hP0 : ∀ r c, ¬ (r ∈ seg z.rc ∧ c ∈ seg z.cc) → P r c = 0) :
    Tot (addRkH T 1 x z) (fun z' => Upd z z' P) := by
  refine Tot.mono (addRkH_tot hT 1 hz hx h1 h2) fun z' hu => hu.congr fun r c => ?_
  rw [one_mul, hval_rk]
  by_cases h : r ∈ seg z.rc ∧ c ∈ seg z.cc
  · rw [if_pos h]
    obtain ⟨h3, h4⟩ := h
    rw [mem_seg] at h3 h4
    unfold rsize csize at hP
    rw [hP _ (by omega) _ (by omega)]
    congr 1 <;> omega
  · rw [if_neg h, hP0 r c h]

theorem sum_seg_single {t : CRef G} {f : Nat → K} {nu : Nat} (h : nu < t.cl.size) :
    (∑ l ∈ seg t, f l * if nu = l - t.cl.off then 1 else 0) = f (t.cl.off + nu) := by
  rw [sum_seg, Finset.sum_eq_single nu]
  · rw [Nat.add_sub_cancel_left, if_pos rfl, mul_one]
  · intro b _ hb
    rw [Nat.add_sub_cancel_left, if_neg (fun h => hb h.symm), mul_zero]
  · intro h'
    exact absurd (Finset.mem_range.2 h) h'

theorem addmulXf_tot {T : TruncOps K} (hT : Lossless T) (alpha : K) (xt yt : Bool) {xr xc : CRef G} {xf : VMat K}
    {y z : HV G K} (hx : HVOk (.full xr xc xf : HV G K)) (hy : HVOk y) (hz : HVOk z)
    (h1 : z.rc = orc xt (.full xr xc xf : HV G K)) (h2 : z.cc = y.occ yt) (h3 : occ xt (.full xr xc xf : HV G K) = y.orc yt) :
    Tot (addmulXf T alpha xt xf yt y z) (fun z' => Upd z z' (prod alpha xt (.full xr xc xf) yt y)) := by
  have hdr : xf.orows xt = z.rsize := by
    unfold rsize; rw [h1]; cases xt
    · exact hx.1
    · exact hx.2
  have hdc : xf.ocols xt = (y.orc yt).cl.size := by
    rw [← h3]; cases xt
    · exact hx.2
    · exact hx.1
  have hP0 : ∀ r c, ¬ (r ∈ seg z.rc ∧ c ∈ seg z.cc) → prod alpha xt (.full xr xc xf) yt y r c = 0 := by
    intro r c h; refine prod_out hx hy ?_; rw [← h1, ← h2]; exact h
  have hxv : ∀ i < z.rsize, ∀ l ∈ seg (y.orc yt), ohval xt (.full xr xc xf : HV G K) (z.rc.cl.off + i) l =
      xf.oe xt i (l - (y.orc yt).cl.off) := by
    intro i hi l hl
    rw [ohval_full xt (by rw [← h1, mem_seg]; unfold rsize at hi; omega) (by rw [h3]; exact hl), h3, ← h1, Nat.add_sub_cancel_left]
  have hprod : ∀ i < z.rsize, ∀ c, prod alpha xt (.full xr xc xf) yt y (z.rc.cl.off + i) c =
      alpha * ∑ l ∈ seg (y.orc yt), xf.oe xt i (l - (y.orc yt).cl.off) * ohval yt y l c := by
    intro i hi c
    unfold prod
    rw [h3]
    congr 1
    exact Finset.sum_congr rfl fun l hl => by rw [hxv i hi l hl]
  have notfull : Tot (if xf.ocols xt < xf.orows xt then do
      let A ← xf.copy xt z.rsize (xf.ocols xt)
      let B ← addmulHAA (star alpha) (!yt) y true (.ident (xf.ocols xt) (xf.ocols xt)) false
        (.zero z.csize (xf.ocols xt))
      addRkH T 1 ⟨A, B, xf.ocols xt⟩ z
    else do
      let B ← addmulHAA (star alpha) (!yt) y (!xt) xf false (.zero z.csize (xf.orows xt))
      addRkH T 1 ⟨.ident z.rsize (xf.orows xt), B, xf.orows xt⟩ z)
      (fun z' => Upd z z' (prod alpha xt (.full xr xc xf) yt y)) := by
    by_cases hlt : xf.ocols xt < xf.orows xt
    · rw [if_pos hlt, copy_tot hdr rfl, ok_bind]
      have d1 : (VMat.ident (xf.ocols xt) (xf.ocols xt) : VMat K).orows true = (y.occ (!yt)).cl.size := by
        rw [occ_not]; exact hdc
      have d2 : (VMat.ident (xf.ocols xt) (xf.ocols xt) : VMat K).ocols true =
        (VMat.zero z.csize (xf.ocols xt) : VMat K).ocols false := rfl
      have d3 : (VMat.zero z.csize (xf.ocols xt) : VMat K).orows false = (y.orc (!yt)).cl.size := by
        rw [orc_not]; show z.csize = _; rw [csize, h2]
      refine Tot.bind (addmulHAA_tot (star alpha) (!yt) true false hy d1 d2 d3) ?_
      rintro B - hB
      refine rk_upd hT hz ⟨rfl, hB.2.1⟩ rfl hB.1 (fun i hi j hj => ?_) hP0
      rw [hprod i hi]
      have hBe : ∀ nu < xf.ocols xt, B.e j nu = star alpha * ohval (!yt) y (z.cc.cl.off + j) ((y.orc yt).cl.off + nu) := by
        intro nu hnu
        have := mulLocal hB d1 d2 d3 (i := j) (k := nu) hj hnu
        rw [orc_not, occ_not, ← h2] at this
        rw [show B.e j nu = B.oe false j nu from rfl, this, ← sum_seg_single (t := y.orc yt) (f := fun l => ohval (!yt) y (z.cc.cl.off + j) l) (nu := nu) (by omega)]
        simp only [VMat.zero, VMat.oe, VMat.ident, if_true, Bool.false_eq_true, if_false, zero_add]
        congr 1
        refine Finset.sum_congr rfl fun l _ => ?_
        congr 1
        by_cases h : nu = l - (y.orc yt).cl.off
        · rw [if_pos h, star_one]
        · rw [if_neg h, star_zero]
      rw [sum_seg, ← hdc, Finset.mul_sum]
      unfold rkVal
      refine Finset.sum_congr rfl fun nu hnu => ?_
      rw [hBe nu (Finset.mem_range.1 hnu), star_mul', star_star, star_ohval_not, Nat.add_sub_cancel_left]
      ring
    · rw [if_neg hlt]
      have d1 : xf.orows (!xt) = (y.occ (!yt)).cl.size := by rw [occ_not, orows_not]; exact hdc
      have d2 : xf.ocols (!xt) = (VMat.zero z.csize (xf.orows xt) : VMat K).ocols false := by rw [ocols_not]; rfl
      have d3 : (VMat.zero z.csize (xf.orows xt) : VMat K).orows false = (y.orc (!yt)).cl.size := by
        rw [orc_not]; show z.csize = _; rw [csize, h2]
      refine Tot.bind (addmulHAA_tot (star alpha) (!yt) (!xt) false hy d1 d2 d3) ?_
      rintro B - hB
      refine rk_upd hT hz ⟨rfl, hB.2.1⟩ rfl hB.1 (fun i hi j hj => ?_) hP0
      rw [hprod i hi]
      have hi' : i < xf.orows xt := by omega
      have := mulLocal hB d1 d2 d3 (i := j) (k := i) hj hi'
      rw [orc_not, occ_not, ← h2] at this
      unfold rkVal
      rw [Finset.sum_eq_single i]
      · show (if i = i then (1 : K) else 0) * star (B.oe false j i) = _
        rw [if_pos rfl, one_mul, this, star_add, star_mul', star_star, star_sum]
        simp only [VMat.zero, VMat.oe, Bool.false_eq_true, if_false, star_zero, zero_add]
        congr 1
        refine Finset.sum_congr rfl fun l _ => ?_
        rw [star_mul', star_ohval_not, mul_comm]
        congr 1
        exact star_oe_not xt xf _ _
      · intro b _ hb
        show (if i = b then (1 : K) else 0) * _ = 0
        rw [if_neg (fun h => hb h.symm), zero_mul]
      · intro h; exact absurd (Finset.mem_range.2 hi') h
  unfold addmulXf
  cases z with
  | rk t s w => exact notfull
  | super t s m n son => exact notfull
  | full t s zf =>
    have d1 : xf.orows (!xt) = (y.occ (!yt)).cl.size := by rw [occ_not, orows_not]; exact hdc
    have d2 : xf.ocols (!xt) = zf.ocols true := by rw [ocols_not, hdr]; exact hz.1.symm
    have d3 : zf.orows true = (y.orc (!yt)).cl.size := by rw [orc_not, ← h2]; exact hz.2
    refine Tot.bind (addmulHAA_tot (star alpha) (!yt) (!xt) true hy d1 d2 d3) ?_
    rintro zf' - hB
    refine Tot.pure ⟨⟨rfl, rfl⟩, ⟨hB.1.trans hz.1, hB.2.1.trans hz.2⟩, fun r c => ?_⟩
    by_cases h : r ∈ seg t ∧ c ∈ seg s
    · have h' := h
      rw [mem_seg, mem_seg] at h'
      obtain ⟨i, rfl⟩ : ∃ i, r = t.cl.off + i := ⟨r - t.cl.off, by omega⟩
      obtain ⟨j, rfl⟩ : ∃ j, c = s.cl.off + j := ⟨c - s.cl.off, by omega⟩
      have hi : i < t.cl.size := by omega
      have hj : j < s.cl.size := by omega
      have e1 := hz.1
      have e2 := hz.2
      have := mulLocal hB d1 d2 d3 (i := j) (k := i) (by show j < zf.cols; omega) (by show i < zf.rows; omega)
      rw [orc_not, occ_not, ← h2] at this
      rw [hval_full, hval_full, if_pos h, if_pos h, Nat.add_sub_cancel_left, Nat.add_sub_cancel_left]
      have hp := hprod i hi (s.cl.off + j)
      replace hp : prod alpha xt (.full xr xc xf) yt y (t.cl.off + i) (s.cl.off + j) = _ := hp
      rw [hp, ← star_star (zf'.e i j), show star (zf'.e i j) = zf'.oe true j i from rfl, this, star_add, star_mul',
        star_star, star_sum]
      congr 1
      · show star (star (zf.e i j)) = _; rw [star_star]
      · congr 1
        refine Finset.sum_congr rfl fun l _ => ?_
        rw [star_mul', star_ohval_not, mul_comm]
        congr 1
        exact star_oe_not xt xf _ _
    · rw [hval_full, hval_full, if_neg h, if_neg h, hP0 r c h, add_zero]

theorem addmulXr_tot {T : TruncOps K} (hT : Lossless T) (alpha : K) (xt yt : Bool) {xr xc : CRef G} {x : VRk K}
    {y z : HV G K} (hx : HVOk (.rk xr xc x : HV G K)) (hy : HVOk y) (hz : HVOk z)
    (h1 : z.rc = orc xt (.rk xr xc x : HV G K)) (h2 : z.cc = y.occ yt) (h3 : occ xt (.rk xr xc x : HV G K) = y.orc yt) :
    Tot (addmulXr T alpha xt x yt y z) (fun z' => Upd z z' (prod alpha xt (.rk xr xc x) yt y)) := by
  have hx' := hx
  obtain ⟨ho, hA, hB⟩ := hx'
  have hdr : (if xt then x.B else x.A).rows = z.rsize := by
    unfold rsize; rw [h1]; cases xt
    · exact hA
    · exact hB
  have hdc : (if xt then x.A else x.B).rows = (y.orc yt).cl.size := by
    rw [← h3]; cases xt
    · exact hB
    · exact hA
  have hk1 : (if xt then x.B else x.A).cols = x.k := by cases xt; exacts [ho.1, ho.2]
  have hk2 : (if xt then x.A else x.B).cols = x.k := by cases xt; exacts [ho.2, ho.1]
  have hP0 : ∀ r c, ¬ (r ∈ seg z.rc ∧ c ∈ seg z.cc) → prod alpha xt (.rk xr xc x) yt y r c = 0 := by
    intro r c h; refine prod_out hx hy ?_; rw [← h1, ← h2]; exact h
  unfold addmulXr
  rw [copy_tot (atrans := false) hdr hk1, ok_bind]
  have d1 : (if xt then x.A else x.B).orows false = (y.occ (!yt)).cl.size := by rw [occ_not]; exact hdc
  have d2 : (if xt then x.A else x.B).ocols false = (VMat.zero z.csize x.k : VMat K).ocols false := hk2
  have d3 : (VMat.zero z.csize x.k : VMat K).orows false = (y.orc (!yt)).cl.size := by
    rw [orc_not]; show z.csize = _; rw [csize, h2]
  refine Tot.bind (addmulHAA_tot (star alpha) (!yt) false false hy d1 d2 d3) ?_
  rintro B - hB'
  refine rk_upd hT hz ⟨rfl, hB'.2.1⟩ rfl hB'.1 (fun i hi j hj => ?_) hP0
  unfold prod
  rw [h3]
  have hl : ∀ l ∈ seg (y.orc yt), ohval xt (.rk xr xc x : HV G K) (z.rc.cl.off + i) l = _ := fun l hl =>
    ohval_rk xt (by rw [← h1, mem_seg]; unfold rsize at hi; omega) (by rw [h3]; exact hl)
  rw [Finset.sum_congr rfl fun l h => by rw [hl l h], h3, ← h1, Nat.add_sub_cancel_left]
  have hBe : ∀ nu < x.k, star (B.e j nu) = alpha * ∑ l ∈ seg (y.orc yt), ohval yt y l (z.cc.cl.off + j) *
      star ((if xt then x.A else x.B).e (l - (y.orc yt).cl.off) nu) := by
    intro nu hnu
    have := mulLocal hB' d1 d2 d3 (i := j) (k := nu) hj hnu
    rw [orc_not, occ_not, ← h2] at this
    rw [show B.e j nu = B.oe false j nu from rfl, this, star_add, star_mul', star_star, star_sum]
    simp only [VMat.zero, VMat.oe, Bool.false_eq_true, if_false, star_zero, zero_add]
    congr 1
    refine Finset.sum_congr rfl fun l _ => ?_
    rw [star_mul', star_ohval_not]
  unfold rkVal
  show ∑ nu ∈ Finset.range x.k, (if xt then x.B else x.A).e i nu * star (B.e j nu) = _
  rw [Finset.sum_congr rfl fun nu hnu => by rw [hBe nu (Finset.mem_range.1 hnu)]]
  simp only [Finset.mul_sum, Finset.sum_mul]
  rw [Finset.sum_comm]
  refine Finset.sum_congr rfl fun l _ => Finset.sum_congr rfl fun nu _ => ?_
  ring

theorem addmulYf_tot {T : TruncOps K} (hT : Lossless T) (alpha : K) (xt yt : Bool) {yr yc : CRef G} {yf : VMat K}
    {x z : HV G K} (hx : HVOk x) (hy : HVOk (.full yr yc yf : HV G K)) (hz : HVOk z)
    (h1 : z.rc = x.orc xt) (h2 : z.cc = occ yt (.full yr yc yf : HV G K)) (h3 : x.occ xt = orc yt (.full yr yc yf : HV G K)) :
    Tot (addmulYf T alpha xt x yt yf z) (fun z' => Upd z z' (prod alpha xt x yt (.full yr yc yf))) := by
  have hdc : yf.ocols yt = z.csize := by
    unfold csize; rw [h2]; cases yt
    · exact hy.2
    · exact hy.1
  have hdr : yf.orows yt = (x.occ xt).cl.size := by
    rw [h3]; cases yt
    · exact hy.1
    · exact hy.2
  have hP0 : ∀ r c, ¬ (r ∈ seg z.rc ∧ c ∈ seg z.cc) → prod alpha xt x yt (.full yr yc yf) r c = 0 := by
    intro r c h; refine prod_out hx hy ?_; rw [← h1, ← h2]; exact h
  have hprod : ∀ j < z.csize, ∀ r, prod alpha xt x yt (.full yr yc yf) r (z.cc.cl.off + j) =
      alpha * ∑ l ∈ seg (x.occ xt), ohval xt x r l * yf.oe yt (l - (x.occ xt).cl.off) j := by
    intro j hj r
    unfold prod
    congr 1
    refine Finset.sum_congr rfl fun l hl => ?_
    rw [ohval_full yt (by rw [← h3]; exact hl) (by rw [← h2, mem_seg]; unfold csize at hj; omega), ← h3, ← h2,
      Nat.add_sub_cancel_left]
  have notfull : Tot (if yf.orows yt < yf.ocols yt then do
      let B ← yf.copy (!yt) z.csize (yf.orows yt)
      let A ← addmulHAA alpha xt x false (.ident (yf.orows yt) (yf.orows yt)) false (.zero z.rsize (yf.orows yt))
      addRkH T 1 ⟨A, B, yf.orows yt⟩ z
    else do
      let A ← addmulHAA alpha xt x yt yf false (.zero z.rsize (yf.ocols yt))
      addRkH T 1 ⟨A, .ident z.csize (yf.ocols yt), yf.ocols yt⟩ z)
      (fun z' => Upd z z' (prod alpha xt x yt (.full yr yc yf))) := by
    by_cases hlt : yf.orows yt < yf.ocols yt
    · rw [if_pos hlt, copy_tot (by rw [orows_not]; exact hdc) (by rw [ocols_not]), ok_bind]
      have d1 : (VMat.ident (yf.orows yt) (yf.orows yt) : VMat K).orows false = (x.occ xt).cl.size := hdr
      have d2 : (VMat.ident (yf.orows yt) (yf.orows yt) : VMat K).ocols false =
        (VMat.zero z.rsize (yf.orows yt) : VMat K).ocols false := rfl
      have d3 : (VMat.zero z.rsize (yf.orows yt) : VMat K).orows false = (x.orc xt).cl.size := by
        show z.rsize = _; rw [rsize, h1]
      refine Tot.bind (addmulHAA_tot alpha xt false false hx d1 d2 d3) ?_
      rintro A - hA
      refine rk_upd hT hz ⟨hA.2.1, rfl⟩ hA.1 rfl (fun i hi j hj => ?_) hP0
      rw [hprod j hj]
      have hAe : ∀ nu < yf.orows yt, A.e i nu = alpha * ohval xt x (z.rc.cl.off + i) ((x.occ xt).cl.off + nu) := by
        intro nu hnu
        have := mulLocal hA d1 d2 d3 (i := i) (k := nu) hi hnu
        rw [← h1] at this
        rw [show A.e i nu = A.oe false i nu from rfl, this, ← sum_seg_single (t := x.occ xt) (f := fun l => ohval xt x (z.rc.cl.off + i) l) (nu := nu) (by omega)]
        simp only [VMat.zero, VMat.oe, VMat.ident, Bool.false_eq_true, if_false, zero_add, eq_comm]
      rw [sum_seg, ← hdr, Finset.mul_sum]
      unfold rkVal
      refine Finset.sum_congr rfl fun nu hnu => ?_
      rw [hAe nu (Finset.mem_range.1 hnu), Nat.add_sub_cancel_left]
      show _ * star (yf.oe (!yt) j nu) = _
      rw [star_oe_not, mul_assoc]
    · rw [if_neg hlt]
      have d1 : yf.orows yt = (x.occ xt).cl.size := hdr
      have d2 : yf.ocols yt = (VMat.zero z.rsize (yf.ocols yt) : VMat K).ocols false := rfl
      have d3 : (VMat.zero z.rsize (yf.ocols yt) : VMat K).orows false = (x.orc xt).cl.size := by
        show z.rsize = _; rw [rsize, h1]
      refine Tot.bind (addmulHAA_tot alpha xt yt false hx d1 d2 d3) ?_
      rintro A - hA
      refine rk_upd hT hz ⟨hA.2.1, rfl⟩ hA.1 rfl (fun i hi j hj => ?_) hP0
      rw [hprod j hj]
      have hj' : j < yf.ocols yt := by omega
      have := mulLocal hA d1 d2 d3 (i := i) (k := j) hi hj'
      rw [← h1] at this
      unfold rkVal
      rw [Finset.sum_eq_single j]
      · show A.oe false i j * star (if j = j then (1 : K) else 0) = _
        rw [if_pos rfl, star_one, mul_one, this]
        simp only [VMat.zero, VMat.oe, Bool.false_eq_true, if_false, zero_add]
      · intro b _ hb
        show _ * star (if j = b then (1 : K) else 0) = 0
        rw [if_neg (fun h => hb h.symm), star_zero, mul_zero]
      · intro h; exact absurd (Finset.mem_range.2 hj') h
  unfold addmulYf
  cases z with
  | rk t s w => exact notfull
  | super t s m n son => exact notfull
  | full t s zf =>
    have d2 : yf.ocols yt = zf.ocols false := by rw [hdc]; exact hz.2.symm
    have d3 : zf.orows false = (x.orc xt).cl.size := by rw [← h1]; exact hz.1
    refine Tot.bind (addmulHAA_tot alpha xt yt false hx hdr d2 d3) ?_
    rintro zf' - hB
    refine Tot.pure ⟨⟨rfl, rfl⟩, ⟨hB.1.trans hz.1, hB.2.1.trans hz.2⟩, fun r c => ?_⟩
    by_cases h : r ∈ seg t ∧ c ∈ seg s
    · have h' := h
      rw [mem_seg, mem_seg] at h'
      obtain ⟨i, rfl⟩ : ∃ i, r = t.cl.off + i := ⟨r - t.cl.off, by omega⟩
      obtain ⟨j, rfl⟩ : ∃ j, c = s.cl.off + j := ⟨c - s.cl.off, by omega⟩
      have e1 := hz.1
      have e2 := hz.2
      have := mulLocal hB hdr d2 d3 (i := i) (k := j) (by show i < zf.rows; omega) (by show j < zf.cols; omega)
      rw [← h1] at this
      rw [hval_full, hval_full, if_pos h, if_pos h, Nat.add_sub_cancel_left, Nat.add_sub_cancel_left]
      have hp := hprod j (by show j < s.cl.size; omega) (t.cl.off + i)
      replace hp : prod alpha xt x yt (.full yr yc yf) (t.cl.off + i) (s.cl.off + j) = _ := hp
      rw [hp]
      exact this
    · rw [hval_full, hval_full, if_neg h, if_neg h, hP0 r c h, add_zero]

theorem addmulYr_tot {T : TruncOps K} (hT : Lossless T) (alpha : K) (xt yt : Bool) {yr yc : CRef G} {y : VRk K}
    {x z : HV G K} (hx : HVOk x) (hy : HVOk (.rk yr yc y : HV G K)) (hz : HVOk z)
    (h1 : z.rc = x.orc xt) (h2 : z.cc = occ yt (.rk yr yc y : HV G K)) (h3 : x.occ xt = orc yt (.rk yr yc y : HV G K)) :
    Tot (addmulYr T alpha xt x yt y z) (fun z' => Upd z z' (prod alpha xt x yt (.rk yr yc y))) := by
  have hy' := hy
  obtain ⟨ho, hA, hB⟩ := hy'
  have hdc : (if yt then y.A else y.B).rows = z.csize := by
    unfold csize; rw [h2]; cases yt
    · exact hB
    · exact hA
  have hdr : (if yt then y.B else y.A).rows = (x.occ xt).cl.size := by
    rw [h3]; cases yt
    · exact hA
    · exact hB
  have hk1 : (if yt then y.B else y.A).cols = y.k := by cases yt; exacts [ho.1, ho.2]
  have hk2 : (if yt then y.A else y.B).cols = y.k := by cases yt; exacts [ho.2, ho.1]
  have hP0 : ∀ r c, ¬ (r ∈ seg z.rc ∧ c ∈ seg z.cc) → prod alpha xt x yt (.rk yr yc y) r c = 0 := by
    intro r c h; refine prod_out hx hy ?_; rw [← h1, ← h2]; exact h
  unfold addmulYr
  rw [copy_tot (atrans := false) hdc hk2, ok_bind]
  have d1 : (if yt then y.B else y.A).orows false = (x.occ xt).cl.size := hdr
  have d2 : (if yt then y.B else y.A).ocols false = (VMat.zero z.rsize y.k : VMat K).ocols false := hk1
  have d3 : (VMat.zero z.rsize y.k : VMat K).orows false = (x.orc xt).cl.size := by
    show z.rsize = _; rw [rsize, h1]
  refine Tot.bind (addmulHAA_tot alpha xt false false hx d1 d2 d3) ?_
  rintro A - hA'
  refine rk_upd hT hz ⟨hA'.2.1, rfl⟩ hA'.1 rfl (fun i hi j hj => ?_) hP0
  unfold prod
  have hl : ∀ l ∈ seg (x.occ xt), ohval yt (.rk yr yc y : HV G K) l (z.cc.cl.off + j) = _ := fun l hl =>
    ohval_rk yt (by rw [← h3]; exact hl) (by rw [← h2, mem_seg]; unfold csize at hj; omega)
  rw [Finset.sum_congr rfl fun l h => by rw [hl l h], ← h3, ← h2, Nat.add_sub_cancel_left]
  have hAe : ∀ nu < y.k, A.e i nu = alpha * ∑ l ∈ seg (x.occ xt), ohval xt x (z.rc.cl.off + i) l *
      (if yt then y.B else y.A).e (l - (x.occ xt).cl.off) nu := by
    intro nu hnu
    have := mulLocal hA' d1 d2 d3 (i := i) (k := nu) hi hnu
    rw [← h1] at this
    rw [show A.e i nu = A.oe false i nu from rfl, this]
    simp only [VMat.zero, VMat.oe, Bool.false_eq_true, if_false, zero_add]
  unfold rkVal
  show ∑ nu ∈ Finset.range y.k, A.e i nu * star ((if yt then y.A else y.B).e j nu) = _
  rw [Finset.sum_congr rfl fun nu hnu => by rw [hAe nu (Finset.mem_range.1 hnu)]]
  simp only [Finset.mul_sum, Finset.sum_mul]
  rw [Finset.sum_comm]
  refine Finset.sum_congr rfl fun l _ => Finset.sum_congr rfl fun nu _ => ?_
  ring

end HV
end H2
