import Verif.Proof.HChol6
import Verif.Props.HSolve
import Verif.Props.FactorChol
import Verif.Props.Trunc

/-!
# C65: Cholesky decomposition of H-matrices

`herm A` is the self-adjoint matrix that has the lower triangle of `A`, `PD A n` says that its leading block of order `n` is positive
definite (Spec/FactorChol.lean).
-/

set_option linter.unusedSectionVars false

namespace H2.Props
open Spec HV Dense
variable {G K : Type} [Field K] [StarRing K] {𝕜 : Type} [RCLike 𝕜]

theorem entry_updLow {z z' : HV G K} {D : Nat → Nat → K} (h : UpdLow z z' D) (hz : z.rc = z.cc) {i j : Nat} (hij : j ≤ i) :
    hentry z' i j = hentry z i j + D (z.rc.cl.off + i) (z.cc.cl.off + j) := by
  unfold hentry
  rw [h.shape.rc, h.shape.cc, h.val _ _ (by rw [hz]; omega)]

/-- With lossless truncated operations, `addmul_lower_hmatrix` adds the lower triangular part of `alpha op(X) op(Y)` to the lower
triangular part of `Z`, for all block structures, and keeps the block structure of `Z`, unless `X` is transposed and `Y` is not. -/
theorem C65_addmul_lower {T : TruncOps K} (hT : Lossless T) (alpha : K) (xt yt : Bool) (hxy : ¬ (xt = true ∧ yt = false)) {x y z : HV G K}
    (hx : HVOk x) (hx' : HVStd x) (hy : HVOk y) (hy' : HVStd y) (hz : HVOk z) (hz' : HVStd z) (hs : SqOk z)
    (hr : z.rc = if xt then x.cc else x.rc) (hc : z.cc = if yt then y.rc else y.cc)
    (hm : (if xt then x.rc else x.cc) = if yt then y.cc else y.rc) :
    ∃ z', addmulLower T alpha xt yt x y z = .ok z' ∧ SameShape z z' ∧ HVOk z' ∧
      ∀ i j, j ≤ i → hentry z' i j = hentry z i j + alpha *
        ∑ l ∈ Finset.range (if xt then x.rc else x.cc).cl.size, ohentry xt x i l * ohentry yt y l j := by
  obtain ⟨z', e, h⟩ := (addmulLower_may hT alpha xt yt hx hx' hy hy' hz hz' hs hr hc hm).tot hxy
  refine ⟨z', e, h.shape, h.ok, fun i j hij => ?_⟩
  rw [entry_updLow h hs.eq hij]
  unfold prod
  rw [sum_seg]
  congr 2
  refine Finset.sum_congr rfl fun l _ => ?_
  rw [← ohentry_ohval, ← ohentry_ohval]
  have e1 : x.orc xt = z.rc := hr.symm
  have e2 : y.occ yt = z.cc := hc.symm
  have e3 : y.orc yt = x.occ xt := hm.symm
  rw [e1, e2, e3]

/-- In the remaining case `addmul_lower_hmatrix` picks the wrong block of `Y`: it runs into a failing assertion whenever the three
matrices are subdivided and their clusters have at least two sons, although all preconditions of the product are met. -/
theorem C65_addmul_lower_defect {T : TruncOps K} (hT : Lossless T) (alpha : K) {u t : CRef G} {xm xn ym yn m : Nat}
    {xs : Fin xm → Fin xn → HV G K} {ys : Fin ym → Fin yn → HV G K} {zs : Fin m → Fin m → HV G K}
    (hx : HVOk (.super u t xm xn xs)) (hx' : HVStd (.super u t xm xn xs)) (hy : HVOk (.super u t ym yn ys))
    (hy' : HVStd (.super u t ym yn ys)) (hz : HVOk (.super t t m m zs)) (hz' : HVStd (.super t t m m zs))
    (hs : SqOk (.super t t m m zs)) (h2 : 2 ≤ t.nsons) (h3 : 2 ≤ u.nsons) :
    addmulLower T alpha true false (.super u t xm xn xs) (.super u t ym yn ys) (.super t t m m zs) = .error .assertFail :=
  lower_defect hT alpha hx hx' hy hy' hz hz' hs h2 h3

/-- With lossless truncated operations, `choldecomp_hmatrix` overwrites the lower triangle of every H-matrix by a factor `L` with
real positive diagonal and `L L^* = A` and keeps the block structure, if the self-adjoint matrix `A` with this lower triangle is positive
definite.  Otherwise the assertion about the pivots of a diagonal block fails.  The strictly upper triangle has no influence. -/
theorem C65_choldecomp {T : TruncOps 𝕜} (hT : Lossless T) {a : HV G 𝕜} (ha : HVOk a) (ha' : HVStd a) (hs : SqOk a) (hd : DiagSizes a)
    (hreal : ∀ i < a.rsize, star (hentry a i i) = hentry a i i) :
    (PD (herm (hentry a)) a.rsize ∧ ∃ a', choldecompH T a a = .ok a' ∧ SameShape a a' ∧ HVOk a' ∧
      (∀ i < a.rsize, star (hentry a' i i) = hentry a' i i ∧ 0 < RCLike.re (hentry a' i i)) ∧ ∀ i < a.rsize, ∀ j < a.rsize,
        ∑ l ∈ Finset.range a.rsize, tri true false (hentry a') i l * star (tri true false (hentry a') j l) = herm (hentry a) i j) ∨
    (¬ PD (herm (hentry a)) a.rsize ∧ choldecompH T a a = .error .assertFail) := by
  rcases choldecompH_may hT (.refl a) ha ha' hs hd hreal with ⟨e, h⟩ | ⟨a', e, h1, h2, h3⟩
  · exact .inr ⟨fun hp => h (pd_cholInv hp hreal), e⟩
  · left
    have low : ∀ i < a.rsize, ∀ j ≤ i, ∑ l ∈ Finset.range a.rsize, tri true false (hentry a') i l * star (tri true false (hentry a') j l) =
        hentry a i j := by
      intro i hi j hj
      have := h3.2 i hi j hj
      rw [if_neg (by omega), add_zero] at this
      exact this.symm
    refine ⟨cholInv_pd h3, a', e, h1, h2, h3.1, fun i hi j hj => ?_⟩
    unfold herm
    by_cases hij : j ≤ i
    · rw [if_pos hij, low i hi j hij]
    · rw [if_neg hij, ← low j hj i (by omega), star_sum]
      refine Finset.sum_congr rfl fun l _ => ?_
      rw [star_mul', star_star, mul_comm]

/-- `choldecomp_hmatrix` with the truncated operations of the library over the real numbers and the tolerance zero. -/
theorem C65_choldecomp_real {env : TrEnv ℝ} (he : ExactEnv env) (tm : Option Trunc.Mode) {a : HV G ℝ} (ha : HVOk a) (ha' : HVStd a)
    (hs : SqOk a) (hd : DiagSizes a) :
    (PD (herm (hentry a)) a.rsize ∧ ∃ a', choldecompH (Tr.ops env tm 0) a a = .ok a' ∧ SameShape a a' ∧ HVOk a' ∧
      (∀ i < a.rsize, 0 < hentry a' i i) ∧ ∀ i < a.rsize, ∀ j < a.rsize,
        ∑ l ∈ Finset.range a.rsize, tri true false (hentry a') i l * tri true false (hentry a') j l = herm (hentry a) i j) ∨
    (¬ PD (herm (hentry a)) a.rsize ∧ choldecompH (Tr.ops env tm 0) a a = .error .assertFail) := by
  rcases C65_choldecomp (C63_lossless he tm) ha ha' hs hd fun i _ => star_trivial _ with ⟨h, a', e, h1, h2, h3, h4⟩ | h
  · exact .inl ⟨h, a', e, h1, h2, fun i hi => (h3 i hi).2, fun i hi j hj => by rw [← h4 i hi j hj]; simp⟩
  · exact .inr h

/-- `choldecomp_hmatrix` followed by `cholsolve_hmatrix_avector` solves `A x = b`: if the decomposition of an H-matrix `a` with lossless
truncated operations has been successful and `h` contains its result, the solver never fails and returns the solution of the system
with the self-adjoint matrix `D` represented by the lower triangle of `a` in the original numbering of the degrees of freedom. -/
theorem C65_choldecomp_cholsolve {T : TruncOps 𝕜} (hT : Lossless T) {a a' : HV G 𝕜} (ha : HVOk a) (ha' : HVStd a) (hs : SqOk a)
    (hd : DiagSizes a) (hreal : ∀ i < a.rsize, star (hentry a i i) = hentry a i i) (hch : choldecompH T a a = .ok a') {h : HMat G}
    {m : Mem 𝕜} (hh : HOk h) (hv : HValid m h) (hst : Stores m h a') {idx : Arr Nat} (hp : IsPerm idx a.rc.cl.off a.rsize)
    {D : Nat → Nat → 𝕜} (hD : InDofs idx a.rc.cl.off a.rsize (herm (hentry a)) D) {px : Nat} {junk : Nat → 𝕜} {x : Vec}
    (hx : x.Valid m) (hxd : x.dim = a.rsize) (hfr : Fresh m px x.dim) :
    ∃ X m', HMat.cholsolve idx px junk h x m = .ok m' ∧ VecBecomes x m X m' ∧
      ∀ p < a.rsize, ∑ q ∈ Finset.range a.rsize, D p q * X q = x.val m p := by
  rcases C65_choldecomp hT ha ha' hs hd hreal with ⟨-, a1, e, h1, h2, h3, h4⟩ | ⟨-, e⟩
  · obtain rfl : a1 = a' := Except.ok.inj (e.symm.trans hch)
    obtain ⟨s1, s2⟩ := hst
    have hq : SqOk (readH m h) := sqOk_same (h1.trans s1) hs
    have hq' : HSqOk h := HMat.readH_sq hq
    have erc : h.rc = a.rc := by rw [← (HMat.readH_rc (m := m) h).1, s1.rc, h1.rc]
    have ers : h.rsize = a.rsize := by unfold HMat.rsize HV.rsize; rw [erc]
    have e1 : a1.rsize = a.rsize := by unfold HV.rsize; rw [h1.rc]
    have e2 : a1.csize = a.rsize := by unfold HV.rsize HV.csize; rw [h1.cc, hs.eq]
    rw [e1, e2] at s2
    rw [← ers, ← erc] at hp hD
    have := C45_cholsolve hh hq' hv hp hx (by rw [ers]; exact hxd) hfr (junk := junk) (px := px) (A := herm (hentry a)) (D := D)
      (fun i hi => by rw [ers] at hi; rw [s2 i hi i hi]; exact re_pos_ne (h3 i hi).2) (fun i hi j hj => by
        rw [ers] at hi hj ⊢
        rw [← h4 i hi j hj]
        refine Finset.sum_congr rfl fun l hl => ?_
        have hl := Finset.mem_range.mp hl
        rw [Dense.tri_congr (s2 i hi l hl) (s2 i hi i hi), Dense.tri_congr (s2 j hj l hl) (s2 j hj j hj)]) hD
    rw [ers] at this
    exact this
  · rw [e] at hch; cases hch

/-! ## the hypotheses can be met -/

/-- the matrix with lower triangle `4`, `2`, `d` and a meaningless upper right block; the lower left block is of low rank -/
noncomputable def hC (d : ℝ) : HV Nat ℝ := .super hc2 hc2 2 2 (hson2 ⟨1, 1, fun _ _ => 4⟩ ⟨1, 1, fun _ _ => 77⟩ ⟨1, 1, fun _ _ => d⟩
  ⟨⟨1, 1, fun _ _ => 2⟩, ⟨1, 1, fun _ _ => 1⟩, 1⟩)

theorem hC_ok (d : ℝ) : HVOk (hC d) ∧ HVStd (hC d) ∧ SqOk (hC d) ∧ DiagSizes (hC d) :=
  hson2_ok _ _ _ _ ⟨rfl, rfl⟩ ⟨rfl, rfl⟩ ⟨rfl, rfl⟩ ⟨⟨rfl, rfl⟩, rfl, rfl⟩

theorem hC_entry (d : ℝ) {i j : Nat} (hi : i < 2) (hj : j < 2) :
    hentry (hC d) i j = if i = 0 then (if j = 0 then 4 else 77) else (if j = 0 then 2 else d) := by
  refine (hson2_entry _ _ _ _ hi hj).trans ?_
  simp [rkVal]

/-- The decomposition of `hC 5` succeeds with the operations of the library; the factor has the entries `2`, `1` and `2`. -/
example : ∃ a', choldecompH (Tr.ops trEnvEx none 0) (hC 5) (hC 5) = .ok a' ∧ hentry a' 0 0 = 2 ∧ hentry a' 1 0 = 1 ∧ hentry a' 1 1 = 2 := by
  obtain ⟨o1, o2, o3, o4⟩ := hC_ok 5
  have hsz : (hC 5).rsize = 2 := rfl
  rcases C65_choldecomp_real trEnvEx_ok none o1 o2 o3 o4 with ⟨-, a', e, -, -, h3, h4⟩ | ⟨h, -⟩
  · refine ⟨a', e, ?_⟩
    rw [hsz] at h3 h4
    have p0 := h3 0 (by omega)
    have p1 := h3 1 (by omega)
    have q00 := h4 0 (by omega) 0 (by omega)
    have q10 := h4 1 (by omega) 0 (by omega)
    have q11 := h4 1 (by omega) 1 (by omega)
    simp only [Finset.sum_range_succ, Finset.sum_range_zero, tri, herm, hC_entry 5 (show (0 : Nat) < 2 by omega) (show (0 : Nat) < 2 by omega),
      hC_entry 5 (show (1 : Nat) < 2 by omega) (show (0 : Nat) < 2 by omega), hC_entry 5 (show (1 : Nat) < 2 by omega) (show (1 : Nat) < 2 by omega)]
      at q00 q10 q11
    norm_num at q00 q10 q11
    have r0 : hentry a' 0 0 = 2 := by nlinarith
    rw [r0] at q10
    have r1 : hentry a' 1 0 = 1 := by linarith
    rw [r1] at q11
    exact ⟨r0, r1, by nlinarith⟩
  · exfalso
    refine h (cholInv_pd (F := fun i j => if i = 0 then 2 else if j = 0 then 1 else 2) ⟨fun j hj => ⟨star_trivial _, ?_⟩, fun r hr c hc => ?_⟩)
    · obtain rfl | rfl : j = 0 ∨ j = 1 := by omega
      all_goals norm_num
    · rw [hsz] at hr ⊢
      rw [hC_entry 5 hr (by omega)]
      obtain rfl | rfl : r = 0 ∨ r = 1 := by omega
      · obtain rfl : c = 0 := by omega
        norm_num [Finset.sum_range_succ, tri]
      · obtain rfl | rfl : c = 0 ∨ c = 1 := by omega
        all_goals norm_num [Finset.sum_range_succ, tri]

/-- The decomposition of the indefinite matrix `hC (-5)` fails. -/
example : choldecompH (Tr.ops trEnvEx none 0) (hC (-5)) (hC (-5)) = .error .assertFail := by
  obtain ⟨o1, o2, o3, o4⟩ := hC_ok (-5)
  have hsz : (hC (-5)).rsize = 2 := rfl
  rcases C65_choldecomp_real trEnvEx_ok none o1 o2 o3 o4 with ⟨-, a', e, -, -, h3, h4⟩ | ⟨h, e⟩
  · exfalso
    rw [hsz] at h4
    have q11 := h4 1 (by omega) 1 (by omega)
    simp only [Finset.sum_range_succ, Finset.sum_range_zero, tri, herm, hC_entry (-5) (show (1 : Nat) < 2 by omega) (show (1 : Nat) < 2 by omega)]
      at q11
    norm_num at q11
    nlinarith [mul_self_nonneg (hentry a' 1 0), mul_self_nonneg (hentry a' 1 1)]
  · exact e

/-- The hypotheses of `C65_addmul_lower_defect` and `C65_addmul_lower` are met by subdivided matrices; the product `X X^*` is computed
correctly, `X^* X` is not computed. -/
example (x00 x01 x10 x11 z : ℝ) : ∃ X Z : HV Nat ℝ,
    addmulLower exactOps 1 true false X X Z = .error .assertFail ∧
    ∃ z', addmulLower exactOps 1 false true X X Z = .ok z' ∧ hentry z' 1 0 = z + (x10 * x00 + x11 * x01) := by
  obtain ⟨o1, o2, -, -⟩ := hson2_ok (K := ℝ) ⟨1, 1, fun _ _ => x00⟩ ⟨1, 1, fun _ _ => x01⟩ ⟨1, 1, fun _ _ => x11⟩
    ⟨⟨1, 1, fun _ _ => x10⟩, ⟨1, 1, fun _ _ => 1⟩, 1⟩ ⟨rfl, rfl⟩ ⟨rfl, rfl⟩ ⟨rfl, rfl⟩ ⟨⟨rfl, rfl⟩, rfl, rfl⟩
  obtain ⟨p1, p2, p3, -⟩ := hson2_ok (K := ℝ) ⟨1, 1, fun _ _ => z⟩ ⟨1, 1, fun _ _ => z⟩ ⟨1, 1, fun _ _ => z⟩
    ⟨⟨1, 1, fun _ _ => z⟩, ⟨1, 1, fun _ _ => 1⟩, 1⟩ ⟨rfl, rfl⟩ ⟨rfl, rfl⟩ ⟨rfl, rfl⟩ ⟨⟨rfl, rfl⟩, rfl, rfl⟩
  refine ⟨_, _, C65_addmul_lower_defect C46_lossless_exists 1 o1 o2 o1 o2 p1 p2 p3 (by decide) (by decide), ?_⟩
  obtain ⟨z', e, -, -, h⟩ := C65_addmul_lower C46_lossless_exists 1 false true (by simp) o1 o2 o1 o2 p1 p2 p3 rfl rfl rfl
  refine ⟨z', e, ?_⟩
  rw [h 1 0 (by omega)]
  have e2 : (if false = true then hc2 else hc2).cl.size = 2 := rfl
  show _ + 1 * ∑ l ∈ Finset.range 2, _ = _
  simp only [Finset.sum_range_succ, Finset.sum_range_zero, ohentry, if_true, Bool.false_eq_true, if_false]
  rw [hson2_entry _ _ _ _ (by omega) (by omega), hson2_entry _ _ _ _ (by omega) (by omega), hson2_entry _ _ _ _ (by omega) (by omega),
    hson2_entry _ _ _ _ (by omega) (by omega), hson2_entry _ _ _ _ (by omega) (by omega)]
  simp [rkVal]

end H2.Props
