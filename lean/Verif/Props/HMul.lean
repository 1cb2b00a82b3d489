import Verif.Spec.HMul
import Verif.Proof.HMul3
import Verif.Props.HSolve

/-! # C70: multiplication by triangular H-matrices, evaluation of LR and Cholesky factorizations -/

set_option linter.unusedSectionVars false

namespace H2.Props
open Spec HV Dense
variable {G K : Type} [Field K] [StarRing K]

/-- `triangularmul_hmatrix_amatrix` overwrites a dense matrix `X` with any number of columns, or its adjoint, by the product with a
triangular part of an H-matrix or its adjoint; it never fails. -/
theorem C70_mul_dense (lower unit atrans xtrans : Bool) {a : HV G K} {x : VMat K} (ha : HVOk a) (hs : SqOk a)
    (hx : x.orows xtrans = a.rsize) :
    ∃ x', triMulHA lower unit atrans xtrans a x = .ok x' ∧ x'.rows = x.rows ∧ x'.cols = x.cols ∧
      ∀ i < a.rsize, ∀ q < x.ocols xtrans,
        x'.oe xtrans i q = ∑ j ∈ Finset.range a.rsize, op atrans (tri lower unit (hentry a)) i j * x.oe xtrans j q := by
  obtain ⟨x', e, h1, h2, h3⟩ := triMulHA_tot (lower := lower) (unit := unit) (atrans := atrans) (xtrans := xtrans) (x := x) ha hs hx
  refine ⟨x', e, h1.symm, h2.symm, fun i hi q hq => ?_⟩
  have hi' : i < a.rc.cl.size := hi
  have hx' : x.orows xtrans = a.rc.cl.size := hx
  have er : x'.orows xtrans = a.rc.cl.size := by unfold VMat.orows at *; rw [← h1, ← h2]; exact hx
  have ec : x'.ocols xtrans = x.ocols xtrans := by unfold VMat.ocols; rw [← h1, ← h2]
  have := h3 (a.rc.cl.off + i) (by rw [mem_seg]; omega) q
  unfold oat at this
  rw [sum_seg, er, ec, if_pos ⟨by omega, hq⟩, Nat.add_sub_cancel_left] at this
  rw [← this]
  refine Finset.sum_congr rfl fun j hj => ?_
  have hj' : j < a.rc.cl.size := Finset.mem_range.mp hj
  rw [hx', if_pos ⟨by omega, hq⟩, Nat.add_sub_cancel_left]
  congr 1
  have e2 : hentry a = fun i j => hval a (a.rc.cl.off + i) (a.rc.cl.off + j) := by funext i j; unfold hentry; rw [← hs.eq]
  have e3 := fun i j => HV.tri_shift lower unit (hval a) a.rc.cl.off i j
  rw [e2]
  unfold op
  rw [e3, e3]

/-- With lossless truncated operations, `triangularmul_hmatrix` overwrites an H-matrix `X`, or its adjoint, by the product with a
triangular part of an H-matrix or its adjoint and keeps the block structure of `X`.  In the case of a lower triangular matrix and the
adjoint of `X`, the number of block rows of `X` has to match the number of sons of `A`, cf. `C70_mul_defect`. -/
theorem C70_mul {T : TruncOps K} (hT : Lossless T) (lower unit atrans xtrans : Bool) {a x : HV G K} (ha : HVOk a) (ha' : HVStd a)
    (hs : SqOk a) (hx : HVOk x) (hx' : HVStd x) (hc : a.rc = if xtrans then x.cc else x.rc)
    (hm : lower = true → atrans = false → xtrans = true → RowsMatch a x) :
    ∃ x', triangularmulH T lower unit atrans a xtrans x = .ok x' ∧ SameShape x x' ∧ HVOk x' ∧
      ∀ i < a.rsize, ∀ q, ohentry xtrans x' i q =
        ∑ j ∈ Finset.range a.rsize, op atrans (tri lower unit (hentry a)) i j * ohentry xtrans x j q := by
  obtain ⟨x', e, h1, h2, h3⟩ := triMulH_tot hT (lower := lower) (unit := unit) (atrans := atrans) (xt := xtrans) (.refl x) hx hx' ha
    ha' hs hc hm
  refine ⟨x', e, h1, h2, fun i hi q => ?_⟩
  have hi' : i < a.rc.cl.size := hi
  have hc' : x.orc xtrans = a.rc := hc.symm
  rw [hc'] at h3
  have := h3 (a.rc.cl.off + i) (by rw [mem_seg]; omega) ((x.occ xtrans).cl.off + q)
  rw [sum_seg] at this
  have o2 := ohentry_ohval xtrans x' i q
  rw [h1.orc, h1.occ, hc'] at o2
  rw [← o2, this]
  refine Finset.sum_congr rfl fun j hj => ?_
  have o1 := ohentry_ohval xtrans x j q
  rw [hc'] at o1
  rw [← o1]
  congr 1
  have e2 : hentry a = fun i j => hval a (a.rc.cl.off + i) (a.rc.cl.off + j) := by funext i j; unfold hentry; rw [← hs.eq]
  have e3 := fun i j => HV.tri_shift lower unit (hval a) a.rc.cl.off i j
  rw [e2]
  unfold op
  rw [e3, e3]

/-- The condition in `C70_mul` cannot be dropped: the product of the lower triangular part of a subdivided H-matrix and the adjoint of
a subdivided H-matrix `X` fails with an assertion whenever the number of block rows of `X` (which is irrelevant for the product)
differs from the number of sons of `A`. -/
theorem C70_mul_defect {T : TruncOps K} (unit : Bool) {t s : CRef G} {am : Nat} {as : Fin am → Fin am → HV G K} {p q : CRef G}
    {m n : Nat} {xs : Fin m → Fin n → HV G K} (hs : SqOk (.super t s am am as)) (hx : HVOk (.super p q m n xs)) (hc : t = q)
    (hne : m ≠ am) : triangularmulH T true unit false (.super t s am am as) true (.super p q m n xs) = .error .assertFail := by
  unfold triangularmulH
  rw [triMulH]
  have e1 : t = s := hs.eq
  subst hc e1
  obtain ⟨h1, h2, -⟩ := hx
  have e0 : ∃ x0, getSon xs 0 0 = .ok x0 := by
    unfold getSon
    rw [dif_pos ⟨by omega, by omega⟩]
    exact ⟨_, rfl⟩
  obtain ⟨x0, e0⟩ := e0
  show (cassert (t.same t) >>= fun _ => cassert (t.same t) >>= fun _ => _) = _
  rw [cassert_true (same_refl _)]
  simp only [ok_bind]
  rw [e0]
  simp only [ok_bind, sonsFor]
  rw [cassert_true (decide_eq_true trivial)]
  simp only [ok_bind]
  unfold checkedSons
  simp only [if_true, Bool.not_false, Bool.and_true]
  unfold cassert
  rw [if_neg (by simpa using hne)]
  rfl

/-- `triangulareval_hmatrix_avector` multiplies a vector by a triangular part of an H-matrix or by its adjoint; argument and result are
given in the original numbering.  Only `x` is changed, the auxiliary vector is released. -/
theorem C70_triangulareval (lower unit trans : Bool) {a : HMat G} {idx : Arr Nat} {px : Nat} {junk : Nat → K} {x : Vec} {m : Mem K}
    (ho : HOk a) (hs : HSqOk a) (hv : HValid m a) (hp : IsPerm idx a.rc.cl.off a.rsize) (hx : x.Valid m) (hxd : x.dim = a.rsize)
    (hfr : Fresh m px x.dim) :
    ∃ X m', HMat.triangulareval idx px junk lower unit trans a x m = .ok m' ∧ VecBecomes x m X m' ∧
      ∀ i < a.rsize, X (idx.v (a.rc.cl.off + i)) = ∑ j ∈ Finset.range a.rsize,
        op trans (tri lower unit (hentry (readH m a))) i j * x.val m (idx.v (a.rc.cl.off + j)) := by
  have he : hentry (readH m a) = fun i j => place m a (a.rc.cl.off + i) (a.rc.cl.off + j) := by
    funext i j; exact hentry_readH hs i j
  rw [he]
  have := HMat.permutedMul_tot (px := px) (junk := junk) (f := HMat.triMulVec lower unit trans a) hp hx hxd hfr
    (M := op trans (tri lower unit fun i j => place m a (a.rc.cl.off + i) (a.rc.cl.off + j))) (fun xp m1 h1 h2 h3 => by
      obtain ⟨f1, f2⟩ := HMat.place_old ho hv fun c hc => (h1 c hc).1
      refine (HMat.triMulVec_local ho hs f1 h2 (fun c hc => (h1 c (HMat.valid_cells hv c hc)).2) h3).mono ?_
      rintro m2 ⟨g1, g2, g3⟩
      simp only [f2] at g3
      exact ⟨g1, g2, g3⟩)
  obtain ⟨m', e, X, h1, h2⟩ := this
  refine ⟨X, m', ?_, h1, h2⟩
  unfold HMat.triangulareval
  rw [cassert_true (by rw [← hs.eq]; exact same_refl _)]
  exact e

/-- If the triangles of an H-matrix contain `L` and `R` with `L R = A`, `lreval_hmatrix_avector` computes `A x` or `A^* x`; argument
and result are given in the original numbering of the degrees of freedom.  Only `x` is changed. -/
theorem C70_lreval (trans : Bool) {a : HMat G} {idx : Arr Nat} {px : Nat} {junk : Nat → K} {x : Vec} {m : Mem K} (ho : HOk a)
    (hs : HSqOk a) (hv : HValid m a) (hp : IsPerm idx a.rc.cl.off a.rsize) (hx : x.Valid m) (hxd : x.dim = a.rsize)
    (hfr : Fresh m px x.dim) {A D : Nat → Nat → K}
    (hA : ∀ i < a.rsize, ∀ j < a.rsize, ∑ l ∈ Finset.range a.rsize,
      tri true true (hentry (readH m a)) i l * tri false false (hentry (readH m a)) l j = A i j)
    (hAD : InDofs idx a.rc.cl.off a.rsize A D) :
    ∃ X m', HMat.lreval idx px junk trans a x m = .ok m' ∧ VecBecomes x m X m' ∧
      ∀ p < a.rsize, X p = ∑ q ∈ Finset.range a.rsize, op trans D p q * x.val m q := by
  have he : hentry (readH m a) = fun i j => place m a (a.rc.cl.off + i) (a.rc.cl.off + j) := by
    funext i j; exact hentry_readH hs i j
  rw [he] at hA
  have := HMat.permutedMul_tot (px := px) (junk := junk) (f := fun xp m => if trans then do
      let m ← HMat.triMulVec true true true a xp m
      HMat.triMulVec false false true a xp m
    else do
      let m ← HMat.triMulVec false false false a xp m
      HMat.triMulVec true true false a xp m) hp hx hxd hfr (M := op trans A) (fun xp m1 h1 h2 h3 => by
      obtain ⟨f1, f2⟩ := HMat.place_old ho hv fun c hc => (h1 c hc).1
      have hdj : Disj (HCell a) xp.Cell := fun c hc => (h1 c (HMat.valid_cells hv c hc)).2
      by_cases ht : trans = true
      · rw [if_pos ht]
        refine HMat.mul2_tot ho hs f1 h2 hdj h3 true true true false false true ?_
        intro r hr c hc
        rw [ht]
        simp only [op, f2, if_true]
        rw [← hA c hc r hr, star_sum]
        refine Finset.sum_congr rfl fun l _ => ?_
        rw [star_mul']
        ring
      · rw [if_neg ht]
        refine HMat.mul2_tot ho hs f1 h2 hdj h3 false false false true true false ?_
        intro r hr c hc
        rw [Bool.eq_false_of_not_eq_true ht]
        simp only [op, f2, Bool.false_eq_true, if_false]
        exact (hA r hr c hc).symm)
  obtain ⟨m', e, X, h1, h2⟩ := this
  refine ⟨X, m', e, h1, fun p hpn => ?_⟩
  obtain ⟨i, hi, rfl⟩ := hp.surj hpn
  rw [HMat.sum_perm hp, h2 i hi]
  refine Finset.sum_congr rfl fun j hj => ?_
  have hj := Finset.mem_range.mp hj
  congr 1
  unfold op
  rw [hAD i hi j hj, hAD j hj i hi]

/-- `lrdecomp_hmatrix` followed by `lreval_hmatrix_avector` multiplies by `A` or `A^*`: if the decomposition of an H-matrix `a`
with lossless truncated operations has been successful and `h` contains its result, the evaluation never fails and returns the
product with the matrix `D` represented by `a` in the original numbering of the degrees of freedom. -/
theorem C70_lrdecomp_lreval {T : TruncOps K} (hT : Lossless T) (trans : Bool) {a a' : HV G K} (ha : HVOk a) (ha' : HVStd a) (hs : SqOk a)
    (hd : DiagSizes a) (hlr : lrdecompH T a a = .ok a') {h : HMat G} {m : Mem K} (hh : HOk h) (hv : HValid m h) (hst : Stores m h a')
    {idx : Arr Nat} (hp : IsPerm idx a.rc.cl.off a.rsize) {D : Nat → Nat → K} (hD : InDofs idx a.rc.cl.off a.rsize (hentry a) D)
    {px : Nat} {junk : Nat → K} {x : Vec} (hx : x.Valid m) (hxd : x.dim = a.rsize) (hfr : Fresh m px x.dim) :
    ∃ X m', HMat.lreval idx px junk trans h x m = .ok m' ∧ VecBecomes x m X m' ∧
      ∀ p < a.rsize, X p = ∑ q ∈ Finset.range a.rsize, op trans D p q * x.val m q := by
  rcases C45_lrdecomp hT ha ha' hs hd with ⟨-, a1, e, h1, h2, h3, h4⟩ | ⟨-, e⟩
  · obtain rfl : a1 = a' := Except.ok.inj (e.symm.trans hlr)
    obtain ⟨s1, s2⟩ := hst
    have hq : SqOk (readH m h) := sqOk_same (h1.trans s1) hs
    have hq' : HSqOk h := HMat.readH_sq hq
    have erc : h.rc = a.rc := by rw [← (HMat.readH_rc (m := m) h).1, s1.rc, h1.rc]
    have ers : h.rsize = a.rsize := by unfold HMat.rsize HV.rsize; rw [erc]
    have e1 : a1.rsize = a.rsize := by unfold HV.rsize; rw [h1.rc]
    have e2 : a1.csize = a.rsize := by unfold HV.rsize HV.csize; rw [h1.cc, hs.eq]
    rw [e1, e2] at s2
    rw [← ers, ← erc] at hp hD
    have := C70_lreval trans hh hq' hv hp hx (by rw [ers]; exact hxd) hfr (junk := junk) (px := px) (A := hentry a) (D := D)
      (fun i hi j hj => by
        rw [ers] at hi hj ⊢
        rw [← h4 i hi j hj]
        refine Finset.sum_congr rfl fun l hl => ?_
        have hl := Finset.mem_range.mp hl
        rw [tri_congr (s2 i hi l hl) (s2 i hi i hi), tri_congr (s2 l hl j hj) (s2 l hl l hl)]) hD
    rw [ers] at this
    exact this
  · rw [e] at hlr; cases hlr

/-- If the lower triangle of an H-matrix contains `L` with `L L^* = A`, `choleval_hmatrix_avector` computes `A x`; argument and result
are given in the original numbering of the degrees of freedom.  Only `x` is changed. -/
theorem C70_choleval {a : HMat G} {idx : Arr Nat} {px : Nat} {junk : Nat → K} {x : Vec} {m : Mem K} (ho : HOk a)
    (hs : HSqOk a) (hv : HValid m a) (hp : IsPerm idx a.rc.cl.off a.rsize) (hx : x.Valid m) (hxd : x.dim = a.rsize)
    (hfr : Fresh m px x.dim) {A D : Nat → Nat → K}
    (hA : ∀ i < a.rsize, ∀ j < a.rsize, ∑ l ∈ Finset.range a.rsize,
      tri true false (hentry (readH m a)) i l * star (tri true false (hentry (readH m a)) j l) = A i j)
    (hAD : InDofs idx a.rc.cl.off a.rsize A D) :
    ∃ X m', HMat.choleval idx px junk a x m = .ok m' ∧ VecBecomes x m X m' ∧
      ∀ p < a.rsize, X p = ∑ q ∈ Finset.range a.rsize, D p q * x.val m q := by
  have he : hentry (readH m a) = fun i j => place m a (a.rc.cl.off + i) (a.rc.cl.off + j) := by
    funext i j; exact hentry_readH hs i j
  rw [he] at hA
  have := HMat.permutedMul_tot (px := px) (junk := junk) (f := fun xp m => do
      let m ← HMat.triMulVec true false true a xp m
      HMat.triMulVec true false false a xp m) hp hx hxd hfr (M := A) (fun xp m1 h1 h2 h3 => by
      obtain ⟨f1, f2⟩ := HMat.place_old ho hv fun c hc => (h1 c hc).1
      have hdj : Disj (HCell a) xp.Cell := fun c hc => (h1 c (HMat.valid_cells hv c hc)).2
      refine HMat.mul2_tot ho hs f1 h2 hdj h3 true false true true false false ?_
      intro r hr c hc
      simp only [op, f2, Bool.false_eq_true, if_false, if_true]
      exact (hA r hr c hc).symm)
  obtain ⟨m', e, X, h1, h2⟩ := this
  refine ⟨X, m', e, h1, fun p hpn => ?_⟩
  obtain ⟨i, hi, rfl⟩ := hp.surj hpn
  rw [HMat.sum_perm hp, h2 i hi]
  refine Finset.sum_congr rfl fun j hj => ?_
  rw [hAD i hi j (Finset.mem_range.mp hj)]

/-! ## the hypotheses can be met -/

/-- the factors `L` with rows `(1, 0)`, `(3, 1)` and `R` with rows `(1, 2)`, `(0, 1)`, followed by the vector `(11, 13)` -/
def hMem70 : Mem ℚ := fun c => if c = 0 then some 1 else if c = 1 then some 2 else if c = 2 then some 3 else if c = 3 then some 1
  else if c = 4 then some 1 else if c = 5 then some 11 else if c = 6 then some 13 else none

theorem hMem70_ok : HOk hM ∧ HSqOk hM ∧ HValid hMem70 hM ∧ IsPerm ⟨2, fun i => 1 - i⟩ hM.rc.cl.off hM.rsize ∧ Vec.Valid ⟨5, 2⟩ hMem70 ∧
    Fresh hMem70 10 2 := by
  have rd := hM_read hMem70
  have isSome : ∀ c < 7, (hMem70 c).isSome := by decide
  obtain ⟨o1, -, o3, -⟩ := hson2_ok (K := ℚ) ⟨1, 1, Mat.val ⟨0, 1, 1, 1⟩ hMem70⟩ ⟨1, 1, Mat.val ⟨1, 1, 1, 1⟩ hMem70⟩
    ⟨1, 1, Mat.val ⟨4, 1, 1, 1⟩ hMem70⟩ ⟨⟨1, 1, Mat.val ⟨2, 1, 1, 1⟩ hMem70⟩, ⟨1, 1, Mat.val ⟨3, 1, 1, 1⟩ hMem70⟩, 1⟩
    ⟨rfl, rfl⟩ ⟨rfl, rfl⟩ ⟨rfl, rfl⟩ ⟨⟨rfl, rfl⟩, rfl, rfl⟩
  rw [← rd] at o1 o3
  have mv : ∀ c < 7, Mat.Valid ⟨c, 1, 1, 1⟩ hMem70 := by
    intro c hc
    refine ⟨le_rfl, fun i hi j hj => ?_⟩
    replace hi : i < 1 := hi
    replace hj : j < 1 := hj
    exact isSome _ (by simp only [Mat.addr]; omega)
  refine ⟨HMat.readH_ok o1, HMat.readH_sq o3, ?_, ⟨le_rfl, fun i hi => by show 1 - (0 + i) < 2; omega, fun i hi j hj h => ?_⟩,
    fun i hi => isSome _ (by replace hi : i < 2 := hi; simp only [Vec.addr]; omega), fun c hc _ => ?_⟩
  · intro i j
    fin_cases i <;> fin_cases j
    · exact mv 0 (by omega)
    · exact mv 1 (by omega)
    · refine ⟨mv 2 (by omega), mv 3 (by omega), ?_, rfl, rfl⟩
      rintro c ⟨i, hi, j, hj, rfl⟩ ⟨i', hi', j', hj', e⟩
      simp only [Mat.addr] at *
      omega
    · exact mv 4 (by omega)
  · replace hi : i < 2 := hi
    replace hj : j < 2 := hj
    replace h : 1 - (0 + i) = 1 - (0 + j) := h
    omega
  · simp only [hMem70, show c ≠ 0 by omega, show c ≠ 1 by omega, show c ≠ 2 by omega, show c ≠ 3 by omega,
        show c ≠ 4 by omega, show c ≠ 5 by omega, show c ≠ 6 by omega, if_false]

theorem hMem70_entry {i j : Nat} (hi : i < 2) (hj : j < 2) : hentry (readH hMem70 hM) i j =
    if i = 0 then (if j = 0 then 1 else 2) else (if j = 0 then 3 else 1) := by
  rw [hM_read, hson2_entry _ _ _ _ hi hj]
  have v : ∀ {c : Nat} {i j : Nat}, Mat.val ⟨c, 1, 1, 1⟩ hMem70 i j = (hMem70 (c + (i + j * 1))).getD 0 := by
    intro c i j; rfl
  simp only [rkVal, v, hMem70]
  obtain rfl | rfl : i = 0 ∨ i = 1 := by omega
  all_goals obtain rfl | rfl : j = 0 ∨ j = 1 := by omega
  all_goals simp

/-- In the original numbering, `L R` is the matrix with rows `(7, 3)` and `(2, 1)`; its product with `(11, 13)` is `(116, 35)`. -/
example : ∃ X m', HMat.lreval ⟨2, fun i => 1 - i⟩ 10 (fun _ => 5) false hM ⟨5, 2⟩ hMem70 = .ok m' ∧
    VecBecomes ⟨5, 2⟩ hMem70 X m' ∧ X 0 = 116 ∧ X 1 = 35 := by
  obtain ⟨o1, o2, o3, o4, o5, o6⟩ := hMem70_ok
  have hsz : hM.rsize = 2 := rfl
  obtain ⟨X, m', e, h1, h2⟩ := C70_lreval false o1 o2 o3 o4 o5 rfl o6 (junk := fun _ => 5)
    (A := fun i j => if i = 0 then (if j = 0 then 1 else 2) else (if j = 0 then 3 else 7))
    (D := fun p q => if 1 - p = 0 then (if 1 - q = 0 then 1 else 2) else (if 1 - q = 0 then 3 else 7))
    (fun i hi j hj => by
      rw [hsz] at hi hj ⊢
      rw [Finset.sum_range_succ, Finset.sum_range_one]
      unfold tri
      simp only [hMem70_entry hi hi, hMem70_entry hi (show 0 < 2 by omega), hMem70_entry hi (show 1 < 2 by omega),
        hMem70_entry (show 0 < 2 by omega) hj, hMem70_entry (show 1 < 2 by omega) hj, hMem70_entry (show 0 < 2 by omega) (show 0 < 2 by omega),
        hMem70_entry (show 1 < 2 by omega) (show 1 < 2 by omega)]
      obtain rfl | rfl : i = 0 ∨ i = 1 := by omega
      all_goals obtain rfl | rfl : j = 0 ∨ j = 1 := by omega
      all_goals norm_num)
    (fun i hi j hj => by
      replace hi : i < 2 := hi
      replace hj : j < 2 := hj
      obtain rfl | rfl : i = 0 ∨ i = 1 := by omega
      all_goals obtain rfl | rfl : j = 0 ∨ j = 1 := by omega
      all_goals rfl)
  rw [hsz] at h2
  refine ⟨X, m', e, h1, ?_, ?_⟩
  · rw [h2 0 (by omega), Finset.sum_range_succ, Finset.sum_range_one]
    have e0 : Vec.val ⟨5, 2⟩ hMem70 0 = 11 := rfl
    have e1 : Vec.val ⟨5, 2⟩ hMem70 1 = 13 := rfl
    rw [e0, e1]
    norm_num [op]
  · rw [h2 1 (by omega), Finset.sum_range_succ, Finset.sum_range_one]
    have e0 : Vec.val ⟨5, 2⟩ hMem70 0 = 11 := rfl
    have e1 : Vec.val ⟨5, 2⟩ hMem70 1 = 13 := rfl
    rw [e0, e1]
    norm_num [op]

/-- `C70_mul` applies to `hA` and itself in all cases. -/
example (lower unit atrans xtrans : Bool) : ∃ x', triangularmulH exactOps lower unit atrans hA xtrans hA = .ok x' ∧ SameShape hA x' ∧
    HVOk x' ∧ ∀ i < 2, ∀ q, ohentry xtrans x' i q =
      ∑ j ∈ Finset.range 2, op atrans (tri lower unit (hentry hA)) i j * ohentry xtrans hA j q := by
  obtain ⟨o1, o2, o3, o4⟩ : HVOk hA ∧ HVStd hA ∧ SqOk hA ∧ DiagSizes hA :=
    hson2_ok _ _ _ _ ⟨rfl, rfl⟩ ⟨rfl, rfl⟩ ⟨rfl, rfl⟩ ⟨⟨rfl, rfl⟩, rfl, rfl⟩
  refine C70_mul C46_lossless_exists lower unit atrans xtrans o1 o2 o3 o1 o2 (by cases xtrans <;> rfl) (fun _ _ _ => ?_)
  refine ⟨rfl, fun k i h => ?_⟩
  fin_cases k <;> fin_cases i <;> trivial

/-- an admissible operand for which the program fails: one block row and two block columns -/
def hRow70 : HV Nat ℚ := .super (kid hc2 0) hc2 1 2 fun _ j => .full (kid hc2 0) (kid hc2 j) ⟨1, 1, fun _ _ => 1⟩

/-- `hRow70` meets all conditions of `C70_mul` except for `RowsMatch`, and the program fails. -/
example : HVOk hRow70 ∧ HVStd hRow70 ∧ hA.rc = hRow70.cc ∧ ¬ RowsMatch hA hRow70 ∧
    triangularmulH exactOps true true false hA true hRow70 = .error .assertFail := by
  obtain ⟨o1, o2, o3, o4⟩ : HVOk hA ∧ HVStd hA ∧ SqOk hA ∧ DiagSizes hA :=
    hson2_ok _ _ _ _ ⟨rfl, rfl⟩ ⟨rfl, rfl⟩ ⟨rfl, rfl⟩ ⟨⟨rfl, rfl⟩, rfl, rfl⟩
  have seg1 : Segments (kid hc2 0) (fun _ : Fin 1 => kid hc2 0) := by
    constructor
    · decide
    · decide
  have seg2 : Segments hc2 (fun i : Fin 2 => kid hc2 i.1) := by
    constructor
    · decide
    · decide
  have ok : HVOk hRow70 := ⟨by omega, by omega, ⟨fun _ => kid hc2 0, fun i => kid hc2 i, fun i j => ⟨rfl, rfl⟩, seg1, seg2⟩,
    fun i j => by fin_cases j <;> exact ⟨rfl, rfl⟩⟩
  refine ⟨ok, ⟨Or.inr (by decide), by decide, by decide, fun i j => ?_⟩, rfl, fun h => absurd h.1 (by decide),
    C70_mul_defect true o3 ok rfl (by decide)⟩
  fin_cases i
  fin_cases j <;> exact ⟨rfl, rfl, trivial⟩

end H2.Props
