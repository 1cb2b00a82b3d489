import Verif.Proof.HSolve8
import Verif.Props.Harith

/-! # C45: triangular solves with H-matrices, LR decomposition, solving linear systems -/

set_option linter.unusedSectionVars false

namespace H2.Props
open Spec HV Dense
variable {G K : Type} [Field K] [StarRing K]

/-- The functions `lowersolve_xx_hmatrix_amatrix` and `uppersolve_xx_hmatrix_amatrix` solve `op(T) op(X') = op(X)` for the
triangular part `T` of an H-matrix and a dense matrix `X` with any number of columns; they never fail if the dense diagonal is
non-zero or counts as one. -/
theorem C45_solve_dense (lower unit atrans xtrans : Bool) {a : HV G K} {x : VMat K} (ha : HVOk a) (hs : SqOk a)
    (hx : x.orows xtrans = a.rsize) (hD : unit = false → ∀ i < a.rsize, hentry a i i ≠ 0) :
    ∃ x', triSolveHA lower unit atrans xtrans a x = .ok x' ∧ x'.rows = x.rows ∧ x'.cols = x.cols ∧
      ∀ i < a.rsize, ∀ q < x.ocols xtrans,
        ∑ j ∈ Finset.range a.rsize, op atrans (tri lower unit (hentry a)) i j * x'.oe xtrans j q = x.oe xtrans i q := by
  obtain ⟨x', e, h1, h2, h3⟩ := triSolveHA_tot (lower := lower) (unit := unit) (atrans := atrans) (xtrans := xtrans) (x := x) ha hs hx
    (fun hu r hr => by
      have hr := mem_seg.mp hr
      have := hD hu (r - a.rc.cl.off) (by unfold HV.rsize; omega)
      unfold hentry at this
      rw [← hs.eq, show a.rc.cl.off + (r - a.rc.cl.off) = r by omega] at this
      exact this)
  refine ⟨x', e, h1, h2, fun i hi q hq => ?_⟩
  have hi' : i < a.rc.cl.size := hi
  have hx' : x.orows xtrans = a.rc.cl.size := hx
  have er : x'.orows xtrans = a.rc.cl.size := by unfold VMat.orows at *; rw [h1, h2]; exact hx
  have ec : x'.ocols xtrans = x.ocols xtrans := by unfold VMat.ocols; rw [h1, h2]
  have := h3 (a.rc.cl.off + i) (by rw [mem_seg]; omega) q
  unfold oat at this
  rw [sum_seg, hx', if_pos ⟨by omega, hq⟩, Nat.add_sub_cancel_left] at this
  rw [← this]
  refine Finset.sum_congr rfl fun j hj => ?_
  have hj' : j < a.rc.cl.size := Finset.mem_range.mp hj
  rw [er, ec, if_pos ⟨by omega, hq⟩, Nat.add_sub_cancel_left]
  congr 1
  have e2 : hentry a = fun i j => hval a (a.rc.cl.off + i) (a.rc.cl.off + j) := by funext i j; unfold hentry; rw [← hs.eq]
  have e3 := fun i j => HV.tri_shift lower unit (hval a) a.rc.cl.off i j
  rw [e2]
  unfold op
  rw [e3, e3]

/-- With lossless truncated operations, `triangularinvmul_hmatrix` solves `op(T) op(X') = op(X)` for the triangular part `T` of an
H-matrix `A` and an H-matrix `X` for all flags and all block structures, and keeps the block structure of `X`. -/
theorem C45_solve {T : TruncOps K} (hT : Lossless T) (lower unit atrans xtrans : Bool) {a x : HV G K} (ha : HVOk a) (ha' : HVStd a)
    (hs : SqOk a) (hx : HVOk x) (hx' : HVStd x) (hc : a.rc = if xtrans then x.cc else x.rc)
    (hD : unit = false → ∀ i < a.rsize, hentry a i i ≠ 0) :
    ∃ x', triInvMul T lower unit atrans a xtrans x = .ok x' ∧ SameShape x x' ∧ HVOk x' ∧
      ∀ i < a.rsize, ∀ q, ∑ j ∈ Finset.range a.rsize, op atrans (tri lower unit (hentry a)) i j * ohentry xtrans x' j q =
        ohentry xtrans x i q := by
  obtain ⟨x', e, h1, h2, h3⟩ := triSolveH_tot hT (lower := lower) (unit := unit) (atrans := atrans) (xt := xtrans) (.refl x) hx hx' ha
    ha' hs hc (fun hu r hr => by
      have hr := mem_seg.mp hr
      have := hD hu (r - a.rc.cl.off) (by unfold HV.rsize; omega)
      unfold hentry at this
      rw [← hs.eq, show a.rc.cl.off + (r - a.rc.cl.off) = r by omega] at this
      exact this)
  refine ⟨x', e, h1, h2, fun i hi q => ?_⟩
  have hi' : i < a.rc.cl.size := hi
  have hc' : x.orc xtrans = a.rc := hc.symm
  rw [hc'] at h3
  have := h3 (a.rc.cl.off + i) (by rw [mem_seg]; omega) ((x.occ xtrans).cl.off + q)
  rw [sum_seg] at this
  have o1 := ohentry_ohval xtrans x i q
  rw [hc'] at o1
  rw [← o1, ← this]
  refine Finset.sum_congr rfl fun j hj => ?_
  have o2 := ohentry_ohval xtrans x' j q
  rw [h1.orc, h1.occ, hc'] at o2
  rw [← o2]
  congr 1
  have e2 : hentry a = fun i j => hval a (a.rc.cl.off + i) (a.rc.cl.off + j) := by funext i j; unfold hentry; rw [← hs.eq]
  have e3 := fun i j => HV.tri_shift lower unit (hval a) a.rc.cl.off i j
  rw [e2]
  unfold op
  rw [e3, e3]

/-- With lossless truncated operations, `lrdecomp_hmatrix` overwrites every H-matrix `A` whose leading minors do not vanish by
factors `L` (lower triangular with unit diagonal) and `R` (upper triangular with non-zero diagonal) with `L R = A` and keeps the block
structure; if a leading minor vanishes, the assertion about the pivots of a diagonal block fails. -/
theorem C45_lrdecomp {T : TruncOps K} (hT : Lossless T) {a : HV G K} (ha : HVOk a) (ha' : HVStd a) (hs : SqOk a) (hd : DiagSizes a) :
    ((∀ k ≤ a.rsize, minor (hentry a) k ≠ 0) ∧ ∃ a', lrdecompH T a a = .ok a' ∧ SameShape a a' ∧ HVOk a' ∧
      (∀ i < a.rsize, hentry a' i i ≠ 0) ∧ ∀ i < a.rsize, ∀ j < a.rsize,
        ∑ l ∈ Finset.range a.rsize, tri true true (hentry a') i l * tri false false (hentry a') l j = hentry a i j) ∨
    ((∃ k ≤ a.rsize, minor (hentry a) k = 0) ∧ lrdecompH T a a = .error .assertFail) := by
  rcases lrdecompH_may hT (.refl a) ha ha' hs hd with ⟨e, h⟩ | ⟨a', e, h1, h2, h3⟩
  · right
    refine ⟨?_, e⟩
    by_contra hn
    push Not at hn
    obtain ⟨F, hF, -⟩ := lr_continue (lrInv_init (hentry a) a.rsize) (Nat.zero_le _) hn
    exact h ⟨F, hF⟩
  · left
    refine ⟨fun k hk => lrInv_nonzero h3 hk hk, a', e, h1, h2, h3.1, fun i hi j hj => ?_⟩
    have := h3.2 i hi j hj
    rw [if_neg (by omega), add_zero] at this
    exact this.symm

theorem hentry_readH {m : Mem K} {h : HMat G} (hs : HSqOk h) (i j : Nat) :
    hentry (readH m h) i j = place m h (h.rc.cl.off + i) (h.rc.cl.off + j) := by
  unfold hentry
  rw [HMat.hval_readH, (HMat.readH_rc h).1, (HMat.readH_rc h).2, ← hs.eq]

/-- `triangularsolve_hmatrix_avector` solves the system with a triangular part of an H-matrix or with its adjoint; the right-hand
side and the solution are given in the original numbering.  Only `x` is changed, the auxiliary vector is released. -/
theorem C45_triangularsolve (lower unit trans : Bool) {a : HMat G} {idx : Arr Nat} {px : Nat} {junk : Nat → K} {x : Vec} {m : Mem K}
    (ho : HOk a) (hs : HSqOk a) (hv : HValid m a) (hp : IsPerm idx a.rc.cl.off a.rsize) (hx : x.Valid m) (hxd : x.dim = a.rsize)
    (hfr : Fresh m px x.dim) (hD : unit = false → ∀ i < a.rsize, hentry (readH m a) i i ≠ 0) :
    ∃ X m', HMat.triangularsolve idx px junk lower unit trans a x m = .ok m' ∧ VecBecomes x m X m' ∧
      ∀ i < a.rsize, ∑ j ∈ Finset.range a.rsize, op trans (tri lower unit (hentry (readH m a))) i j * X (idx.v (a.rc.cl.off + j)) =
        x.val m (idx.v (a.rc.cl.off + i)) := by
  have he : hentry (readH m a) = fun i j => place m a (a.rc.cl.off + i) (a.rc.cl.off + j) := by
    funext i j; exact hentry_readH hs i j
  rw [he] at hD ⊢
  have := HMat.permutedN_tot (px := px) (junk := junk) (f := HMat.triSolveVec lower unit trans a) hp hx hxd hfr
    (M := op trans (tri lower unit fun i j => place m a (a.rc.cl.off + i) (a.rc.cl.off + j))) (fun xp m1 h1 h2 h3 => by
      obtain ⟨f1, f2⟩ := HMat.place_old ho hv fun c hc => (h1 c hc).1
      refine (HMat.triSolveVec_local ho hs f1 h2 (fun c hc => (h1 c (HMat.valid_cells hv c hc)).2) h3
        (fun hu i hi => by rw [f2]; exact hD hu i hi)).mono ?_
      rintro m2 ⟨g1, g2, g3⟩
      simp only [f2] at g3
      exact ⟨g1, g2, g3⟩)
  obtain ⟨m', e, X, h1, h2⟩ := this
  exact ⟨X, m', e, h1, h2⟩

/-- If the triangles of an H-matrix contain `L` and `R` with `L R = A`, `lrsolve_hmatrix_avector` solves `A x = b` or `A^* x = b`;
the right-hand side and the solution are given in the original numbering of the degrees of freedom.  Only `x` is changed. -/
theorem C45_lrsolve (trans : Bool) {a : HMat G} {idx : Arr Nat} {px : Nat} {junk : Nat → K} {x : Vec} {m : Mem K} (ho : HOk a)
    (hs : HSqOk a) (hv : HValid m a) (hp : IsPerm idx a.rc.cl.off a.rsize) (hx : x.Valid m) (hxd : x.dim = a.rsize)
    (hfr : Fresh m px x.dim) (hD : ∀ i < a.rsize, hentry (readH m a) i i ≠ 0) {A D : Nat → Nat → K}
    (hA : ∀ i < a.rsize, ∀ j < a.rsize, ∑ l ∈ Finset.range a.rsize,
      tri true true (hentry (readH m a)) i l * tri false false (hentry (readH m a)) l j = A i j)
    (hAD : InDofs idx a.rc.cl.off a.rsize A D) :
    ∃ X m', HMat.lrsolve idx px junk trans a x m = .ok m' ∧ VecBecomes x m X m' ∧
      ∀ p < a.rsize, ∑ q ∈ Finset.range a.rsize, op trans D p q * X q = x.val m p := by
  have he : hentry (readH m a) = fun i j => place m a (a.rc.cl.off + i) (a.rc.cl.off + j) := by
    funext i j; exact hentry_readH hs i j
  rw [he] at hD hA
  have := HMat.permutedN_tot (px := px) (junk := junk) (f := fun xp m => if trans then do
      let m ← HMat.triSolveVec false false true a xp m
      HMat.triSolveVec true true true a xp m
    else do
      let m ← HMat.triSolveVec true true false a xp m
      HMat.triSolveVec false false false a xp m) hp hx hxd hfr (M := op trans A) (fun xp m1 h1 h2 h3 => by
      obtain ⟨f1, f2⟩ := HMat.place_old ho hv fun c hc => (h1 c hc).1
      have hdj : Disj (HCell a) xp.Cell := fun c hc => (h1 c (HMat.valid_cells hv c hc)).2
      by_cases ht : trans = true
      · rw [if_pos ht]
        refine HMat.solve2_tot ho hs f1 h2 hdj h3 false false true true true true (fun i hi => by rw [f2]; exact hD i hi) ?_
        intro r hr c hc
        rw [ht]
        simp only [op, f2, if_true]
        rw [← hA c hc r hr, star_sum]
        refine Finset.sum_congr rfl fun l _ => ?_
        rw [star_mul']
        ring
      · rw [if_neg ht]
        refine HMat.solve2_tot ho hs f1 h2 hdj h3 true true false false false false (fun i hi => by rw [f2]; exact hD i hi) ?_
        intro r hr c hc
        rw [Bool.eq_false_of_not_eq_true ht]
        simp only [op, f2, Bool.false_eq_true, if_false]
        exact (hA r hr c hc).symm)
  obtain ⟨m', e, X, h1, h2⟩ := this
  refine ⟨X, m', e, h1, fun p hpn => ?_⟩
  obtain ⟨i, hi, rfl⟩ := hp.surj hpn
  rw [HMat.sum_perm hp, ← h2 i hi]
  refine Finset.sum_congr rfl fun j hj => ?_
  have hj := Finset.mem_range.mp hj
  congr 1
  unfold op
  rw [hAD i hi j hj, hAD j hj i hi]

theorem sqOk_same : ∀ {a b : HV G K}, SameShape a b → SqOk a → SqOk b := by
  intro a
  induction a with
  | rk => intro b _ h; exact h.elim
  | full t s f =>
    intro b h h'
    obtain ⟨g, rfl⟩ := shape_full h
    exact h'
  | super t s m n son ih' =>
    intro b h h'
    cases b with
    | super t' s' m' n' son' =>
      simp only [SameShape] at h
      obtain ⟨rfl, rfl, rfl, rfl, h⟩ := h
      obtain ⟨e1, e2, h'⟩ := h'
      exact ⟨e1, e2, fun i => ih' _ _ (h _ _) (h' i)⟩
    | _ => simp only [SameShape] at h

/-- `lrdecomp_hmatrix` followed by `lrsolve_hmatrix_avector` solves `A x = b` or `A^* x = b`: if the decomposition of an H-matrix `a`
with lossless truncated operations has been successful and `h` contains its result, the solver never fails and returns the
solution of the system with the matrix `D` represented by `a` in the original numbering of the degrees of freedom. -/
theorem C45_lrdecomp_lrsolve {T : TruncOps K} (hT : Lossless T) (trans : Bool) {a a' : HV G K} (ha : HVOk a) (ha' : HVStd a) (hs : SqOk a)
    (hd : DiagSizes a) (hlr : lrdecompH T a a = .ok a') {h : HMat G} {m : Mem K} (hh : HOk h) (hv : HValid m h) (hst : Stores m h a')
    {idx : Arr Nat} (hp : IsPerm idx a.rc.cl.off a.rsize) {D : Nat → Nat → K} (hD : InDofs idx a.rc.cl.off a.rsize (hentry a) D)
    {px : Nat} {junk : Nat → K} {x : Vec} (hx : x.Valid m) (hxd : x.dim = a.rsize) (hfr : Fresh m px x.dim) :
    ∃ X m', HMat.lrsolve idx px junk trans h x m = .ok m' ∧ VecBecomes x m X m' ∧
      ∀ p < a.rsize, ∑ q ∈ Finset.range a.rsize, op trans D p q * X q = x.val m p := by
  rcases C45_lrdecomp hT ha ha' hs hd with ⟨-, a1, e, h1, h2, h3, h4⟩ | ⟨-, e⟩
  · obtain rfl : a1 = a' := Except.ok.inj (e.symm.trans hlr)
    obtain ⟨s1, s2⟩ := hst
    have hq : SqOk (readH m h) := sqOk_same (h1.trans s1) hs
    have hq' : HSqOk h := HMat.readH_sq hq
    have erc : h.rc = a.rc := by rw [← (HMat.readH_rc (m := m) h).1, s1.rc, h1.rc]
    have ers : h.rsize = a.rsize := by unfold HMat.rsize HV.rsize; rw [erc]
    have e1 : a1.rsize = a.rsize := by unfold HV.rsize; rw [h1.rc]
    have e2 : a1.csize = a.rsize := by unfold HV.rsize HV.csize; rw [h1.cc, hs.eq]
    rw [e1, e2] at s2
    rw [← ers, ← erc] at hp hD
    have := C45_lrsolve trans hh hq' hv hp hx (by rw [ers]; exact hxd) hfr (junk := junk) (px := px) (A := hentry a) (D := D)
      (fun i hi => by rw [ers] at hi; rw [s2 i hi i hi]; exact h3 i hi) (fun i hi j hj => by
        rw [ers] at hi hj ⊢
        rw [← h4 i hi j hj]
        refine Finset.sum_congr rfl fun l hl => ?_
        have hl := Finset.mem_range.mp hl
        rw [tri_congr (s2 i hi l hl) (s2 i hi i hi), tri_congr (s2 l hl j hj) (s2 l hl l hl)]) hD
    rw [ers] at this
    exact this
  · rw [e] at hlr; cases hlr

/-- If the lower triangle of an H-matrix contains `L` with `L L^* = A`, `cholsolve_hmatrix_avector` solves `A x = b`; the right-hand
side and the solution are given in the original numbering of the degrees of freedom.  Only `x` is changed. -/
theorem C45_cholsolve {a : HMat G} {idx : Arr Nat} {px : Nat} {junk : Nat → K} {x : Vec} {m : Mem K} (ho : HOk a)
    (hs : HSqOk a) (hv : HValid m a) (hp : IsPerm idx a.rc.cl.off a.rsize) (hx : x.Valid m) (hxd : x.dim = a.rsize)
    (hfr : Fresh m px x.dim) (hD : ∀ i < a.rsize, hentry (readH m a) i i ≠ 0) {A D : Nat → Nat → K}
    (hA : ∀ i < a.rsize, ∀ j < a.rsize, ∑ l ∈ Finset.range a.rsize,
      tri true false (hentry (readH m a)) i l * star (tri true false (hentry (readH m a)) j l) = A i j)
    (hAD : InDofs idx a.rc.cl.off a.rsize A D) :
    ∃ X m', HMat.cholsolve idx px junk a x m = .ok m' ∧ VecBecomes x m X m' ∧
      ∀ p < a.rsize, ∑ q ∈ Finset.range a.rsize, D p q * X q = x.val m p := by
  have he : hentry (readH m a) = fun i j => place m a (a.rc.cl.off + i) (a.rc.cl.off + j) := by
    funext i j; exact hentry_readH hs i j
  rw [he] at hD hA
  have := HMat.permutedN_tot (px := px) (junk := junk) (f := fun xp m => do
      let m ← HMat.triSolveVec true false false a xp m
      HMat.triSolveVec true false true a xp m) hp hx hxd hfr (M := A) (fun xp m1 h1 h2 h3 => by
      obtain ⟨f1, f2⟩ := HMat.place_old ho hv fun c hc => (h1 c hc).1
      have hdj : Disj (HCell a) xp.Cell := fun c hc => (h1 c (HMat.valid_cells hv c hc)).2
      refine HMat.solve2_tot ho hs f1 h2 hdj h3 true false false true false true (fun i hi => by rw [f2]; exact hD i hi) ?_
      intro r hr c hc
      simp only [op, f2, Bool.false_eq_true, if_false, if_true]
      exact (hA r hr c hc).symm)
  obtain ⟨m', e, X, h1, h2⟩ := this
  refine ⟨X, m', e, h1, fun p hpn => ?_⟩
  obtain ⟨i, hi, rfl⟩ := hp.surj hpn
  rw [HMat.sum_perm hp, ← h2 i hi]
  refine Finset.sum_congr rfl fun j hj => ?_
  rw [hAD i hi j (Finset.mem_range.mp hj)]

/-! ## the hypotheses can be met -/

/-- dense blocks except for the lower left one -/
def hson2 (f00 f01 f11 : VMat K) (r : VRk K) : Fin 2 → Fin 2 → HV Nat K
  | 0, 0 => .full (kid hc2 0) (kid hc2 0) f00
  | 0, 1 => .full (kid hc2 0) (kid hc2 1) f01
  | 1, 0 => .rk (kid hc2 1) (kid hc2 0) r
  | 1, 1 => .full (kid hc2 1) (kid hc2 1) f11

theorem hson2_entry (f00 f01 f11 : VMat K) (r : VRk K) {i j : Nat} (hi : i < 2) (hj : j < 2) :
    hentry (.super hc2 hc2 2 2 (hson2 f00 f01 f11 r)) i j =
      if i = 0 then (if j = 0 then f00.e 0 0 else f01.e 0 0) else (if j = 0 then rkVal r 0 0 else f11.e 0 0) := by
  unfold hentry
  rw [hval_super, Fin.sum_univ_two, Fin.sum_univ_two, Fin.sum_univ_two]
  have m0 : ∀ i, 0 + i ∈ seg (kid hc2 0) ↔ i = 0 := by
    intro i; rw [mem_seg]; show 0 ≤ 0 + i ∧ 0 + i < 0 + 1 ↔ _; omega
  have m1 : ∀ i, 0 + i ∈ seg (kid hc2 1) ↔ i = 1 := by
    intro i; rw [mem_seg]; show 1 ≤ 0 + i ∧ 0 + i < 1 + 1 ↔ _; omega
  show hval (.full (kid hc2 0) (kid hc2 0) f00) (0 + i) (0 + j) + hval (.full (kid hc2 0) (kid hc2 1) f01) (0 + i) (0 + j) +
    (hval (.rk (kid hc2 1) (kid hc2 0) r) (0 + i) (0 + j) + hval (.full (kid hc2 1) (kid hc2 1) f11) (0 + i) (0 + j)) = _
  rw [hval_full, hval_full, hval_full, hval_rk]
  simp only [m0, m1]
  have o0 : (kid hc2 0).cl.off = 0 := rfl
  have o1 : (kid hc2 1).cl.off = 1 := rfl
  rw [o0, o1]
  obtain rfl | rfl : i = 0 ∨ i = 1 := by omega
  all_goals obtain rfl | rfl : j = 0 ∨ j = 1 := by omega
  all_goals simp

theorem hson2_ok (f00 f01 f11 : VMat K) (r : VRk K) (h00 : f00.rows = 1 ∧ f00.cols = 1) (h01 : f01.rows = 1 ∧ f01.cols = 1)
    (h11 : f11.rows = 1 ∧ f11.cols = 1) (hr : RkOk r ∧ r.A.rows = 1 ∧ r.B.rows = 1) :
    HVOk (.super hc2 hc2 2 2 (hson2 f00 f01 f11 r)) ∧ HVStd (.super hc2 hc2 2 2 (hson2 f00 f01 f11 r)) ∧
    SqOk (.super hc2 hc2 2 2 (hson2 f00 f01 f11 r)) ∧ DiagSizes (.super hc2 hc2 2 2 (hson2 f00 f01 f11 r)) := by
  have seg : Segments hc2 (fun i : Fin 2 => kid hc2 i.1) := by
    constructor
    · decide
    · decide
  refine ⟨⟨by omega, by omega, ⟨fun i => kid hc2 i, fun i => kid hc2 i, fun i j => ?_, seg, seg⟩, fun i j => ?_⟩,
    ⟨Or.inl (by decide), by decide, by decide, fun i j => ⟨?_, ?_, ?_⟩⟩, ⟨rfl, rfl, fun i => ?_⟩, fun i j hij => ?_⟩
  · fin_cases i <;> fin_cases j <;> exact ⟨rfl, rfl⟩
  · fin_cases i <;> fin_cases j <;> assumption
  · fin_cases i <;> fin_cases j <;> rfl
  · fin_cases i <;> fin_cases j <;> rfl
  · fin_cases i <;> fin_cases j <;> trivial
  · fin_cases i <;> rfl
  · obtain rfl : i = j := Fin.ext hij
    fin_cases i <;> exact ⟨by decide, by decide⟩

/-- the matrix with rows `(1, 2)` and `(3, 7)`; the lower left block is of low rank -/
def hA : HV Nat ℚ := .super hc2 hc2 2 2 (hson2 ⟨1, 1, fun _ _ => 1⟩ ⟨1, 1, fun _ _ => 2⟩ ⟨1, 1, fun _ _ => 7⟩
  ⟨⟨1, 1, fun _ _ => 3⟩, ⟨1, 1, fun _ _ => 1⟩, 1⟩)

/-- the same block structure in memory -/
def hM : HMat Nat := .super hc2 hc2 5 2 2 fun i j =>
  if i = 1 ∧ j = 0 then .rk (kid hc2 1) (kid hc2 0) 1 ⟨⟨2, 1, 1, 1⟩, ⟨3, 1, 1, 1⟩, 1⟩
  else .full (kid hc2 i) (kid hc2 j) 1 ⟨if i = 0 then (if j = 0 then 0 else 1) else 4, 1, 1, 1⟩

theorem hM_read (m : Mem ℚ) : readH m hM = .super hc2 hc2 2 2 (hson2 ⟨1, 1, Mat.val ⟨0, 1, 1, 1⟩ m⟩ ⟨1, 1, Mat.val ⟨1, 1, 1, 1⟩ m⟩
    ⟨1, 1, Mat.val ⟨4, 1, 1, 1⟩ m⟩ ⟨⟨1, 1, Mat.val ⟨2, 1, 1, 1⟩ m⟩, ⟨1, 1, Mat.val ⟨3, 1, 1, 1⟩ m⟩, 1⟩) := by
  unfold hM
  simp only [readH]
  congr 1
  funext i j
  fin_cases i <;> fin_cases j <;> rfl

/-- `hA` can be decomposed, its result can be stored, and the resulting factors solve the system with the permuted matrix with rows
`(7, 3)` and `(2, 1)`. -/
example : ∃ a' m, lrdecompH exactOps hA hA = .ok a' ∧ Stores m hM a' ∧
    ∃ X m', HMat.lrsolve ⟨2, fun i => 1 - i⟩ 10 (fun _ => 5) false hM ⟨5, 2⟩ m = .ok m' ∧ VecBecomes ⟨5, 2⟩ m X m' ∧
      7 * X 0 + 3 * X 1 = 11 ∧ 2 * X 0 + 1 * X 1 = 13 := by
  obtain ⟨o1, o2, o3, o4⟩ : HVOk hA ∧ HVStd hA ∧ SqOk hA ∧ DiagSizes hA :=
    hson2_ok _ _ _ _ ⟨rfl, rfl⟩ ⟨rfl, rfl⟩ ⟨rfl, rfl⟩ ⟨⟨rfl, rfl⟩, rfl, rfl⟩
  have hent : ∀ {i j : Nat}, i < 2 → j < 2 → hentry hA i j = if i = 0 then (if j = 0 then 1 else 2) else (if j = 0 then 3 else 7) := by
    intro i j hi hj
    refine (hson2_entry _ _ _ _ hi hj).trans ?_
    simp [rkVal]
  have hsz : hA.rsize = 2 := rfl
  rcases C45_lrdecomp C46_lossless_exists o1 o2 o3 o4 with ⟨-, a', e, h1, h2, h3, h4⟩ | ⟨⟨k, hk, hk0⟩, -⟩
  · obtain ⟨m, hm⟩ : ∃ m : Mem ℚ, m = fun c => if c = 0 then some (hentry a' 0 0) else if c = 1 then some (hentry a' 0 1)
      else if c = 2 then some (hentry a' 1 0) else if c = 3 then some 1 else if c = 4 then some (hentry a' 1 1)
      else if c = 5 then some 11 else if c = 6 then some 13 else none := ⟨_, rfl⟩
    have v : ∀ {c : Nat} {i j : Nat}, Mat.val ⟨c, 1, 1, 1⟩ m i j = (m (c + (i + j * 1))).getD 0 := by
      intro c i j; rfl
    have rd := hM_read m
    have sh : SameShape hA (readH m hM) := by
      rw [rd]
      refine ⟨rfl, rfl, rfl, rfl, fun i j => ?_⟩
      fin_cases i <;> fin_cases j <;> exact ⟨rfl, rfl⟩
    have st : Stores m hM a' := by
      refine ⟨h1.symm.trans sh, fun i hi j hj => ?_⟩
      have hi : i < 2 := hi.trans_eq (by unfold HV.rsize; rw [h1.rc]; rfl)
      have hj : j < 2 := hj.trans_eq (by unfold HV.csize; rw [h1.cc]; rfl)
      rw [rd, hson2_entry _ _ _ _ hi hj]
      simp only [rkVal, v]
      rw [hm]
      obtain rfl | rfl : i = 0 ∨ i = 1 := by omega
      all_goals obtain rfl | rfl : j = 0 ∨ j = 1 := by omega
      all_goals simp
    have isSome : ∀ c < 7, (m c).isSome := by
      intro c hc
      rw [hm]
      obtain rfl | rfl | rfl | rfl | rfl | rfl | rfl : c = 0 ∨ c = 1 ∨ c = 2 ∨ c = 3 ∨ c = 4 ∨ c = 5 ∨ c = 6 := by omega
      all_goals rfl
    have ok : HOk hM := by
      refine HMat.readH_ok (m := m) ?_
      rw [rd]
      exact (hson2_ok _ _ _ _ ⟨rfl, rfl⟩ ⟨rfl, rfl⟩ ⟨rfl, rfl⟩ ⟨⟨rfl, rfl⟩, rfl, rfl⟩).1
    have mv : ∀ c < 7, Mat.Valid ⟨c, 1, 1, 1⟩ m := by
      intro c hc
      refine ⟨le_rfl, fun i hi j hj => ?_⟩
      replace hi : i < 1 := hi
      replace hj : j < 1 := hj
      exact isSome _ (by simp only [Mat.addr]; omega)
    have hv : HValid m hM := by
      intro i j
      fin_cases i <;> fin_cases j
      · exact mv 0 (by omega)
      · exact mv 1 (by omega)
      · refine ⟨mv 2 (by omega), mv 3 (by omega), ?_, rfl, rfl⟩
        rintro c ⟨i, hi, j, hj, rfl⟩ ⟨i', hi', j', hj', e⟩
        simp only [Mat.addr] at *
        omega
      · exact mv 4 (by omega)
    refine ⟨a', m, e, st, ?_⟩
    obtain ⟨X, m', e1, e2, e3⟩ := C45_lrdecomp_lrsolve C46_lossless_exists false o1 o2 o3 o4 e ok hv st
      (idx := ⟨2, fun i => 1 - i⟩) (D := fun p q => hentry hA (1 - p) (1 - q)) (px := 10) (junk := fun _ => 5) (x := ⟨5, 2⟩)
      ⟨le_rfl, fun i hi => by show 1 - (0 + i) < 2; omega, fun i hi j hj h => by
        replace hi : i < 2 := hi
        replace hj : j < 2 := hj
        replace h : 1 - (0 + i) = 1 - (0 + j) := h
        omega⟩
      (fun i hi j hj => by
        replace hi : i < 2 := hi
        replace hj : j < 2 := hj
        show hentry hA (1 - (1 - (0 + i))) (1 - (1 - (0 + j))) = _
        rw [show 1 - (1 - (0 + i)) = i by omega, show 1 - (1 - (0 + j)) = j by omega])
      (fun i hi => isSome _ (by replace hi : i < 2 := hi; simp only [Vec.addr]; omega)) rfl
      (fun c hc _ => by rw [hm]; simp only [show c ≠ 0 by omega, show c ≠ 1 by omega, show c ≠ 2 by omega, show c ≠ 3 by omega,
        show c ≠ 4 by omega, show c ≠ 5 by omega, show c ≠ 6 by omega, if_false])
    refine ⟨X, m', e1, e2, ?_, ?_⟩
    · have := e3 0 (by rw [hsz]; omega)
      rw [hsz, Finset.sum_range_succ, Finset.sum_range_one] at this
      simp only [op, Bool.false_eq_true, if_false, Nat.sub_zero, Nat.sub_self] at this
      rw [hent (by omega) (by omega), hent (by omega) (by omega)] at this
      have e5 : Vec.val ⟨5, 2⟩ m 0 = 11 := by rw [hm]; rfl
      rw [e5] at this
      simpa using this
    · have := e3 1 (by rw [hsz]; omega)
      rw [hsz, Finset.sum_range_succ, Finset.sum_range_one] at this
      simp only [op, Bool.false_eq_true, if_false, Nat.sub_zero, Nat.sub_self] at this
      rw [hent (by omega) (by omega), hent (by omega) (by omega)] at this
      have e5 : Vec.val ⟨5, 2⟩ m 1 = 13 := by rw [hm]; rfl
      rw [e5] at this
      simpa using this
  · exfalso
    have hk : k ≤ 2 := hk
    obtain rfl | rfl | rfl : k = 0 ∨ k = 1 ∨ k = 2 := by omega
    · simp [minor] at hk0
    · simp only [minor, Matrix.det_fin_one, Matrix.of_apply] at hk0
      rw [show ((0 : Fin 1) : Nat) = 0 from rfl, hent (by omega) (by omega)] at hk0
      norm_num at hk0
    · simp only [minor, Matrix.det_fin_two, Matrix.of_apply] at hk0
      rw [show ((0 : Fin 2) : Nat) = 0 from rfl, show ((1 : Fin 2) : Nat) = 1 from rfl, hent (by omega) (by omega), hent (by omega) (by omega),
        hent (by omega) (by omega), hent (by omega) (by omega)] at hk0
      norm_num at hk0

end H2.Props
