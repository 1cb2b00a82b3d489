import Verif.Proof.Harith8
import Mathlib.Tactic.FinCases

/-! # C46: addition and multiplication of H-matrices -/

set_option linter.unusedSectionVars false

namespace H2.Props
open Spec HV
variable {G K : Type} [Field K] [StarRing K]

theorem entry_upd {z z' : HV G K} {D : Nat → Nat → K} (h : Upd z z' D) (i j : Nat) :
    hentry z' i j = hentry z i j + D (z.rc.cl.off + i) (z.cc.cl.off + j) := by
  unfold hentry; rw [h.shape.rc, h.shape.cc, h.val]

theorem ohentry_ohval (trans : Bool) (h : HV G K) (i j : Nat) :
    ohval trans h ((h.orc trans).cl.off + i) ((h.occ trans).cl.off + j) = ohentry trans h i j := by
  unfold ohentry ohval hentry HV.orc HV.occ
  cases trans <;> rfl

/-- With lossless truncated operations, `add_hmatrix` adds `alpha A` to `B` for all H-matrices `A` and `B` for the same clusters,
whatever their block structures and leaves are, and keeps the block structure of `B`. -/
theorem C46_add {T : TruncOps K} (hT : Lossless T) (alpha : K) {a b : HV G K} (ha : HVOk a) (ha' : HVStd a) (hb : HVOk b)
    (hb' : HVStd b) (hr : b.rc = a.rc) (hc : b.cc = a.cc) :
    ∃ b', addH T alpha a b = .ok b' ∧ SameShape b b' ∧ HVOk b' ∧
      ∀ i j, hentry b' i j = hentry b i j + alpha * hentry a i j := by
  obtain ⟨b', e, h⟩ := addH_tot hT alpha ha ha' hb hb' hr hc
  refine ⟨b', e, h.shape, h.ok, fun i j => ?_⟩
  rw [entry_upd h, hr, hc]; rfl

/-- With lossless truncated operations, `addmul_hmatrix` adds `alpha op(X) op(Y)` to `Z`, `op` being the identity or the
adjoint, for all H-matrices with matching clusters, whatever their block structures and leaves are, and keeps the block
structure of `Z`. -/
theorem C46_addmul {T : TruncOps K} (hT : Lossless T) (alpha : K) (xt yt : Bool) {x y z : HV G K} (hx : HVOk x) (hx' : HVStd x)
    (hy : HVOk y) (hy' : HVStd y) (hz : HVOk z) (hz' : HVStd z) (hr : z.rc = if xt then x.cc else x.rc)
    (hc : z.cc = if yt then y.rc else y.cc) (hm : (if xt then x.rc else x.cc) = if yt then y.cc else y.rc) :
    ∃ z', addmul T alpha xt yt x y z = .ok z' ∧ SameShape z z' ∧ HVOk z' ∧
      ∀ i j, hentry z' i j = hentry z i j + alpha *
        ∑ l ∈ Finset.range (if xt then x.rc else x.cc).cl.size, ohentry xt x i l * ohentry yt y l j := by
  obtain ⟨z', e, h⟩ := addmul_tot' hT alpha xt yt hx hx' hy hy' hz hz' hr hc hm
  refine ⟨z', e, h.shape, h.ok, fun i j => ?_⟩
  rw [entry_upd h]
  unfold prod
  rw [sum_seg]
  congr 2
  refine Finset.sum_congr rfl fun l _ => ?_
  rw [← ohentry_ohval, ← ohentry_ohval]
  have e1 : x.orc xt = z.rc := hr.symm
  have e2 : y.occ yt = z.cc := hc.symm
  have e3 : y.orc yt = x.occ xt := hm.symm
  rw [e1, e2, e3]

/-- `add_hmatrix_amatrix` adds `alpha op(A)` to a dense matrix (no truncation is involved). -/
theorem C46_add_hmatrix_amatrix (alpha : K) (trans : Bool) {a : HV G K} {b : VMat K} (ha : HVOk a)
    (hr : b.rows = (if trans then a.cc else a.rc).cl.size) (hc : b.cols = (if trans then a.rc else a.cc).cl.size) :
    ∃ b', addHAm alpha trans a b = .ok b' ∧ b'.rows = b.rows ∧ b'.cols = b.cols ∧
      ∀ i < b.rows, ∀ j < b.cols, b'.e i j = b.e i j + alpha * ohentry trans a i j := by
  obtain ⟨b', e, h⟩ := addHAm_tot alpha trans ha hr hc
  obtain ⟨d1, d2⟩ := h.ok
  have d1' : b'.rows = b.rows := d1.trans hr.symm
  have d2' : b'.cols = b.cols := d2.trans hc.symm
  refine ⟨b', e, d1', d2', fun i hi j hj => ?_⟩
  have := h.val ((a.orc trans).cl.off + i) ((a.occ trans).cl.off + j)
  have hin : (a.orc trans).cl.off + i ∈ seg (a.orc trans) ∧ (a.occ trans).cl.off + j ∈ seg (a.occ trans) := by
    rw [mem_seg, mem_seg]
    have e1 : b.rows = (a.orc trans).cl.size := hr
    have e2 : b.cols = (a.occ trans).cl.size := hc
    omega
  rw [hval_full, hval_full, if_pos hin, if_pos hin, Nat.add_sub_cancel_left, Nat.add_sub_cancel_left] at this
  rw [this, ← ohentry_ohval]

/-- `add_amatrix_hmatrix` with `atrans = false` adds a dense matrix to an H-matrix. -/
theorem C46_add_amatrix_hmatrix {T : TruncOps K} (hT : Lossless T) (alpha : K) {a : VMat K} {b : HV G K} (hb : HVOk b)
    (hr : a.rows = b.rc.cl.size) (hc : a.cols = b.cc.cl.size) :
    ∃ b', addAmH T alpha false a b = .ok b' ∧ SameShape b b' ∧ HVOk b' ∧
      ∀ i < a.rows, ∀ j < a.cols, hentry b' i j = hentry b i j + alpha * a.e i j := by
  obtain ⟨b', e, h⟩ := addAmH_tot hT alpha hb hr hc
  refine ⟨b', e, h.shape, h.ok, fun i hi j hj => ?_⟩
  rw [entry_upd h, hval_full, if_pos (by rw [mem_seg, mem_seg]; omega), Nat.add_sub_cancel_left, Nat.add_sub_cancel_left]

/-- `add_rkmatrix_hmatrix` adds a low-rank matrix to an H-matrix. -/
theorem C46_add_rkmatrix_hmatrix {T : TruncOps K} (hT : Lossless T) (alpha : K) {a : VRk K} {b : HV G K} (ha : RkOk a)
    (hb : HVOk b) (hr : a.A.rows = b.rc.cl.size) (hc : a.B.rows = b.cc.cl.size) :
    ∃ b', addRkH T alpha a b = .ok b' ∧ SameShape b b' ∧ HVOk b' ∧
      ∀ i < a.A.rows, ∀ j < a.B.rows, hentry b' i j = hentry b i j + alpha * rkVal a i j := by
  obtain ⟨b', e, h⟩ := addRkH_tot hT alpha hb ha hr hc
  refine ⟨b', e, h.shape, h.ok, fun i hi j hj => ?_⟩
  rw [entry_upd h, hval_rk, if_pos (by rw [mem_seg, mem_seg]; omega), Nat.add_sub_cancel_left, Nat.add_sub_cancel_left]

/-- `addmul_hmatrix_amatrix_amatrix` computes `op(C) ← op(C) + alpha op(A) op(B)` for an H-matrix `A` and dense matrices
`B` and `C`, for all eight combinations of adjoints (no truncation is involved). -/
theorem C46_addmul_hmatrix_amatrix (alpha : K) (atrans btrans ctrans : Bool) {a : HV G K} {b c : VMat K} (ha : HVOk a)
    (h1 : b.orows btrans = (if atrans then a.rc else a.cc).cl.size) (h2 : b.ocols btrans = c.ocols ctrans)
    (h3 : c.orows ctrans = (if atrans then a.cc else a.rc).cl.size) :
    ∃ c', addmulHAA alpha atrans a btrans b ctrans c = .ok c' ∧ c'.rows = c.rows ∧ c'.cols = c.cols ∧
      ∀ i < c.orows ctrans, ∀ k < c.ocols ctrans, c'.oe ctrans i k = c.oe ctrans i k + alpha *
        ∑ l ∈ Finset.range (b.orows btrans), ohentry atrans a i l * b.oe btrans l k := by
  obtain ⟨c', e, h⟩ := addmulHAA_tot alpha atrans btrans ctrans ha h1 h2 h3
  refine ⟨c', e, h.1, h.2.1, fun i hi k hk => ?_⟩
  rw [mulLocal h h1 h2 h3 hi hk, sum_seg, h1]
  congr 2
  refine Finset.sum_congr rfl fun l _ => ?_
  rw [ohentry_ohval, Nat.add_sub_cancel_left]

/-! ## the hypotheses can be met -/

/-- side by side -/
def hcat (a b : VMat K) : VMat K := ⟨a.rows, a.cols + b.cols, fun i j => if j < a.cols then a.e i j else b.e i (j - a.cols)⟩
/-- the factor `alpha a` -/
def smat (alpha : K) (a : VMat K) : VMat K := ⟨a.rows, a.cols, fun i j => alpha * a.e i j⟩
/-- `a` in the rows from `off` on, zero otherwise -/
def shift (rows off : Nat) (a : VMat K) : VMat K :=
  ⟨rows, a.cols, fun i j => if off ≤ i ∧ i < off + a.rows then a.e (i - off) j else 0⟩

/-- The operations that put the factors side by side. -/
def exactOps : TruncOps K where
  addRk alpha src trg := .ok ⟨hcat trg.A (smat alpha src.A), hcat trg.B src.B, trg.k + src.k⟩
  addAm alpha atrans a trg := .ok ⟨hcat trg.A ⟨trg.A.rows, trg.B.rows, fun i j => alpha * a.oe atrans i j⟩,
    hcat trg.B (.ident trg.B.rows trg.B.rows), trg.k + trg.B.rows⟩
  merge col src trg := if col then
      .ok ⟨hcat (shift (trg.A.rows + src.A.rows) 0 trg.A) (shift (trg.A.rows + src.A.rows) trg.A.rows src.A),
        hcat trg.B src.B, trg.k + src.k⟩
    else .ok ⟨hcat trg.A src.A,
      hcat (shift (trg.B.rows + src.B.rows) 0 trg.B) (shift (trg.B.rows + src.B.rows) trg.B.rows src.B), trg.k + src.k⟩

theorem rkVal_hcat {A A' B B' : VMat K} {k k' : Nat} (h : A.cols = k) (h' : B.cols = k) (i j : Nat) :
    rkVal ⟨hcat A A', hcat B B', k + k'⟩ i j = rkVal ⟨A, B, k⟩ i j + rkVal ⟨A', B', k'⟩ i j := by
  unfold rkVal
  simp only
  rw [Finset.sum_range_add]
  congr 1
  · refine Finset.sum_congr rfl fun nu hnu => ?_
    rw [Finset.mem_range] at hnu
    simp only [hcat, h, h', hnu, if_true]
  · refine Finset.sum_congr rfl fun nu _ => ?_
    simp only [hcat, h, h', if_neg (show ¬ k + nu < k by omega), Nat.add_sub_cancel_left]

/-- The contract of the truncated operations can be met over every field. -/
theorem C46_lossless_exists : Lossless (exactOps : TruncOps K) where
  addRk alpha src trg h1 h2 _ _ := by
    refine ⟨_, rfl, ⟨?_, ?_⟩, rfl, rfl, fun i _ j _ => ?_⟩
    · show trg.A.cols + src.A.cols = _; rw [h1.1, h2.1]
    · show trg.B.cols + src.B.cols = _; rw [h1.2, h2.2]
    · rw [rkVal_hcat h2.1 h2.2]
      congr 1
      unfold rkVal
      rw [Finset.mul_sum]
      exact Finset.sum_congr rfl fun nu _ => mul_assoc _ _ _
  addAm alpha atrans a trg h1 _ _ := by
    refine ⟨_, rfl, ⟨?_, ?_⟩, rfl, rfl, fun i _ j hj => ?_⟩
    · show trg.A.cols + trg.B.rows = _; rw [h1.1]
    · show trg.B.cols + trg.B.rows = _; rw [h1.2]
    · rw [rkVal_hcat h1.1 h1.2]
      congr 1
      unfold rkVal VMat.ident
      simp only
      rw [Finset.sum_eq_single j]
      · rw [if_pos rfl, star_one, mul_one]
      · intro b _ hb; rw [if_neg (fun h => hb h.symm), star_zero, mul_zero]
      · intro h; exact absurd (Finset.mem_range.2 hj) h
  mergeCol src trg h1 h2 _ := by
    refine ⟨_, rfl, ⟨?_, ?_⟩, rfl, rfl, fun i hi j _ => ?_⟩
    · show trg.A.cols + src.A.cols = _; rw [h1.1, h2.1]
    · show trg.B.cols + src.B.cols = _; rw [h1.2, h2.2]
    · rw [rkVal_hcat (show (shift _ 0 trg.A).cols = _ from h2.1) h2.2]
      unfold rkVal shift
      simp only
      by_cases h : i < trg.A.rows
      · simp only [if_pos h, if_pos (show 0 ≤ i ∧ i < 0 + trg.A.rows by omega),
          if_neg (show ¬ (trg.A.rows ≤ i ∧ i < trg.A.rows + src.A.rows) by omega), zero_mul, Finset.sum_const_zero, add_zero,
          Nat.sub_zero]
      · simp only [if_neg h, if_neg (show ¬ (0 ≤ i ∧ i < trg.A.rows) by omega),
          if_pos (show trg.A.rows ≤ i ∧ i < trg.A.rows + src.A.rows by omega), zero_mul, Finset.sum_const_zero, zero_add]
  mergeRow src trg h1 h2 _ := by
    refine ⟨_, rfl, ⟨?_, ?_⟩, rfl, rfl, fun i _ j hj => ?_⟩
    · show trg.A.cols + src.A.cols = _; rw [h1.1, h2.1]
    · show trg.B.cols + src.B.cols = _; rw [h1.2, h2.2]
    · rw [rkVal_hcat h2.1 (show (shift _ 0 trg.B).cols = _ from h2.2)]
      unfold rkVal shift
      simp only
      by_cases h : j < trg.B.rows
      · simp only [if_pos h, if_pos (show 0 ≤ j ∧ j < 0 + trg.B.rows by omega),
          if_neg (show ¬ (trg.B.rows ≤ j ∧ j < trg.B.rows + src.B.rows) by omega), star_zero, mul_zero,
          Finset.sum_const_zero, add_zero, Nat.sub_zero]
      · simp only [if_neg h, if_neg (show ¬ (0 ≤ j ∧ j < trg.B.rows) by omega),
          if_pos (show trg.B.rows ≤ j ∧ j < trg.B.rows + src.B.rows by omega), star_zero, mul_zero, Finset.sum_const_zero,
          zero_add]

theorem ofBlock_rc (r : CRef G → CRef G → VRk K) (f : CRef G → CRef G → VMat K) {rc cc : CRef G} {b : Block G}
    (h : BlockTree rc cc b) : (ofBlock r f b).rc = rc ∧ (ofBlock r f b).cc = cc := by
  cases h <;> simp only [ofBlock] <;> (repeat' split) <;> exact ⟨rfl, rfl⟩

/-- The H-matrices for all block trees over consistent cluster trees meet `HVOk`, whatever their leaves contain. -/
theorem C46_built_ok {r : CRef G → CRef G → VRk K} {f : CRef G → CRef G → VMat K}
    (hr : ∀ t s, RkOk (r t s) ∧ (r t s).A.rows = t.cl.size ∧ (r t s).B.rows = s.cl.size)
    (hf : ∀ t s, (f t s).rows = t.cl.size ∧ (f t s).cols = s.cl.size)
    {rc cc : CRef G} {b : Block G} (h : BlockTree rc cc b) (hrc : Consistent rc.cl) (hcc : Consistent cc.cl) :
    HVOk (ofBlock r f b) := by
  induction h with
  | leaf =>
    simp only [ofBlock]
    rw [if_neg (by simp)]
    split
    · exact hr _ _
    · exact hf _ _
  | @both rc cc a d son h1 h2 hs ih =>
    simp only [ofBlock]
    rw [if_pos (Nat.mul_ne_zero (by omega) (by omega))]
    exact ⟨h1, h2, ⟨rc.son, cc.son, fun i j => ofBlock_rc r f (hs i j), HMat.segments_sons hrc h1, HMat.segments_sons hcc h2⟩,
      fun i j => ih i j (consistent_son hrc i) (consistent_son hcc j)⟩
  | @rows rc cc a d son h1 hs ih =>
    simp only [ofBlock]
    rw [if_pos (Nat.mul_ne_zero (by omega) (by omega))]
    exact ⟨h1, by omega, ⟨rc.son, fun _ => cc, fun i j => ofBlock_rc r f (hs i j), HMat.segments_sons hrc h1, HMat.segments_self cc⟩,
      fun i j => ih i j (consistent_son hrc i) hcc⟩
  | @cols rc cc a d son h1 hs ih =>
    simp only [ofBlock]
    rw [if_pos (Nat.mul_ne_zero (by omega) (by omega))]
    exact ⟨by omega, h1, ⟨fun _ => rc, cc.son, fun i j => ofBlock_rc r f (hs i j), HMat.segments_self rc, HMat.segments_sons hcc h1⟩,
      fun i j => ih i j hrc (consistent_son hcc j)⟩

theorem ofBlock_leaf_std (r : CRef G → CRef G → VRk K) (f : CRef G → CRef G → VMat K) (rc cc : CRef G) (a : Bool) :
    HVStd (ofBlock r f (Block.leaf rc cc a)) := by
  unfold Block.leaf Block.build
  simp only [ofBlock]
  rw [if_neg (by simp)]
  split <;> trivial

/-- The H-matrices for the block trees built by `build_strict_block` meet `HVStd`. -/
theorem C46_built_std_strict (r : CRef G → CRef G → VRk K) (f : CRef G → CRef G → VMat K) (admis : Cluster G → Cluster G → Bool)
    (rc cc : CRef G) : HVStd (ofBlock r f (Block.buildStrict admis rc cc)) := by
  induction hn : sizeOf rc.cl + sizeOf cc.cl using Nat.strong_induction_on generalizing rc cc with
  | _ n ih =>
  subst hn
  rw [Block.buildStrict]
  split
  · exact ofBlock_leaf_std ..
  split
  · rename_i h0
    split
    · exact ofBlock_leaf_std ..
    · rename_i h1
      unfold Block.build
      simp only [ofBlock]
      rw [if_pos (Nat.mul_ne_zero (by omega) (by omega))]
      refine ⟨Or.inr (by omega), by omega, by omega, fun i j => ?_⟩
      have := ofBlock_rc r f (strict_blockTree admis rc (cc.son j))
      refine ⟨by rw [this.1, kid, dif_neg (by omega)], by rw [this.2, kid, dif_pos j.2], ih _ ?_ _ _ rfl⟩
      have := CRef.sizeOf_son cc j; omega
  · rename_i h0
    split
    · rename_i h1
      unfold Block.build
      simp only [ofBlock]
      rw [if_pos (Nat.mul_ne_zero (by omega) (by omega))]
      refine ⟨Or.inl (by omega), by omega, by omega, fun i j => ?_⟩
      have := ofBlock_rc r f (strict_blockTree admis (rc.son i) cc)
      refine ⟨by rw [this.1, kid, dif_pos i.2], by rw [this.2, kid, dif_neg (by omega)], ih _ ?_ _ _ rfl⟩
      have := CRef.sizeOf_son rc i; omega
    · rename_i h1
      unfold Block.build
      simp only [ofBlock]
      rw [if_pos (Nat.mul_ne_zero (by omega) (by omega))]
      refine ⟨Or.inl (by omega), by omega, by omega, fun i j => ?_⟩
      have := ofBlock_rc r f (strict_blockTree admis (rc.son i) (cc.son j))
      refine ⟨by rw [this.1, kid, dif_pos i.2], by rw [this.2, kid, dif_pos j.2], ih _ ?_ _ _ rfl⟩
      have := CRef.sizeOf_son rc i; have := CRef.sizeOf_son cc j; omega

/-- The H-matrices for the block trees built by `build_nonstrict_block` meet `HVStd`. -/
theorem C46_built_std_nonstrict (r : CRef G → CRef G → VRk K) (f : CRef G → CRef G → VMat K)
    (admis : Cluster G → Cluster G → Bool) (rc cc : CRef G) : HVStd (ofBlock r f (Block.buildNonstrict admis rc cc)) := by
  induction hn : sizeOf rc.cl + sizeOf cc.cl using Nat.strong_induction_on generalizing rc cc with
  | _ n ih =>
  subst hn
  rw [Block.buildNonstrict]
  split
  · exact ofBlock_leaf_std ..
  split
  · exact ofBlock_leaf_std ..
  · rename_i h0
    have h1 : rc.nsons ≠ 0 := fun h => h0 (by rw [h, Nat.zero_mul])
    have h2 : cc.nsons ≠ 0 := fun h => h0 (by rw [h, Nat.mul_zero])
    unfold Block.build
    simp only [ofBlock]
    rw [if_pos h0]
    refine ⟨Or.inl (by omega), by omega, by omega, fun i j => ?_⟩
    have := ofBlock_rc r f (nonstrict_blockTree admis (rc.son i) (cc.son j))
    refine ⟨by rw [this.1, kid, dif_pos i.2], by rw [this.2, kid, dif_pos j.2], ih _ ?_ _ _ rfl⟩
    have := CRef.sizeOf_son rc i; have := CRef.sizeOf_son cc j; omega

/-- A cluster with two indices and two sons. -/
def hc2 : CRef Nat := .root (.mk ⟨0, 2, 1, fun _ => 0, fun _ => 0, 3, 0⟩
  [.mk ⟨0, 1, 1, fun _ => 0, fun _ => 0, 1, 0⟩ [], .mk ⟨1, 1, 1, fun _ => 0, fun _ => 0, 1, 0⟩ []])

/-- A 2 × 2 block matrix with a low-rank block in the lower left corner and dense blocks elsewhere. -/
def hx2 (a b c d : K) : HV Nat K := .super hc2 hc2 2 2 (fun i j =>
  if i = 1 ∧ j = 0 then .rk (kid hc2 1) (kid hc2 0) ⟨⟨1, 1, fun _ _ => c⟩, ⟨1, 1, fun _ _ => 1⟩, 1⟩
  else .full (kid hc2 i) (kid hc2 j) ⟨1, 1, fun _ _ => if i = 0 then (if j = 0 then a else b) else d⟩)

theorem hx2_ok (a b c d : K) : HVOk (hx2 a b c d) ∧ HVStd (hx2 a b c d) := by
  have seg : Segments hc2 (fun i : Fin 2 => kid hc2 i.1) := by
    constructor
    · decide
    · decide
  refine ⟨⟨by omega, by omega, ⟨fun i => kid hc2 i, fun i => kid hc2 i, fun i j => ?_, seg, seg⟩, fun i j => ?_⟩,
    Or.inl (by decide), by decide, by decide, fun i j => ⟨?_, ?_, ?_⟩⟩
  all_goals fin_cases i <;> fin_cases j <;> first | exact ⟨rfl, rfl⟩ | rfl | exact ⟨⟨rfl, rfl⟩, rfl, rfl⟩ | trivial

/-- The hypotheses of `C46_addmul` hold for a mix of block structures: the target is subdivided, a low-rank matrix or a dense
matrix. -/
example (a b c d : K) (z : VMat K) (hz : z.rows = 2) (hz' : z.cols = 2) :
    ∃ z', addmul exactOps 1 true false (hx2 a b c d) (hx2 a b c d) (.full hc2 hc2 z) = .ok z' ∧
      hentry z' 1 0 = z.e 1 0 + (star b * a + star d * c) := by
  obtain ⟨z', e, -, -, h⟩ := C46_addmul C46_lossless_exists 1 true false (hx2_ok a b c d).1 (hx2_ok a b c d).2 (hx2_ok a b c d).1
    (hx2_ok a b c d).2 (z := .full hc2 hc2 z) ⟨hz, hz'⟩ trivial rfl rfl rfl
  refine ⟨z', e, ?_⟩
  rw [h]
  have e1 : hentry (.full hc2 hc2 z : HV Nat K) 1 0 = z.e 1 0 := by
    unfold hentry
    rw [hval_full, if_pos (by rw [mem_seg, mem_seg]; show (0 ≤ 0 + 1 ∧ 0 + 1 < 0 + 2) ∧ 0 ≤ 0 + 0 ∧ 0 + 0 < 0 + 2; omega)]; rfl
  have key : ∀ i < 2, ∀ j < 2, hentry (hx2 a b c d) i j = if i = 0 then (if j = 0 then a else b) else (if j = 0 then c else d) := by
    intro i hi j hj
    unfold hentry hx2
    rw [hval_super, Fin.sum_univ_two, Fin.sum_univ_two, Fin.sum_univ_two]
    have m0 : ∀ i, 0 + i ∈ seg (kid hc2 0) ↔ i = 0 := by
      intro i; rw [mem_seg]; show 0 ≤ 0 + i ∧ 0 + i < 0 + 1 ↔ _; omega
    have m1 : ∀ i, 0 + i ∈ seg (kid hc2 1) ↔ i = 1 := by
      intro i; rw [mem_seg]; show 1 ≤ 0 + i ∧ 0 + i < 1 + 1 ↔ _; omega
    show hval (.full (kid hc2 0) (kid hc2 0) ⟨1, 1, fun _ _ => a⟩) (0 + i) (0 + j) +
      hval (.full (kid hc2 0) (kid hc2 1) ⟨1, 1, fun _ _ => b⟩) (0 + i) (0 + j) +
      (hval (.rk (kid hc2 1) (kid hc2 0) ⟨⟨1, 1, fun _ _ => c⟩, ⟨1, 1, fun _ _ => 1⟩, 1⟩) (0 + i) (0 + j) +
      hval (.full (kid hc2 1) (kid hc2 1) ⟨1, 1, fun _ _ => d⟩) (0 + i) (0 + j)) = _
    rw [hval_full, hval_full, hval_full, hval_rk]
    simp only [m0, m1]
    rcases (show i = 0 ∨ i = 1 by omega) with rfl | rfl <;> rcases (show j = 0 ∨ j = 1 by omega) with rfl | rfl <;>
      simp [rkVal]
  rw [e1]
  show _ + 1 * ∑ l ∈ Finset.range 2, star (hentry (hx2 a b c d) l 1) * hentry (hx2 a b c d) l 0 = _
  rw [Finset.sum_range_succ, Finset.sum_range_one, key 0 (by omega) 1 (by omega), key 0 (by omega) 0 (by omega),
    key 1 (by omega) 1 (by omega), key 1 (by omega) 0 (by omega)]
  simp

/-! ## the adjoint case of `add_amatrix_hmatrix` -/

/-- A 2 × 2 block matrix with dense blocks. -/
def hd2 : HV Nat K := .super hc2 hc2 2 2 (fun i j => .full (kid hc2 i) (kid hc2 j) (.zero 1 1))

/-- `add_amatrix_hmatrix` with `atrans = true` does not add the adjoint if the H-matrix is subdivided: the blocks of the matrix
instead of those of its adjoint are used.  Adding the adjoint of the matrix with the only nonzero hentry `1` in the first row
and second column to zero results in an hentry `1` in the first row and second column, where the adjoint has `0`. -/
theorem C46_add_amatrix_hmatrix_adjoint_wrong (T : TruncOps K) :
    let a : VMat K := ⟨2, 2, fun i j => if i = 0 ∧ j = 1 then 1 else 0⟩
    ∃ z', addAmH T 1 true a (hd2 : HV Nat K) = .ok z' ∧ a.oe true 0 1 = 0 ∧ hentry (hd2 : HV Nat K) 0 1 = 0 ∧ hentry z' 0 1 = 1 := by
  intro a
  refine ⟨.super hc2 hc2 2 2 (setSon (setSon (setSon (setSon (fun i j => .full (kid hc2 i) (kid hc2 j) (.zero 1 1))
    0 0 (.full (kid hc2 0) (kid hc2 0) ⟨1, 1, fun i j => if i < 1 ∧ j < 1 then 0 + 1 * star (a.e (0 + j) (0 + i)) else 0⟩))
    1 0 (.full (kid hc2 1) (kid hc2 0) ⟨1, 1, fun i j => if i < 1 ∧ j < 1 then 0 + 1 * star (a.e (1 + j) (0 + i)) else 0⟩))
    0 1 (.full (kid hc2 0) (kid hc2 1) ⟨1, 1, fun i j => if i < 1 ∧ j < 1 then 0 + 1 * star (a.e (0 + j) (1 + i)) else 0⟩))
    1 1 (.full (kid hc2 1) (kid hc2 1) ⟨1, 1, fun i j => if i < 1 ∧ j < 1 then 0 + 1 * star (a.e (1 + j) (1 + i)) else 0⟩)),
    rfl, ?_, ?_, ?_⟩
  · simp [a, VMat.oe]
  · unfold hentry hd2
    rw [hval_super]
    refine Finset.sum_eq_zero fun i _ => Finset.sum_eq_zero fun j _ => ?_
    rw [hval_full]
    simp [VMat.zero]
  · unfold hentry
    rw [hval_super, Fin.sum_univ_two, Fin.sum_univ_two, Fin.sum_univ_two]
    show hval (.full (kid hc2 0) (kid hc2 0) ⟨1, 1, fun i j => if i < 1 ∧ j < 1 then 0 + 1 * star (a.e (0 + j) (0 + i)) else 0⟩) 0 1 +
      hval (.full (kid hc2 0) (kid hc2 1) ⟨1, 1, fun i j => if i < 1 ∧ j < 1 then 0 + 1 * star (a.e (0 + j) (1 + i)) else 0⟩) 0 1 +
      (hval (.full (kid hc2 1) (kid hc2 0) ⟨1, 1, fun i j => if i < 1 ∧ j < 1 then 0 + 1 * star (a.e (1 + j) (0 + i)) else 0⟩) 0 1 +
      hval (.full (kid hc2 1) (kid hc2 1) ⟨1, 1, fun i j => if i < 1 ∧ j < 1 then 0 + 1 * star (a.e (1 + j) (1 + i)) else 0⟩) 0 1) = _
    have m0 : ∀ i, 0 + i ∈ seg (kid hc2 0) ↔ i = 0 := by
      intro i; rw [mem_seg]; show 0 ≤ 0 + i ∧ 0 + i < 0 + 1 ↔ _; omega
    have m1 : ∀ i, 0 + i ∈ seg (kid hc2 1) ↔ i = 1 := by
      intro i; rw [mem_seg]; show 1 ≤ 0 + i ∧ 0 + i < 1 + 1 ↔ _; omega
    rw [hval_full, hval_full, hval_full, hval_full]
    rw [if_neg (fun h => by have := (m0 1).1 h.2; omega), if_pos ⟨(m0 0).2 rfl, (m1 1).2 rfl⟩,
      if_neg (fun h => by have := (m1 0).1 h.1; omega), if_neg (fun h => by have := (m1 0).1 h.1; omega)]
    show 0 + (if 0 < 1 ∧ 0 < 1 then 0 + 1 * star (a.e (0 + 0) (1 + 0)) else 0) + (0 + 0) = 1
    simp [a]

end H2.Props
