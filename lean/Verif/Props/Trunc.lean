import Verif.Proof.Trunc4
import Verif.Proof.TruncExist
import Verif.Props.HSolve

/-!
# C63: truncated arithmetic of low-rank matrices

`trunc_rkmatrix`, `add_rkmatrix`, `add_amatrix_rkmatrix`, and `merge_rkmatrix` return low-rank representations of the input, the sum, or the
merged matrix that have the accuracy demanded by the truncation mode, and no matrix of a lower rank has this accuracy.  All sizes, ranks
(including ranks exceeding the sizes), truncation modes and tolerances; `field` is `ℝ` or `ℂ`.
-/

set_option linter.unusedSectionVars false

namespace H2.Props
open Spec Tr Svd HV
variable {𝕜 : Type} [RCLike 𝕜] {env : TrEnv 𝕜} {tm : Option Trunc.Mode} {eps : ℝ}

/-- The rank of a truncated representation does not exceed the rank of any exact representation of the matrix. -/
theorem C63_rank {rows cols : Nat} {M : Nat → Nat → 𝕜} {r : VRk 𝕜} (h : Truncated tm eps rows cols M r) (k : Nat) (X Y : Nat → Nat → 𝕜)
    (hM : ∀ i < rows, ∀ j < cols, lowRank k X Y i j = M i j) : r.k ≤ k := by
  by_contra hk
  exact h.least k (by omega) X Y (close_self hM)

/-- With the tolerance zero a truncated representation is exact. -/
theorem C63_exact {rows cols : Nat} {M : Nat → Nat → 𝕜} {r : VRk 𝕜} (h : Truncated tm 0 rows cols M r) :
    ∀ i < rows, ∀ j < cols, rkVal r i j = M i j := fun _ hi _ hj => close_zero h.close hi hj

/-- `trunc_rkmatrix` returns a representation of lowest rank of the demanded accuracy, and never increases the rank. -/
theorem C63_trunc (he : ExactEnv env) (heps : 0 ≤ eps) {r : VRk 𝕜} (hr : RkOk r) :
    ∃ r', trunc env tm eps r = .ok r' ∧ Truncated tm eps r.A.rows r.B.rows (rkVal r) r' ∧ r'.k ≤ r.k := by
  obtain ⟨r', e, h⟩ := trunc_tot tm eps he hr
  have := h.truncated heps
  exact ⟨r', e, this, C63_rank this r.k r.A.e r.B.e fun _ _ _ _ => rfl⟩

/-- `add_rkmatrix` returns a representation of lowest rank of an approximation of `trg + alpha src` of the demanded accuracy. -/
theorem C63_add (he : ExactEnv env) (heps : 0 ≤ eps) (alpha : 𝕜) {src trg : VRk 𝕜} (hs : RkOk src) (ht : RkOk trg) (h1 : src.A.rows = trg.A.rows)
    (h2 : src.B.rows = trg.B.rows) :
    ∃ r, addRk env tm eps alpha src trg = .ok r ∧ r.k ≤ src.k + trg.k ∧
      Truncated tm eps trg.A.rows trg.B.rows (fun i j => rkVal trg i j + alpha * rkVal src i j) r := by
  obtain ⟨r, e, h⟩ := addRk_tot tm eps he alpha hs ht h1 h2
  have h3 := h.truncated heps
  refine ⟨r, e, C63_rank h3 (src.k + trg.k) (fun i l => if l < src.k then alpha * src.A.e i l else trg.A.e i (l - src.k))
    (fun j l => if l < src.k then src.B.e j l else trg.B.e j (l - src.k)) fun i _ j _ => ?_, h3⟩
  unfold lowRank rkVal
  rw [add_comm (∑ _ ∈ _, _), Finset.mul_sum, ← sum_joined]
  refine Finset.sum_congr rfl fun l _ => ?_
  beta_reduce
  by_cases e : l < src.k
  · rw [if_pos e, if_pos e, if_pos e, mul_assoc]
  · rw [if_neg e, if_neg e, if_neg e]

/-- `add_amatrix_rkmatrix` returns a representation of lowest rank of an approximation of `b + beta op(a)` of the demanded accuracy, where
`beta = alpha` except in the case of fewer rows than columns: then `beta` is the complex conjugate of `alpha`. -/
theorem C63_add_dense (he : ExactEnv env) (heps : 0 ≤ eps) (alpha : 𝕜) (atrans : Bool) {a : VMat 𝕜} {b : VRk 𝕜} (hb : RkOk b)
    (h1 : a.orows atrans = b.A.rows) (h2 : a.ocols atrans = b.B.rows) :
    ∃ r, addAm env tm eps alpha atrans a b = .ok r ∧ Truncated tm eps b.A.rows b.B.rows (fun i j =>
      rkVal b i j + (if b.A.rows < b.B.rows then star alpha else alpha) * a.oe atrans i j) r := by
  obtain ⟨r, e, h⟩ := addAm_tot tm eps he alpha atrans hb h1 h2
  exact ⟨r, e, h.truncated heps⟩

/-- Defect: with complex coefficients, `add_amatrix_rkmatrix` does not add `alpha a` if the matrix has fewer rows than columns, even with the
tolerance zero. -/
theorem C63_add_dense_defect {env : TrEnv ℂ} (he : ExactEnv env) : ∃ (alpha : ℂ) (a : VMat ℂ) (b r : VRk ℂ), RkOk b ∧ a.rows = b.A.rows ∧ a.cols = b.B.rows ∧
    addAm env tm 0 alpha false a b = .ok r ∧ ∃ i < b.A.rows, ∃ j < b.B.rows, rkVal r i j ≠ rkVal b i j + alpha * a.e i j := by
  obtain ⟨r, e, h⟩ := C63_add_dense (tm := tm) he le_rfl Complex.I false (a := ⟨1, 2, fun _ _ => 1⟩) (b := ⟨⟨1, 0, fun _ _ => 0⟩, ⟨2, 0, fun _ _ => 0⟩, 0⟩) ⟨rfl, rfl⟩ rfl rfl
  refine ⟨Complex.I, ⟨1, 2, fun _ _ => 1⟩, ⟨⟨1, 0, fun _ _ => 0⟩, ⟨2, 0, fun _ _ => 0⟩, 0⟩, r, ⟨rfl, rfl⟩, rfl, rfl, e, 0, by simp, 0, by simp, ?_⟩
  rw [C63_exact h 0 (by simp) 0 (by simp)]
  simp only [VMat.oe]
  rw [if_pos (by norm_num)]
  intro h'
  have := congrArg Complex.im h'
  simp at this
  norm_num at this

/-- the merged matrix: `trg` above (`colmerge`) or to the left of `src` -/
theorem C63_merge_col (he : ExactEnv env) (heps : 0 ≤ eps) {src trg : VRk 𝕜} (hs : RkOk src) (ht : RkOk trg) (h : src.B.rows = trg.B.rows) :
    ∃ r, merge env tm eps true src trg = .ok r ∧ Truncated tm eps (trg.A.rows + src.A.rows) trg.B.rows
      (fun i j => if i < trg.A.rows then rkVal trg i j else rkVal src (i - trg.A.rows) j) r := by
  unfold merge
  rw [if_pos rfl, cassert_true (by simpa using h), ok_bind]
  obtain ⟨⟨B, A, k⟩, e, hr⟩ := mergeCore_tot tm eps he (n := trg.B.rows) rfl ht.2 ht.1 h hs.2 hs.1
  rw [e, ok_bind]
  refine ⟨_, rfl, (hr.swap.congr fun i _ j _ => ?_).truncated heps⟩
  have hsw : ∀ (x : VRk 𝕜) i j, rkVal x i j = star (lowRank x.k x.B.e x.A.e j i) := fun x i j => by
    unfold rkVal lowRank
    rw [star_sum]
    exact Finset.sum_congr rfl fun l _ => by rw [star_mul', star_star, mul_comm]
  by_cases e : i < trg.A.rows
  · rw [if_pos e, if_pos e, hsw]
  · rw [if_neg e, if_neg e, hsw]

theorem C63_merge_row (he : ExactEnv env) (heps : 0 ≤ eps) {src trg : VRk 𝕜} (hs : RkOk src) (ht : RkOk trg) (h : src.A.rows = trg.A.rows) :
    ∃ r, merge env tm eps false src trg = .ok r ∧ Truncated tm eps trg.A.rows (trg.B.rows + src.B.rows)
      (fun i j => if j < trg.B.rows then rkVal trg i j else rkVal src i (j - trg.B.rows)) r := by
  unfold merge
  rw [if_neg (by simp), cassert_true (by simpa using h), ok_bind, h]
  obtain ⟨⟨A, B, k⟩, e, hr⟩ := mergeCore_tot tm eps he (n := trg.A.rows) rfl ht.1 ht.2 h hs.1 hs.2
  rw [e, ok_bind]
  exact ⟨_, rfl, hr.truncated heps⟩

/-- With real coefficients and the tolerance zero the truncated operations are lossless, in all truncation modes. -/
theorem C63_lossless {env : TrEnv ℝ} (he : ExactEnv env) (tm : Option Trunc.Mode) : Lossless (ops env tm 0) where
  addRk alpha src trg hs ht h1 h2 := by
    obtain ⟨r, e, -, h⟩ := C63_add (tm := tm) he le_rfl alpha hs ht h1 h2
    exact ⟨r, e, h.ok, h.rows_eq, h.cols_eq, C63_exact h⟩
  addAm alpha atrans a trg ht h1 h2 := by
    obtain ⟨r, e, h⟩ := C63_add_dense (tm := tm) he le_rfl alpha atrans ht h1 h2
    refine ⟨r, e, h.ok, h.rows_eq, h.cols_eq, fun i hi j hj => ?_⟩
    rw [C63_exact h i hi j hj]
    simp
  mergeCol src trg hs ht h0 := by
    obtain ⟨r, e, h⟩ := C63_merge_col (tm := tm) he le_rfl hs ht h0
    exact ⟨r, e, h.ok, h.rows_eq, h.cols_eq, C63_exact h⟩
  mergeRow src trg hs ht h0 := by
    obtain ⟨r, e, h⟩ := C63_merge_row (tm := tm) he le_rfl hs ht h0
    exact ⟨r, e, h.ok, h.rows_eq, h.cols_eq, C63_exact h⟩

/-- With complex coefficients they are not. -/
theorem C63_not_lossless {env : TrEnv ℂ} (he : ExactEnv env) (tm : Option Trunc.Mode) : ¬ Lossless (ops env tm 0) := by
  intro h
  obtain ⟨alpha, a, b, r, hb, h1, h2, e, i, hi, j, hj, hne⟩ := C63_add_dense_defect (tm := tm) he
  obtain ⟨r', e', -, -, -, h3⟩ := h.addAm alpha false a b hb h1 h2
  obtain rfl : r = r' := Except.ok.inj (e.symm.trans e')
  exact hne (h3 i hi j hj)

/-- The LR factorization of real H-matrices, carried out with the truncated operations of the library and the tolerance zero, is an exact
factorization if the leading minors do not vanish, and aborts otherwise. -/
theorem C63_lrdecomp {G : Type} {env : TrEnv ℝ} (he : ExactEnv env) (tm : Option Trunc.Mode) {a : HV G ℝ} (ha : HVOk a) (ha' : HVStd a) (hs : SqOk a) (hd : DiagSizes a) :
    ((∀ k ≤ a.rsize, minor (hentry a) k ≠ 0) ∧ ∃ a', lrdecompH (ops env tm 0) a a = .ok a' ∧ SameShape a a' ∧ HVOk a' ∧
      (∀ i < a.rsize, hentry a' i i ≠ 0) ∧ ∀ i < a.rsize, ∀ j < a.rsize,
        ∑ l ∈ Finset.range a.rsize, tri true true (hentry a') i l * tri false false (hentry a') l j = hentry a i j) ∨
    ((∃ k ≤ a.rsize, minor (hentry a) k = 0) ∧ lrdecompH (ops env tm 0) a a = .error .assertFail) :=
  C45_lrdecomp (C63_lossless he tm) ha ha' hs hd

/-! ## Hypotheses are satisfiable -/

/-- an environment in which all factorizations are exact -/
noncomputable def trEnvEx : TrEnv ℝ := ⟨⟨Dense.sgnReal, 0, fun _ => 7⟩, svdFn⟩
theorem trEnvEx_ok : ExactEnv trEnvEx := ⟨C56_sign_real, rfl, svdFn_ok⟩
noncomputable def trEnvExC : TrEnv ℂ := ⟨⟨Dense.sgnComplex 0, 0, fun _ => 7⟩, svdFn⟩
theorem trEnvExC_ok : ExactEnv trEnvExC := ⟨show SignFn 0 (Dense.sgnComplex 0) by simpa using C56_sign_complex le_rfl, rfl, svdFn_ok⟩

/-- `diag(1, 0, 0)` in a representation of rank two is truncated to rank one -/
example : ∃ r, trunc trEnvEx (some ⟨true, true⟩) (1 / 2) ⟨⟨3, 2, fun i j => if i = 0 ∧ j = 0 then 1 else 0⟩, ⟨3, 2, fun i j => if i = 0 ∧ j = 0 then 1 else 0⟩, 2⟩ = .ok r ∧
    r.k = 1 := by
  obtain ⟨r, e, h, -⟩ := C63_trunc (tm := some ⟨true, true⟩) (eps := 1 / 2) trEnvEx_ok (by norm_num)
    (r := ⟨⟨3, 2, fun i j => if i = 0 ∧ j = 0 then 1 else 0⟩, ⟨3, 2, fun i j => if i = 0 ∧ j = 0 then 1 else 0⟩, 2⟩) ⟨rfl, rfl⟩
  refine ⟨r, e, ?_⟩
  have h1 : r.k ≤ 1 := C63_rank h 1 (fun i _ => if i = 0 then 1 else 0) (fun i _ => if i = 0 then 1 else 0) fun i _ j _ => by
    unfold lowRank rkVal
    simp [Finset.sum_range_succ]
  have h2 : r.k ≠ 0 := fun h0 => by
    have := h.close
    unfold CloseTo frobSq vecSq rkVal at this
    simp only [h0] at this
    simp [Finset.sum_range_succ] at this
    norm_num at this
  omega

example : ∃ r, addRk trEnvEx none 0 2 ⟨⟨2, 1, fun i _ => i⟩, ⟨5, 1, fun i _ => i⟩, 1⟩ ⟨⟨2, 1, fun _ _ => 1⟩, ⟨5, 1, fun _ _ => 1⟩, 1⟩ = .ok r ∧ rkVal r 1 3 = 7 := by
  obtain ⟨r, e, -, h⟩ := C63_add (tm := none) trEnvEx_ok le_rfl 2 (src := ⟨⟨2, 1, fun i _ => i⟩, ⟨5, 1, fun i _ => i⟩, 1⟩) (trg := ⟨⟨2, 1, fun _ _ => 1⟩, ⟨5, 1, fun _ _ => 1⟩, 1⟩)
    ⟨rfl, rfl⟩ ⟨rfl, rfl⟩ rfl rfl
  refine ⟨r, e, ?_⟩
  rw [C63_exact h 1 (by norm_num) 3 (by norm_num)]
  simp [rkVal]
  norm_num

example : ∃ r, merge trEnvEx (some ⟨false, true⟩) 0 true ⟨⟨2, 1, fun i _ => i⟩, ⟨5, 1, fun i _ => i⟩, 1⟩ ⟨⟨4, 1, fun _ _ => 1⟩, ⟨5, 1, fun _ _ => 1⟩, 1⟩ = .ok r ∧ rkVal r 5 3 = 3 := by
  obtain ⟨r, e, h⟩ := C63_merge_col (tm := some ⟨false, true⟩) trEnvEx_ok le_rfl (src := ⟨⟨2, 1, fun i _ => i⟩, ⟨5, 1, fun i _ => i⟩, 1⟩) (trg := ⟨⟨4, 1, fun _ _ => 1⟩, ⟨5, 1, fun _ _ => 1⟩, 1⟩)
    ⟨rfl, rfl⟩ ⟨rfl, rfl⟩ rfl
  refine ⟨r, e, ?_⟩
  rw [C63_exact h 5 (by norm_num) 3 (by norm_num)]
  simp [rkVal]

example : ¬ Lossless (ops trEnvExC none 0) := C63_not_lossless trEnvExC_ok none

end H2.Props
