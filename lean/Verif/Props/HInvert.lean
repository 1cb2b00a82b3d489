import Verif.Proof.HInvert5
import Verif.Proof.HChol4
import Verif.Props.HChol
import Verif.Props.Trunc

/-!
# C67: Inversion of H-matrices

`LeadRegular A off a` (Spec/HInvert.lean) says that the leading principal submatrices of `A` that end at the dense diagonal leaves of `a` are invertible, `minor A k` is the leading principal minor
of order `k`, `PD A n` says that the leading block of order `n` is positive definite.
-/

set_option linter.unusedSectionVars false

namespace H2.Props
open Spec HV Dense HI
variable {G : Type} {𝕜 : Type} [RCLike 𝕜]

/-- With lossless truncated operations, `invert_hmatrix` replaces an H-matrix by its inverse, for all block structures with symmetrically subdivided diagonal blocks and all contents of the workspace, if
the leading submatrices that end at the dense diagonal leaves are invertible. The block structures of the matrix and of the workspace do not change. -/
theorem C67_invert {T : TruncOps 𝕜} (hT : Lossless T) {sgn : 𝕜 → 𝕜} (hsgn : SignFn 0 sgn) (junk junkT : Nat → 𝕜) {a w : HV G 𝕜} (ha : HVOk a) (ha' : HVStd a) (hs : SqOk a) (hw : SameShape a w)
    (hw' : HVOk w) (hl : LeadRegular (hentry a) a.rc.cl.off a) :
    ∃ a' w', invertH T sgn 0 junk junkT a a w = .ok (a', w') ∧ SameShape a a' ∧ HVOk a' ∧ SameShape w w' ∧ HVOk w' ∧
      (∀ i < a.rsize, ∀ j < a.rsize, ∑ l ∈ Finset.range a.rsize, hentry a i l * hentry a' l j = if i = j then 1 else 0) ∧
      ∀ i < a.rsize, ∀ j < a.rsize, ∑ l ∈ Finset.range a.rsize, hentry a' i l * hentry a l j = if i = j then 1 else 0 := by
  obtain ⟨⟨a', w'⟩, e, ⟨h1, h2⟩, ⟨h3, h4⟩, h5⟩ := invertH_tot hT hsgn junk junkT (Spec.SameShape.refl a) ha ha' hs hw hw' hl
  refine ⟨a', w', e, h1, h2, h3, h4, fun i hi j hj => ?_, fun i hi j hj => ?_⟩
  · unfold InvOn at h5
    have := congrFun (congrFun h5 ⟨i, hi⟩) ⟨j, hj⟩
    rw [Matrix.mul_apply, Matrix.one_apply] at this
    rw [Finset.sum_range]
    simpa [HI.blk, Fin.ext_iff] using this
  · unfold InvOn at h5
    have h6 := mul_eq_one_comm.mp h5
    have := congrFun (congrFun h6 ⟨i, hi⟩) ⟨j, hj⟩
    rw [Matrix.mul_apply, Matrix.one_apply] at this
    rw [Finset.sum_range]
    simpa [HI.blk, Fin.ext_iff] using this

open scoped ComplexOrder in
/-- the leading submatrices of a positive definite matrix are invertible -/
theorem lead_pd {A : Nat → Nat → 𝕜} {off n : Nat} (hp : PD A n) : ∀ {c : HV G 𝕜}, HVOk c → c.rc.cl.off + c.rc.cl.size ≤ off + n → LeadRegular A off c := by
  intro c
  induction c with
  | rk => intro _ _; trivial
  | full t s f =>
    intro _ h
    replace h : t.cl.off + t.cl.size ≤ off + n := h
    have := pd_le hp (show t.cl.off + t.cl.size - off ≤ n by omega)
    unfold PD at this
    exact (Matrix.PosDef.isUnit this).map Matrix.detMonoidHom |>.ne_zero
  | super t s m n' son ih =>
    rintro ⟨_, _, ⟨R, C, h3, hR, hC⟩, hok⟩ h2 i j e
    replace h2 : t.cl.off + t.cl.size ≤ off + n := h2
    have e1 := segments_off hR i
    have e2 := segments_end hR i
    exact ih i j (hok i j) (by rw [(h3 i j).1]; omega)

/-- In particular, `invert_hmatrix` inverts all positive definite matrices, for all block structures with symmetrically subdivided diagonal blocks. -/
theorem C67_invert_pd {T : TruncOps 𝕜} (hT : Lossless T) {sgn : 𝕜 → 𝕜} (hsgn : SignFn 0 sgn) (junk junkT : Nat → 𝕜) {a w : HV G 𝕜} (ha : HVOk a) (ha' : HVStd a) (hs : SqOk a) (hw : SameShape a w)
    (hw' : HVOk w) (hp : PD (hentry a) a.rsize) :
    ∃ a' w', invertH T sgn 0 junk junkT a a w = .ok (a', w') ∧ SameShape a a' ∧ HVOk a' ∧ SameShape w w' ∧ HVOk w' ∧
      (∀ i < a.rsize, ∀ j < a.rsize, ∑ l ∈ Finset.range a.rsize, hentry a i l * hentry a' l j = if i = j then 1 else 0) ∧
      ∀ i < a.rsize, ∀ j < a.rsize, ∑ l ∈ Finset.range a.rsize, hentry a' i l * hentry a l j = if i = j then 1 else 0 :=
  C67_invert hT hsgn junk junkT ha ha' hs hw hw' (lead_pd hp ha le_rfl)

/-- `invert_hmatrix` with the truncated operations of the library over the real numbers and the tolerance zero. -/
theorem C67_invert_real {env : TrEnv ℝ} (he : ExactEnv env) (tm : Option Trunc.Mode) (junkT : Nat → ℝ) {a w : HV G ℝ} (ha : HVOk a) (ha' : HVStd a) (hs : SqOk a)
    (hw : SameShape a w) (hw' : HVOk w) (hl : LeadRegular (hentry a) a.rc.cl.off a) :
    ∃ a' w', invertH (Tr.ops env tm 0) env.sgn env.tiny env.junk junkT a a w = .ok (a', w') ∧ SameShape a a' ∧ HVOk a' ∧ SameShape w w' ∧ HVOk w' ∧
      (∀ i < a.rsize, ∀ j < a.rsize, ∑ l ∈ Finset.range a.rsize, hentry a i l * hentry a' l j = if i = j then 1 else 0) ∧
      ∀ i < a.rsize, ∀ j < a.rsize, ∑ l ∈ Finset.range a.rsize, hentry a' i l * hentry a l j = if i = j then 1 else 0 := by
  rw [he.tiny]
  exact C67_invert (C63_lossless he tm) he.sgn env.junk junkT ha ha' hs hw hw' hl

/-- Matrices without subdivision: a dense matrix is replaced by its inverse if it is invertible, a low-rank matrix leads to a failing assertion. -/
theorem C67_invert_rk {T : TruncOps 𝕜} {sgn : 𝕜 → 𝕜} {tiny : ℝ} (junk junkT : Nat → 𝕜) {t s : CRef G} {r : VRk 𝕜} {w : HV G 𝕜} :
    invertH T sgn tiny junk junkT (.rk t s r) (.rk t s r) w = .error .assertFail := by
  unfold invertH
  unfold cassert
  split <;> try rfl
  split <;> try rfl
  split <;> try rfl
  split <;> try rfl
  split <;> rfl

/-! ## the hypotheses can be met -/

/-- The matrix `hC 5` with the entries `4`, `77`, `2`, `5` is not self-adjoint and has a low-rank block; it is inverted with any workspace of the same structure. -/
example (junkT : Nat → ℝ) : ∃ a' w', invertH (Tr.ops trEnvEx none 0) trEnvEx.sgn trEnvEx.tiny trEnvEx.junk junkT (hC 5) (hC 5) (hC 13) = .ok (a', w') ∧
    hentry a' 0 0 = -5 / 134 ∧ hentry a' 1 0 = 1 / 67 ∧ hentry a' 0 1 = 77 / 134 ∧ hentry a' 1 1 = -2 / 67 := by
  obtain ⟨o1, o2, o3, -⟩ := hC_ok 5
  have hsz : (hC 5).rsize = 2 := rfl
  have sh : SameShape (hC 5) (hC 13) := by
    refine ⟨rfl, rfl, rfl, rfl, fun i j => ?_⟩
    fin_cases i <;> fin_cases j <;> exact ⟨rfl, rfl⟩
  have hl : LeadRegular (hentry (hC 5)) (hC 5).rc.cl.off (hC 5) := by
    intro i j hij
    obtain rfl : i = j := Fin.ext hij
    fin_cases i
    · show minor (hentry (hC 5)) 1 ≠ 0
      unfold minor
      rw [Matrix.det_fin_one, Matrix.of_apply]
      show hentry (hC 5) 0 0 ≠ 0
      rw [hC_entry 5 (by omega) (by omega)]
      norm_num
    · show minor (hentry (hC 5)) 2 ≠ 0
      unfold minor
      rw [Matrix.det_fin_two]
      show hentry (hC 5) 0 0 * hentry (hC 5) 1 1 - hentry (hC 5) 0 1 * hentry (hC 5) 1 0 ≠ 0
      rw [hC_entry 5 (by omega) (by omega), hC_entry 5 (by omega) (by omega), hC_entry 5 (by omega) (by omega), hC_entry 5 (by omega) (by omega)]
      norm_num
  obtain ⟨a', w', e, -, -, -, -, h, -⟩ := C67_invert_real trEnvEx_ok none junkT o1 o2 o3 sh (hC_ok 13).1 hl
  refine ⟨a', w', e, ?_⟩
  rw [hsz] at h
  have q00 := h 0 (by omega) 0 (by omega)
  have q10 := h 1 (by omega) 0 (by omega)
  have q01 := h 0 (by omega) 1 (by omega)
  have q11 := h 1 (by omega) 1 (by omega)
  simp only [Finset.sum_range_succ, Finset.sum_range_zero, hC_entry 5 (show (0 : Nat) < 2 by omega) (show (0 : Nat) < 2 by omega), hC_entry 5 (show (0 : Nat) < 2 by omega) (show (1 : Nat) < 2 by omega),
    hC_entry 5 (show (1 : Nat) < 2 by omega) (show (0 : Nat) < 2 by omega), hC_entry 5 (show (1 : Nat) < 2 by omega) (show (1 : Nat) < 2 by omega)] at q00 q10 q01 q11
  norm_num at q00 q10 q01 q11
  refine ⟨by linarith, by linarith, by linarith, by linarith⟩

end H2.Props
