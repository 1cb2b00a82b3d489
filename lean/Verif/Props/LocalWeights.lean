import Verif.Proof.LocalWeights3
import Verif.Props.TruncBasis

/-! # C75: local and total weights of H²-matrices (`localweights_h2matrix`, `accumulate_clusteroperator`, `totalweights_h2matrix`) -/

set_option linter.unusedSectionVars false

namespace H2.Props
open Spec TB
variable {G 𝕜 : Type} [RCLike 𝕜]

/-- For every H²-matrix, weights of its bases, and operators `rw`, `cw` with arbitrary old weights: `localweights_h2matrix` succeeds, and in each cluster the blocks of this cluster are added to the
old weight, `C'_t^* C'_t = C_t^* C_t + ∑_b alpha_b² S_b W_s^* W_s S_b^*` (stated for the quadratic forms), the sum being taken for all uniform blocks `b = (t, s)`, each of them exactly once. -/
theorem C75_local {env : LWEnv 𝕜} (he : ExactEnv env.toTrEnv) {tm : Option CMode} (hn : ExactNorm env tm) {h : H2V G 𝕜} (ha : LWArgs h) {rbw cbw rw cw : COp G 𝕜}
    (h1 : Weights h.rb.cb rbw) (h1' : OpFull rbw h.rb.cb) (h2 : Weights h.cb.cb cbw) (h2' : OpFull cbw h.cb.cb) (h3 : OpFull rw h.rb.cb) (h4 : OpFull cw h.cb.cb) :
    ∃ rw' cw', H2V.localweights env h (some rbw) (some cbw) tm (some rw) (some cw) = .ok (rw', cw') ∧
      Contrib (rowSum tm h) h.rb rw rw' ∧ Contrib (colSum tm h) h.cb cw cw' ∧ OpFull rw' h.rb.cb ∧ OpFull cw' h.cb.cb := by
  obtain ⟨⟨r, c⟩, e, p1, p2⟩ := localweights_tot he hn ha h1 h1' h2 h2' h3 h4
  exact ⟨r, c, e, p1, p2, opFull_contrib h3 p1, opFull_contrib h4 p2⟩

/-- `accumulate_clusteroperator` succeeds, keeps the weight of the root and adds `zeta_age²` times the new weight of the father to the weight of each son. -/
theorem C75_accumulate {env : TrEnv 𝕜} (he : ExactEnv env) {cb : CBV G 𝕜} (ho : CBVOk cb) (hf : CBVFull cb) (tm : Option CMode) {co : COp G 𝕜} (h : OpFull co cb) :
    ∃ r, CBV.accumulate env.toQrEnv cb tm co = .ok r ∧ OpFull r cb ∧ r.krow = co.krow ∧ r.C = co.C ∧ Accumulated (CMode.age tm) cb co r := accumulate_tot he ho hf h

open Classical in
/-- `totalweights_h2matrix` succeeds for bases that are not marked as orthonormal: local weights, accumulated from fathers to sons; the result satisfies the condition on total weights in the
error estimate for the truncation (C74_accuracy). -/
theorem C75_total {env : LWEnv 𝕜} (he : ExactEnv env.toTrEnv) {tm : Option CMode} (hn : ExactNorm env tm) {h : H2V G 𝕜} (ha : LWArgs h) (hsame : h.rb.same h.cb = true → h.cb.cb = h.rb.cb)
    {rw cw : COp G 𝕜} (h3 : OpFull rw h.rb.cb) (h4 : OpFull cw h.cb.cb) :
    ∃ rl cl rw' cw', H2V.totalweights env h false false tm rw cw = .ok (rw', cw') ∧ Contrib (rowSum tm h) h.rb rw rl ∧ Contrib (colSum tm h) h.cb cw cl ∧
      OpFull rw' h.rb.cb ∧ OpFull cw' h.cb.cb ∧
      (rw'.krow = rl.krow ∧ rw'.C = rl.C ∧ Accumulated (CMode.age tm) h.rb.cb rl rw') ∧ (cw'.krow = cl.krow ∧ cw'.C = cl.C ∧ Accumulated (CMode.age tm) h.cb.cb cl cw') ∧
      ∀ un, Inherits un (CMode.age tm) h.rb.cb (some rw') ∧ Inherits un (CMode.age tm) h.cb.cb (some cw') := by
  obtain ⟨⟨r, c⟩, e, rl, cl, p1, p2, p3, p4, p5, p6, p7, p8⟩ := totalweights_tot he hn ha hsame h3 h4
  exact ⟨rl, cl, r, c, e, p1, p2, p3, p4, p5, ⟨p6, p7, p8⟩, fun un => ⟨inherits_of p3 p5.2.2, inherits_of p4 p8⟩⟩

theorem localweights_null {env : LWEnv 𝕜} {h : H2V G 𝕜} {tm : Option CMode} (cbw : Option (COp G 𝕜)) (rw cw : Option (COp G 𝕜)) : H2V.localweights env h none cbw tm rw cw = .error .ub := rfl

/-- Null pointers for the weights of the bases are documented to stand for orthonormal bases.  But they are dereferenced: for every H²-matrix. -/
theorem C75_null {env : LWEnv 𝕜} {h : H2V G 𝕜} (hf : CBVFull h.rb.cb) {tm : Option CMode} (rw cw : Option (COp G 𝕜)) :
    (∀ cbw, H2V.localweights env h none cbw tm rw cw = .error .ub) ∧ ∀ rbw, OpFull rbw h.rb.cb → H2V.localweights env h (some rbw) none tm rw cw = .error .ub := by
  refine ⟨fun cbw => rfl, fun rbw h1 => ?_⟩
  obtain ⟨A, e, -⟩ := TB.enumerate_tot h1 hf
  unfold H2V.localweights
  rw [e]
  rfl

/-- Hence `totalweights_h2matrix` cannot be used for bases that are marked as orthonormal. -/
theorem C75_total_ortho {env : LWEnv 𝕜} (he : ExactEnv env.toTrEnv) {h : H2V G 𝕜} (hf : CBVFull h.rb.cb) (ho : CBVOk h.rb.cb) (ho' : CBVOk h.cb.cb) {rbortho cbortho : Bool}
    (hb : rbortho = true ∨ cbortho = true) {tm : Option CMode} (rw cw : COp G 𝕜) : H2V.totalweights env h rbortho cbortho tm rw cw = .error .ub := by
  unfold H2V.totalweights
  by_cases hr : rbortho = true
  · subst hr
    rw [show CBV.basisWeight env.toQrEnv true h.rb.cb = .ok none from rfl, ok_bind]
    obtain ⟨z, e⟩ : ∃ z, H2V.colWeight env.toQrEnv cbortho (h.rb.same h.cb) none h.cb.cb = .ok z := by
      unfold H2V.colWeight
      split
      · exact ⟨_, rfl⟩
      · split
        · exact ⟨_, rfl⟩
        · obtain ⟨z, e, -⟩ := basisWeight_tot he ho'
          exact ⟨z, e⟩
    rw [e, ok_bind, localweights_null]
    rfl
  · have hc : cbortho = true := hb.resolve_left hr
    have hr' : rbortho = false := by simpa using hr
    subst hc hr'
    obtain ⟨z, e, z', rfl, -, h1⟩ := basisWeight_tot he ho
    rw [e, ok_bind, show H2V.colWeight env.toQrEnv true (h.rb.same h.cb) (some z') h.cb.cb = .ok none from rfl, ok_bind, (C75_null hf _ _).2 z' h1]
    rfl

/-! ### examples -/

/-- the blocks of a matrix: two uniform blocks of different ranks -/
def h2vSqSon (i j : Fin 2) : H2V Nat ℝ := match i, j with
  | 0, 1 => .uni ⟨0, [0], cbvSon 0⟩ ⟨0, [1], cbvSon 1⟩ ⟨2, 1, fun a b => 1 + a + b⟩
  | 1, 0 => .uni ⟨0, [1], cbvSon 1⟩ ⟨0, [0], cbvSon 0⟩ ⟨1, 2, fun a b => 1 + a + b⟩
  | 0, 0 => .zero ⟨0, [0], cbvSon 0⟩ ⟨0, [0], cbvSon 0⟩
  | 1, 1 => .zero ⟨0, [1], cbvSon 1⟩ ⟨0, [1], cbvSon 1⟩
/-- a matrix with two uniform blocks, both bases being `cbvEx` -/
def h2vSq : H2V Nat ℝ := .super ⟨0, [], cbvEx⟩ ⟨0, [], cbvEx⟩ 2 2 h2vSqSon

theorem h2vSq_args : LWArgs h2vSq := by
  refine ⟨⟨by decide, by decide, ⟨fun i => ⟨0, [i.1], cbvSon i⟩, fun j => ⟨0, [j.1], cbvSon j⟩, fun i j => ?_, .inr ⟨rfl, fun i => rfl⟩, .inr ⟨rfl, fun i => rfl⟩⟩, fun i j => ?_⟩,
    ⟨fun i j h => ?_, fun i j h => ?_, fun i j => ?_⟩, cbvEx_ok, cbvEx_ok, cbvEx_isFull, cbvEx_isFull⟩
  · fin_cases i <;> fin_cases j <;> exact ⟨rfl, rfl⟩
  · fin_cases i <;> fin_cases j <;> first | trivial | exact ⟨rfl, rfl⟩
  · have := congrArg BRef.path h
    fin_cases i <;> fin_cases j <;> cases this
  · have := congrArg BRef.path h
    fin_cases i <;> fin_cases j <;> cases this
  · fin_cases i <;> fin_cases j <;> trivial

noncomputable def lwEnvEx : LWEnv ℝ := { trEnvEx with norm2 := fun M => normOf false M.rows M.cols M.e }
theorem lwEnvEx_ok : ExactEnv lwEnvEx.toTrEnv := trEnvEx_ok
theorem lwEnvEx_norm (tm : Option CMode) : ExactNorm lwEnvEx tm := fun _ _ _ _ _ => rfl

/-- the hypotheses of C75_local, C75_accumulate and C75_total hold for `h2vSq`, with scaled blocks -/
example : ∃ rl cl rw' cw', H2V.totalweights lwEnvEx h2vSq false false (some ⟨⟨false, true⟩, true, 1, 1 / 2⟩) (COp.ofBasis (fun _ => 7) cbvEx) (COp.ofBasis (fun _ => 7) cbvEx) = .ok (rw', cw') ∧
    Contrib (rowSum (some ⟨⟨false, true⟩, true, 1, 1 / 2⟩) h2vSq) h2vSq.rb (COp.ofBasis (fun _ => 7) cbvEx) rl ∧ Contrib (colSum (some ⟨⟨false, true⟩, true, 1, 1 / 2⟩) h2vSq) h2vSq.cb (COp.ofBasis (fun _ => 7) cbvEx) cl ∧
    Accumulated (1 / 2) cbvEx rl rw' := by
  obtain ⟨rl, cl, r, c, e, p1, p2, -, -, p3, -⟩ := C75_total lwEnvEx_ok (lwEnvEx_norm (some ⟨⟨false, true⟩, true, 1, 1 / 2⟩)) h2vSq_args (fun _ => rfl) (ofBasis_full (fun _ => 7) cbvEx) (ofBasis_full (fun _ => 7) cbvEx)
  exact ⟨rl, cl, r, c, e, p1, p2, p3.2.2⟩

/-- the block (0, 1) contributes to the weight of the row cluster 0 -/
example (x : Nat → ℝ) : rowSum none h2vSq [0] x = rowSum none (h2vSqSon 0 1) [0] x := by
  show ∑ i : Fin 2, ∑ j : Fin 2, rowSum none (h2vSqSon i j) [0] x = _
  rw [Fin.sum_univ_two, Fin.sum_univ_two, Fin.sum_univ_two]
  have h1 : rowSum none (h2vSqSon 0 0) [0] x = 0 := rfl
  have h2 : rowSum none (h2vSqSon 1 1) [0] x = 0 := rfl
  have h3 : rowSum none (h2vSqSon 1 0) [0] x = 0 := if_neg (by decide)
  rw [h1, h2, h3]
  ring

/-- C75_null and C75_total_ortho: the matrix `h2vSq` -/
example : H2V.totalweights lwEnvEx h2vSq true false none (COp.ofBasis (fun _ => 7) cbvEx) (COp.ofBasis (fun _ => 7) cbvEx) = .error .ub :=
  C75_total_ortho (h := h2vSq) lwEnvEx_ok cbvEx_isFull cbvEx_ok cbvEx_ok (.inl rfl) _ _

end H2.Props
