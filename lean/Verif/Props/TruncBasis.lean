import Verif.Proof.TruncBasis6
import Verif.Props.Project
import Verif.Props.Trunc

/-! # C74: truncation of cluster bases (`truncate_clusterbasis`) -/

set_option linter.unusedSectionVars false

namespace H2.Props
open Spec TB
variable {G 𝕜 : Type} [RCLike 𝕜]

theorem trunc_run {env : TrEnv 𝕜} (he : ExactEnv env) {cb : CBV G 𝕜} {cw clw : Option (COp G 𝕜)} {tm : Option CMode} {eps : ℝ} {cbnew : CBV G 𝕜} {old2new : COp G 𝕜}
    (h : TruncArgs cb cw clw tm eps cbnew old2new) :
    Tot (CBV.truncate env cb cw clw tm eps cbnew old2new) (TruncPost tm (fun _ => 0) (clw = none) eps cb clw cw) := by
  unfold CBV.truncate
  have h1 := truncIter_tot he h.level h.ok h.full h.total h.loc (W := if clw.isSome then some (VMat.fresh env.toQrEnv 0 cb.k) else none) ?_ ?_ h.eps h.new h.op
  · have h2 : enO cb.k (if clw.isSome then some (VMat.fresh env.toQrEnv 0 cb.k) else none) = fun _ => (0 : ℝ) := by
      funext x
      cases clw with
      | none => rfl
      | some z => show en cb.k 0 _ x = 0; unfold en vecSq; simp
    have h3 : ((if clw.isSome then some (VMat.fresh env.toQrEnv 0 cb.k) else none) = none) = (clw = none) := by
      cases clw <;> simp
    rwa [h2, h3] at h1
  · intro w hw
    cases clw with
    | none => exact absurd hw (by simp)
    | some z => rw [← Option.some.inj (show some _ = some w from hw)]; rfl
  · cases clw <;> simp

/-- For every basis, all weights, every mode and every tolerance the truncation succeeds: the new basis is consistent and orthonormal, no rank has become larger and no rank exceeds
the size of its cluster, the stored numbers of coefficients are correct, and the operator contains the matrices `Q_t^* V_t` of the basis change. -/
theorem C74_truncate {env : TrEnv 𝕜} (he : ExactEnv env) {cb : CBV G 𝕜} {cw clw : Option (COp G 𝕜)} {tm : Option CMode} {eps : ℝ} {cbnew : CBV G 𝕜} {old2new : COp G 𝕜}
    (h : TruncArgs cb cw clw tm eps cbnew old2new) :
    ∃ cb' co', CBV.truncate env cb cw clw tm eps cbnew old2new = .ok (cb', co') ∧ CBVOk cb' ∧ Orthonormal cb' ∧ Reduced cb cb' ∧ VCounts cb' ∧ OpDims cb cb' co' ∧
      Products cb' cb co' := by
  obtain ⟨⟨cb', co'⟩, e, p⟩ := trunc_run he h
  exact ⟨cb', co', e, p.ok, p.orth, p.red, p.counts, p.dims, p.prod⟩

open Classical in
/-- Accuracy for absolute errors in the Frobenius norm or the spectral norm: in each cluster `t` the error `‖(V_t - Q_t Q_t^* V_t) C_t^*‖²` is bounded by the square of the
tolerance for this cluster times the sum of `(zeta_level / zeta_age)^(2 d)` for all descendants, where `C_t` is the local weight, the total weight, or (without weights) the identity.
If total weights are given, or no weights at all, they have to be nested (`Inherits`). -/
theorem C74_accuracy {env : TrEnv 𝕜} (he : ExactEnv env) {cb : CBV G 𝕜} {cw clw : Option (COp G 𝕜)} {frob blocks : Bool} {zl za eps : ℝ} {cbnew : CBV G 𝕜} {old2new : COp G 𝕜}
    (h : TruncArgs cb cw clw (some ⟨⟨frob, true⟩, blocks, zl, za⟩) eps cbnew old2new) (hza : 0 < za) (hi : Inherits (cw = none ∧ clw = none) za cb cw) :
    ∃ cb' co', CBV.truncate env cb cw clw (some ⟨⟨frob, true⟩, blocks, zl, za⟩) eps cbnew old2new = .ok (cb', co') ∧
      Accurate frob (cw = none ∧ clw = none) ((zl / za) ^ 2) zl eps cb cb' clw cw := by
  obtain ⟨⟨cb', co'⟩, e, p⟩ := trunc_run he h
  exact ⟨cb', co', e, cert_accurate hza cb (fun _ => le_rfl) (fun hu => hu.1)
    (p.cert frob (cw = none ∧ clw = none) (.inl ⟨blocks, zl, za, rfl⟩) (fun hu => ⟨hu.2, hu.1⟩)) hi⟩

theorem inherits_none {za : ℝ} {un : Prop} [Decidable un] (hu : ¬ un) : ∀ (cb : CBV G 𝕜), Inherits un za cb none := by
  intro cb
  induction cb with
  | mk t k kt kb V E n son ih =>
    intro i
    refine ⟨fun x => ?_, ih i⟩
    have a1 : ∀ k (y : Nat → 𝕜), totalSq un (none : Option (COp G 𝕜)) k y = 0 := fun k y => if_neg hu
    show za ^ 2 * totalSq un none _ _ ≤ totalSq un none _ _
    rw [a1, a1, mul_zero]

open Classical in
/-- Local weights only: no further hypotheses are required. -/
theorem C74_local {env : TrEnv 𝕜} (he : ExactEnv env) {cb : CBV G 𝕜} {clw : COp G 𝕜} {frob blocks : Bool} {zl za eps : ℝ} {cbnew : CBV G 𝕜} {old2new : COp G 𝕜}
    (h : TruncArgs cb none (some clw) (some ⟨⟨frob, true⟩, blocks, zl, za⟩) eps cbnew old2new) (hza : 0 < za) :
    ∃ cb' co', CBV.truncate env cb none (some clw) (some ⟨⟨frob, true⟩, blocks, zl, za⟩) eps cbnew old2new = .ok (cb', co') ∧
      Accurate frob False ((zl / za) ^ 2) zl eps cb cb' (some clw) none := by
  obtain ⟨cb', co', e, p⟩ := C74_accuracy he h hza (inherits_none (by simp) cb)
  exact ⟨cb', co', e, by simpa using p⟩

open Classical in
/-- No weights, orthonormal basis: no further hypotheses are required for `zeta_age ≤ 1`. -/
theorem C74_unweighted {env : TrEnv 𝕜} (he : ExactEnv env) {cb : CBV G 𝕜} {frob blocks : Bool} {zl za eps : ℝ} {cbnew : CBV G 𝕜} {old2new : COp G 𝕜}
    (h : TruncArgs cb none none (some ⟨⟨frob, true⟩, blocks, zl, za⟩) eps cbnew old2new) (hza : 0 < za) (hza' : za ≤ 1) (ho : Orthonormal cb) :
    ∃ cb' co', CBV.truncate env cb none none (some ⟨⟨frob, true⟩, blocks, zl, za⟩) eps cbnew old2new = .ok (cb', co') ∧
      Accurate frob True ((zl / za) ^ 2) zl eps cb cb' none none := by
  obtain ⟨cb', co', e, p⟩ := C74_accuracy he h hza (inherits_orth ⟨rfl, rfl⟩ hza.le hza' cb h.ok ho)
  exact ⟨cb', co', e, by simpa using p⟩

/-- If no cluster has more than `c` sons and `c (zeta_level / zeta_age)² < 1`, the sums in the estimates are bounded independently of the tree. -/
theorem C74_sum {c : Nat} {q : ℝ} (hq : 0 ≤ q) (hc : c * q < 1) : ∀ {cb : CBV G 𝕜}, SonsLe c cb → treeSum q cb ≤ 1 / (1 - c * q) := by
  intro cb
  induction cb with
  | mk t k kt kb V E n son ih =>
    intro h
    unfold treeSum
    have h1 : ∑ i, q * treeSum q (son i) ≤ ∑ _i : Fin n, q * (1 / (1 - c * q)) := Finset.sum_le_sum fun i _ => mul_le_mul_of_nonneg_left (ih i (h.2 i)) hq
    rw [Finset.sum_const, Finset.card_univ, Fintype.card_fin, nsmul_eq_mul] at h1
    have h2 : (n : ℝ) ≤ c := by exact_mod_cast h.1
    have h3 : 0 < 1 - c * q := by linarith
    have h4 : (n : ℝ) * (q * (1 / (1 - c * q))) ≤ c * (q * (1 / (1 - c * q))) := mul_le_mul_of_nonneg_right h2 (by positivity)
    have h5 : 1 + c * (q * (1 / (1 - c * q))) = 1 / (1 - c * q) := by field_simp; ring
    linarith

/-- The tolerance zero without weights: the old basis is contained in the new one, `V_t = Q_t C_t` for all clusters `t`, in every mode. -/
theorem C74_exact {env : TrEnv 𝕜} (he : ExactEnv env) {cb : CBV G 𝕜} {tm : Option CMode} {cbnew : CBV G 𝕜} {old2new : COp G 𝕜}
    (h : TruncArgs cb none none tm 0 cbnew old2new) :
    ∃ cb' co', CBV.truncate env cb none none tm 0 cbnew old2new = .ok (cb', co') ∧ Orthonormal cb' ∧ Changes cb cb' co' := by
  obtain ⟨⟨cb', co'⟩, e, p⟩ := trunc_run he h
  exact ⟨cb', co', e, p.orth, cert_changes cb (fun _ => le_rfl) (p.cert false True (.inr rfl) fun _ => ⟨rfl, rfl⟩) h.ok p.ok p.dims p.prod⟩

/-- Truncating both bases with the tolerance zero and switching to the new bases does not change an H²-matrix. -/
theorem C74_exact_matrix {env : TrEnv 𝕜} (he : ExactEnv env) {h : H2V G 𝕜} (ho : H2VOk h) {tm : Option CMode} {rbnew cbnew : CBV G 𝕜} {ro co : COp G 𝕜}
    (hr : TruncArgs h.rb.cb none none tm 0 rbnew ro) (hc : TruncArgs h.cb.cb none none tm 0 cbnew co) {rt ct : Nat} (hrt : h.rb.tree ≠ rt) (hct : h.cb.tree ≠ ct) :
    ∃ rb cb ro' co' h', CBV.truncate env h.rb.cb none none tm 0 rbnew ro = .ok (rb, ro') ∧ CBV.truncate env h.cb.cb none none tm 0 cbnew co = .ok (cb, co') ∧
      H2V.buildProjected h ⟨rt, [], rb⟩ (some ro') ⟨ct, [], cb⟩ (some co') = .ok h' ∧ ∀ r c, h2vplace h' r c = h2vplace h r c := by
  obtain ⟨rb, ro', e1, -, c1⟩ := C74_exact he hr
  obtain ⟨cb, co', e2, -, c2⟩ := C74_exact he hc
  obtain ⟨rb1, ro1, f1, -, -, -, -, d1, -⟩ := C74_truncate he hr
  obtain ⟨cb1, co1, f2, -, -, -, -, d2, -⟩ := C74_truncate he hc
  have g1 := Except.ok.inj (e1.symm.trans f1)
  have g2 := Except.ok.inj (e2.symm.trans f2)
  obtain ⟨rfl, rfl⟩ := Prod.mk.inj g1
  obtain ⟨rfl, rfl⟩ := Prod.mk.inj g2
  obtain ⟨h', e3, -, -, e4⟩ := C59_exact ho (rb := ⟨rt, [], rb⟩) (cb := ⟨ct, [], cb⟩) (ro := some ro') (co := some co') (.inr ⟨hrt, ro', rfl, d1⟩) (.inr ⟨hct, co', rfl, d2⟩)
    (.inr ⟨ro', rfl, hrt, c1⟩) (.inr ⟨co', rfl, hct, c2⟩)
  exact ⟨rb, cb, ro', co', h', e1, e2, e3, e4⟩

/-- The basis has to be defined for the entire cluster tree: a basis that ends at a cluster with sons violates an assertion (without local weights). -/
theorem C74_not_full {env : TrEnv 𝕜} {t : CRef G} {k kt kb : Nat} {V E : VMat 𝕜} {n : Nat} {son : Fin n → CBV G 𝕜} (h : n < t.nsons) (cw : Option (COp G 𝕜)) (tm : Option CMode)
    (eps : ℝ) (cbnew : CBV G 𝕜) (old2new : COp G 𝕜) : CBV.truncate env (.mk t k kt kb V E n son) cw none tm eps cbnew old2new = .error .assertFail := by
  unfold CBV.truncate
  rw [if_neg (by simp), CBV.truncIter]
  simp only [truncPreO]
  rw [show (pure none : R (Option (VMat 𝕜))) = .ok none from rfl, ok_bind, if_neg (by omega)]
  unfold cassert
  rw [if_neg (by rw [decide_eq_true_eq]; omega)]
  rfl

/-! ### examples -/

/-- a local weight for the root, with one row -/
def clwEx : COp Nat ℝ := .mk (CRef.root bex) 1 3 ⟨1, 3, fun _ j => j⟩ 0 (fun i => i.elim0)
/-- weights for all clusters -/
def cwEx : COp Nat ℝ := .mk (CRef.root bex) 1 3 ⟨1, 3, fun _ _ => 0⟩ 2 (fun i => .mk (bs i) 2 (if i = 0 then 2 else 1) ⟨2, if i = 0 then 2 else 1, fun i j => i + j⟩ 0 (fun i => i.elim0))

theorem cbvEx_isFull : CBVFull cbvEx := ⟨rfl, fun i => by fin_cases i <;> exact ⟨rfl, rfl, fun i => i.elim0⟩⟩
theorem cbvEx_same : SameClusters cbvEx cbvEx := ⟨rfl, rfl, fun i => by fin_cases i <;> exact ⟨rfl, rfl, fun i => i.elim0⟩⟩
theorem coEx_cl : OpClusters coEx cbvEx := ⟨rfl, rfl, fun i => by fin_cases i <;> exact ⟨rfl, rfl, fun i => i.elim0⟩⟩
theorem clwEx_for : OpFor clwEx cbvEx := ⟨rfl, rfl, rfl, rfl, fun i => i.elim0⟩
theorem cwEx_for : OpFor cwEx cbvEx := ⟨rfl, rfl, rfl, rfl, fun i h => by fin_cases i <;> exact ⟨rfl, rfl, rfl, rfl, fun i => i.elim0⟩⟩

theorem truncArgsEx {cw clw : Option (COp Nat ℝ)} (h1 : cw = none ∨ cw = some cwEx) (h2 : clw = none ∨ clw = some clwEx) {tm : Option CMode} (h3 : 0 ≤ CMode.level tm) {eps : ℝ} (h4 : 0 ≤ eps) :
    TruncArgs cbvEx cw clw tm eps cbvEx coEx := by
  refine ⟨cbvEx_ok, cbvEx_isFull, fun z hz => ?_, fun z hz => ?_, h3, h4, cbvEx_same, coEx_cl⟩
  · rcases h1 with rfl | rfl
    · cases hz
    · rw [← Option.some.inj hz]; exact cwEx_for
  · rcases h2 with rfl | rfl
    · cases hz
    · rw [← Option.some.inj hz]; exact clwEx_for

open Classical in
/-- the hypotheses of C74_accuracy hold with both kinds of weights (the total weight of the root vanishes, those of the sons do not) -/
example : ∃ cb' co', CBV.truncate trEnvEx cbvEx (some cwEx) (some clwEx) (some ⟨⟨true, true⟩, false, 1 / 2, 1⟩) (1 / 10) cbvEx coEx = .ok (cb', co') ∧ Orthonormal cb' ∧
    Accurate true False (1 / 4) (1 / 2) (1 / 10) cbvEx cb' (some clwEx) (some cwEx) := by
  have ha := truncArgsEx (.inr rfl : some cwEx = none ∨ some cwEx = some cwEx) (.inr rfl : some clwEx = none ∨ some clwEx = some clwEx)
    (tm := some ⟨⟨true, true⟩, false, 1 / 2, 1⟩) (by show (0 : ℝ) ≤ 1 / 2; norm_num) (eps := 1 / 10) (by norm_num)
  obtain ⟨cb', co', e, p⟩ := C74_accuracy trEnvEx_ok ha one_pos (by
    refine fun i => ⟨fun x => ?_, by fin_cases i <;> exact fun i => i.elim0⟩
    have h1 : ∀ y : Nat → ℝ, totalSq (some cwEx = none ∧ some clwEx = none) (some cwEx) 3 y = 0 := fun y => by
      show vecSq 1 (matVec 3 (fun _ _ => (0 : ℝ)) y) = 0
      unfold vecSq matVec
      simp
    rw [h1, mul_zero]
    exact totalSq_nonneg _ _ _ _)
  obtain ⟨cb1, co1, e1, -, o1, -⟩ := C74_truncate trEnvEx_ok ha
  have g := Except.ok.inj (e1.symm.trans e)
  rw [(Prod.mk.inj g).1] at o1
  refine ⟨cb', co', e, o1, ?_⟩
  norm_num at p
  simpa using p

/-- the hypotheses of C74_local, C74_exact and C74_exact_matrix hold -/
example : (∃ cb' co', CBV.truncate trEnvEx cbvEx none (some clwEx) (some ⟨⟨false, true⟩, false, 1 / 2, 1⟩) (1 / 10) cbvEx coEx = .ok (cb', co') ∧
      Accurate false False ((1 / 2 / 1) ^ 2) (1 / 2) (1 / 10) cbvEx cb' (some clwEx) none) ∧
    ∃ cb' co', CBV.truncate trEnvEx cbvEx none none none 0 cbvEx coEx = .ok (cb', co') ∧ Orthonormal cb' ∧ Changes cbvEx cb' co' :=
  ⟨C74_local trEnvEx_ok (truncArgsEx (.inl rfl) (.inr rfl) (by show (0 : ℝ) ≤ 1 / 2; norm_num) (by norm_num)) one_pos,
    C74_exact trEnvEx_ok (truncArgsEx (.inl rfl) (.inl rfl) (by show (0 : ℝ) ≤ 1; norm_num) le_rfl)⟩

/-- C74_sum: binary trees -/
example : treeSum (1 / 4) cbvEx ≤ 2 := by
  have := C74_sum (c := 2) (q := 1 / 4) (by norm_num) (by norm_num) (cb := cbvEx) ⟨le_rfl, fun i => by fin_cases i <;> exact ⟨by decide, fun i => i.elim0⟩⟩
  norm_num at this
  linarith

/-- C74_not_full: `cbvFlat` has no sons, its cluster has two -/
example (cbnew : CBV Nat ℝ) (old2new : COp Nat ℝ) : CBV.truncate trEnvEx cbvFlat none none none 0 cbnew old2new = .error .assertFail :=
  C74_not_full (by decide) none none 0 cbnew old2new

end H2.Props
