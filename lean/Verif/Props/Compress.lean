import Verif.Proof.Compress4
import Verif.Props.LocalWeights

/-! # C76: compression of H²-matrices (`compress_h2matrix_h2matrix`, `localweights_h2matrix`, `truncate_clusterbasis`, `build_projected_h2matrix`) -/

set_option linter.unusedSectionVars false

namespace H2.Props
open Spec TB
variable {G 𝕜 : Type} [RCLike 𝕜]

open Classical in
theorem trunc_weights {env : TrEnv 𝕜} (he : ExactEnv env) {b : BRef G 𝕜} (hp : b.path = []) (ho : CBVOk b.cb) (hf : CBVFull b.cb) {f : List Nat → (Nat → 𝕜) → ℝ} {old lw : COp G 𝕜}
    (hold : OpFull old b.cb) (hz : ∀ p, old.nodeAt p = none ∨ ∃ nd, old.nodeAt p = some nd ∧ nd.krow = 0) (hc : Contrib f b old lw) {tm : Option CMode} (hl : 0 ≤ CMode.level tm) {eps : ℝ}
    (hep : 0 ≤ eps) {cbnew : CBV G 𝕜} {old2new : COp G 𝕜} (hs : SameClusters b.cb cbnew) (hop : OpClusters old2new b.cb) :
    Tot (CBV.truncate env b.cb none (some lw) tm eps cbnew old2new) fun r => OpDims b.cb r.1 r.2 ∧ ZeroT f b.cb [] r.1 ∧ Orthonormal r.1 ∧
      ∀ frob blocks zl za, tm = some ⟨⟨frob, true⟩, blocks, zl, za⟩ → 0 < za → ∀ rt, b.tree ≠ rt → Half frob ((zl / za) ^ 2) zl eps f b ⟨rt, [], r.1⟩ (some r.2) := by
  have ha : TruncArgs b.cb none (some lw) tm eps cbnew old2new :=
    ⟨ho, hf, (fun z h0 => by cases h0), (fun z h0 => by rw [← Option.some.inj h0]; exact opFull_for (opFull_contrib hold hc)), hl, hep, hs, hop⟩
  refine (trunc_run he ha).mono ?_
  rintro ⟨cb', co'⟩ p
  refine ⟨p.dims, ?_, p.orth, fun frob blocks zl za htm hza rt hrt => ⟨hrt, ⟨co', rfl, p.dims, p.prod⟩, p.orth, p.ok, p.red, ?_⟩⟩
  · rw [← hp]
    exact zeroT_of hold hc hz (p.lost (by simp) rfl fun _ => rfl)
  · subst htm
    have h1 := cert_accurate hza b.cb (fun _ => le_rfl) (fun hu => hu.1) (p.cert frob ((none : Option (COp G 𝕜)) = none ∧ some lw = none) (.inl ⟨blocks, zl, za, rfl⟩) (fun hu => ⟨hu.2, hu.1⟩))
      (inherits_none (by simp) b.cb)
    have h2 := errT_of hold hc hz h1
    rw [hp, List.length_nil, pow_zero, mul_one]
    rw [hp] at h2
    exact h2

theorem compressed_of {frob blocks : Bool} {zl za eps : ℝ} {h : H2V G 𝕜} (ha : LWArgs h) (hpr : h.rb.path = []) (hpc : h.cb.path = []) {rt ct : Nat} {rb cb : CBV G 𝕜} {ro co : COp G 𝕜}
    (h1 : Half frob ((zl / za) ^ 2) zl eps (rowSum (some ⟨⟨frob, true⟩, blocks, zl, za⟩) h) h.rb ⟨rt, [], rb⟩ (some ro))
    (h2 : Half frob ((zl / za) ^ 2) zl eps (colSum (some ⟨⟨frob, true⟩, blocks, zl, za⟩) h) h.cb ⟨ct, [], cb⟩ (some co)) :
    Tot (H2V.buildProjected h ⟨rt, [], rb⟩ (some ro) ⟨ct, [], cb⟩ (some co)) (Compressed frob blocks zl za eps h) := by
  refine (buildProjected_tot ha.ok h1.change h2.change).mono fun h' hp => ?_
  obtain ⟨k1, k2, k3⟩ := projected_ok ha.ok h1.change h2.change hp
  have hq : (0 : ℝ) ≤ (zl / za) ^ 2 := sq_nonneg _
  refine ⟨k1, by rw [k2]; exact h1.orth, by rw [k3]; exact h2.orth, blocks_close hq ha.ok h1 h2 (fun _ _ => le_rfl) (fun _ _ => le_rfl) hp, ?_⟩
  rintro rfl rfl
  refine (err_total (tm := some ⟨⟨true, true⟩, false, zl, za⟩) (fun rb cb S => ?_) ha.ok ha.single ha.rok ha.cok h1 h2 hp).trans (add_le_add ?_ ?_)
  · unfold blockScale
    simp
  · refine totE_le hq ?_
    have := h1.err
    rw [hpr, List.length_nil, pow_zero, mul_one] at this
    rw [hpr]
    exact this
  · refine totE_le hq ?_
    have := h2.err
    rw [hpc, List.length_nil, pow_zero, mul_one] at this
    rw [hpc]
    exact this

/-- Compression by weights, truncation and projection, for every H²-matrix, in the Frobenius or the spectral norm, with or without scaling of the blocks: if the row basis is truncated with the
weights for the rows and the column basis with the weights for the columns, all functions succeed, and the error of each block and the error of the entire matrix are bounded. -/
theorem C76_sequence {env : LWEnv 𝕜} (he : ExactEnv env.toTrEnv) {frob blocks : Bool} {zl za eps : ℝ} (hn : ExactNorm env (some ⟨⟨frob, true⟩, blocks, zl, za⟩)) {h : H2V G 𝕜} (ha : LWArgs h)
    (hpr : h.rb.path = []) (hpc : h.cb.path = []) (hzl : 0 ≤ zl) (hza : 0 < za) (hep : 0 ≤ eps) {rt ct : Nat} (hrt : h.rb.tree ≠ rt) (hct : h.cb.tree ≠ ct) :
    ∃ rbw cbw rw cw rbn cbn rb ro cb co h',
      CBV.weight env.toQrEnv h.rb.cb (COp.ofBasis env.junk h.rb.cb) = .ok rbw ∧ CBV.weight env.toQrEnv h.cb.cb (COp.ofBasis env.junk h.cb.cb) = .ok cbw ∧
      H2V.localweights env h (some rbw) (some cbw) (some ⟨⟨frob, true⟩, blocks, zl, za⟩) (some (COp.ofBasis env.junk h.rb.cb)) (some (COp.ofBasis env.junk h.cb.cb)) = .ok (rw, cw) ∧
      CBV.cloneStructure env.toQrEnv h.rb.cb = .ok rbn ∧ CBV.cloneStructure env.toQrEnv h.cb.cb = .ok cbn ∧
      CBV.truncate env.toTrEnv h.rb.cb none (some rw) (some ⟨⟨frob, true⟩, blocks, zl, za⟩) eps rbn (COp.ofBasis env.junk h.rb.cb) = .ok (rb, ro) ∧
      CBV.truncate env.toTrEnv h.cb.cb none (some cw) (some ⟨⟨frob, true⟩, blocks, zl, za⟩) eps cbn (COp.ofBasis env.junk h.cb.cb) = .ok (cb, co) ∧
      H2V.buildProjected h ⟨rt, [], rb⟩ (some ro) ⟨ct, [], cb⟩ (some co) = .ok h' ∧ Compressed frob blocks zl za eps h h' := by
  have hw : ∀ {cb : CBV G 𝕜}, CBVOk cb → ∃ z, CBV.weight env.toQrEnv cb (COp.ofBasis env.junk cb) = .ok z ∧ Weights cb z ∧ OpFull z cb := by
    intro cb ho
    obtain ⟨z, e, p⟩ := weight_tot he.sgn he.tiny.ge ho (ofBasis_tree env.toQrEnv.junk cb)
    have w := p.w (by rw [he.tiny, max_self])
    exact ⟨z, e, w, opFull_of (weight_clusters (ofBasis_clusters _ cb) e) w⟩
  obtain ⟨rbw, e1, w1, w1'⟩ := hw ha.rok
  obtain ⟨cbw, e2, w2, w2'⟩ := hw ha.cok
  obtain ⟨⟨rw, cw⟩, e3, c1, c2⟩ := localweights_tot he hn ha w1 w1' w2 w2' (ofBasis_full env.junk h.rb.cb) (ofBasis_full env.junk h.cb.cb)
  obtain ⟨rbn, e4, s1⟩ := cloneStructure_tot env.toQrEnv ha.rfull
  obtain ⟨cbn, e5, s2⟩ := cloneStructure_tot env.toQrEnv ha.cfull
  obtain ⟨⟨rb, ro⟩, e6, -, -, -, t1⟩ := trunc_weights he hpr ha.rok ha.rfull (ofBasis_full env.junk h.rb.cb) (ofBasis_zero _ _) c1 (tm := some ⟨⟨frob, true⟩, blocks, zl, za⟩) hzl hep s1 (ofBasis_clusters env.junk _)
  obtain ⟨⟨cb, co⟩, e7, -, -, -, t2⟩ := trunc_weights he hpc ha.cok ha.cfull (ofBasis_full env.junk h.cb.cb) (ofBasis_zero _ _) c2 (tm := some ⟨⟨frob, true⟩, blocks, zl, za⟩) hzl hep s2 (ofBasis_clusters env.junk _)
  obtain ⟨h', e8, p⟩ := compressed_of ha hpr hpc (t1 frob blocks zl za rfl hza rt hrt) (t2 frob blocks zl za rfl hza ct hct)
  exact ⟨rbw, cbw, rw, cw, rbn, cbn, rb, ro, cb, co, h', e1, e2, e3, e4, e5, e6, e7, e8, p⟩

/-- the function up to the computation of the local weights -/
theorem compress_head {env : LWEnv 𝕜} (he : ExactEnv env.toTrEnv) {tm : Option CMode} (hn : ExactNorm env tm) {h : H2V G 𝕜} (ha : LWArgs h) (eps : ℝ) (rt ct : Nat) :
    ∃ rw cw rbn cbn, Contrib (rowSum tm h) h.rb (COp.ofBasis env.junk h.rb.cb) rw ∧ Contrib (colSum tm h) h.cb (COp.ofBasis env.junk h.cb.cb) cw ∧ SameClusters h.rb.cb rbn ∧ SameClusters h.cb.cb cbn ∧
      H2V.compress env h false false tm eps rt ct = (do
        let r ← CBV.truncate env.toTrEnv h.rb.cb none (some cw) tm eps rbn (COp.ofBasis env.junk h.rb.cb)
        let c ← CBV.truncate env.toTrEnv h.cb.cb none (some rw) tm eps cbn (COp.ofBasis env.junk h.cb.cb)
        H2V.buildProjected h ⟨rt, [], r.1⟩ (some r.2) ⟨ct, [], c.1⟩ (some c.2)) := by
  obtain ⟨_, e1, rbw, rfl, w1, w1'⟩ := basisWeight_tot he ha.rok
  obtain ⟨_, e2, cbw, rfl, w2, w2'⟩ := basisWeight_tot he ha.cok
  obtain ⟨⟨rw, cw⟩, e3, c1, c2⟩ := localweights_tot he hn ha w1 w1' w2 w2' (ofBasis_full env.junk h.rb.cb) (ofBasis_full env.junk h.cb.cb)
  obtain ⟨rbn, e4, s1⟩ := cloneStructure_tot env.toQrEnv ha.rfull
  obtain ⟨cbn, e5, s2⟩ := cloneStructure_tot env.toQrEnv ha.cfull
  refine ⟨rw, cw, rbn, cbn, c1, c2, s1, s2, ?_⟩
  unfold H2V.compress
  rw [e1, ok_bind, e2, ok_bind, e3, ok_bind, e4, ok_bind, e5]
  rfl

/-- `compress_h2matrix_h2matrix` exchanges the weights for rows and columns.  For matrices with only one basis for rows and columns, where the contributions of the blocks in a row and in the
corresponding column are equal (for example, Hermitian matrices), this makes no difference, and the bounds hold. -/
theorem C76_symmetric {env : LWEnv 𝕜} (he : ExactEnv env.toTrEnv) {frob blocks : Bool} {zl za eps : ℝ} (hn : ExactNorm env (some ⟨⟨frob, true⟩, blocks, zl, za⟩)) {h : H2V G 𝕜} (ha : LWArgs h)
    (hpr : h.rb.path = []) (hpc : h.cb.path = []) (hb : h.cb.cb = h.rb.cb)
    (hsym : ∀ p x, rowSum (some ⟨⟨frob, true⟩, blocks, zl, za⟩) h p x = colSum (some ⟨⟨frob, true⟩, blocks, zl, za⟩) h p x)
    (hzl : 0 ≤ zl) (hza : 0 < za) (hep : 0 ≤ eps) {rt ct : Nat} (hrt : h.rb.tree ≠ rt) (hct : h.cb.tree ≠ ct) :
    ∃ h', H2V.compress env h false false (some ⟨⟨frob, true⟩, blocks, zl, za⟩) eps rt ct = .ok h' ∧ Compressed frob blocks zl za eps h h' := by
  obtain ⟨rw, cw, rbn, cbn, c1, c2, s1, s2, e⟩ := compress_head he hn ha eps rt ct
  have hf : rowSum (some ⟨⟨frob, true⟩, blocks, zl, za⟩) h = colSum (some ⟨⟨frob, true⟩, blocks, zl, za⟩) h := by funext p x; exact hsym p x
  have hmove : ∀ {f : List Nat → (Nat → 𝕜) → ℝ} {old new : COp G 𝕜} {b b' : BRef G 𝕜}, b.path = b'.path → b.cb = b'.cb → Contrib f b old new → Contrib f b' old new := by
    intro f old
    induction old with
    | mk ot okr okc oC on oson ih =>
      intro new b b' e1 e2 hc
      obtain ⟨bt, bp, bc⟩ := b
      obtain ⟨bt', bp', bc'⟩ := b'
      replace e1 : bp = bp' := e1
      replace e2 : bc = bc' := e2
      subst e1 e2
      obtain ⟨c1, c2, c3, c4, c5, e, c7⟩ := hc
      exact ⟨c1, c2, c3, c4, c5, e, fun i hi => ih i (b := BRef.son ⟨bt, bp, bc⟩ ⟨i, hi⟩) rfl rfl (c7 i hi)⟩
  have d1 : Contrib (rowSum (some ⟨⟨frob, true⟩, blocks, zl, za⟩) h) h.rb (COp.ofBasis env.junk h.rb.cb) cw := by
    rw [hf]
    rw [hb] at c2
    exact hmove (hpc.trans hpr.symm) hb c2
  have d2 : Contrib (colSum (some ⟨⟨frob, true⟩, blocks, zl, za⟩) h) h.cb (COp.ofBasis env.junk h.cb.cb) rw := by
    rw [← hf]
    rw [← hb] at c1
    exact hmove (hpr.trans hpc.symm) hb.symm c1
  rw [e]
  obtain ⟨⟨rb, ro⟩, e6, -, -, -, t1⟩ := trunc_weights he hpr ha.rok ha.rfull (ofBasis_full env.junk h.rb.cb) (ofBasis_zero _ _) d1 (tm := some ⟨⟨frob, true⟩, blocks, zl, za⟩) hzl hep s1 (ofBasis_clusters env.junk _)
  obtain ⟨⟨cb, co⟩, e7, -, -, -, t2⟩ := trunc_weights he hpc ha.cok ha.cfull (ofBasis_full env.junk h.cb.cb) (ofBasis_zero _ _) d2 (tm := some ⟨⟨frob, true⟩, blocks, zl, za⟩) hzl hep s2 (ofBasis_clusters env.junk _)
  rw [e6, ok_bind, e7, ok_bind]
  exact compressed_of ha hpr hpc (t1 frob blocks zl za rfl hza rt hrt) (t2 frob blocks zl za rfl hza ct hct)

/-- the contributions of the rows of a matrix are those of the columns of its adjoint -/
theorem rowSum_adjoint (tm : Option CMode) (h h' : H2V G 𝕜) (ho : H2VOk h) (ha : AdjointOf h h') (p : List Nat) (x : Nat → 𝕜) : rowSum tm h p x = colSum tm h' p x := by
  induction h generalizing h' with
  | zero rb cb => obtain rfl := ha; rfl
  | full rb cb f => obtain ⟨f', rfl, -⟩ := ha; rfl
  | uni rb cb S =>
    obtain ⟨S', rfl, -, -, hS⟩ := ha
    obtain ⟨o1, o2⟩ := ho
    replace hS : ∀ a < rb.cb.k, ∀ b < cb.cb.k, S'.e b a = star (S.e a b) := fun a ha b hb => hS a (by omega) b (by omega)
    have hM : ∀ i j, blockMat cb.cb rb.cb S' i j = star (blockMat rb.cb cb.cb S j i) := by
      intro i j
      unfold blockMat
      rw [Finset.sum_comm, star_sum]
      refine Finset.sum_congr rfl fun a ha => ?_
      rw [star_sum]
      refine Finset.sum_congr rfl fun b hb => ?_
      rw [hS a (Finset.mem_range.mp ha) b (Finset.mem_range.mp hb)]
      simp only [star_mul', star_star]
      ring
    have hn : ∀ frob, normOf frob cb.cb.t.cl.size rb.cb.t.cl.size (blockMat cb.cb rb.cb S') = normOf frob rb.cb.t.cl.size cb.cb.t.cl.size (blockMat rb.cb cb.cb S) := by
      intro frob
      rw [normOf_adj (p := rb.cb.t.cl.size)]
      exact normOf_congr fun i _ j _ => hM i j
    have hb : blockScale tm cb.cb rb.cb S' = blockScale tm rb.cb cb.cb S := by
      unfold blockScale
      cases tm with
      | none => rfl
      | some m => simp only [hn]
    unfold rowSum colSum
    rw [hb]
    refine ite_congr rfl (fun _ => ?_) (fun _ => rfl)
    congr 1
    refine Svd.vecSq_congr fun j _ => Finset.sum_congr rfl fun b hb => ?_
    congr 1
    exact Finset.sum_congr rfl fun a ha => by rw [hS a (Finset.mem_range.mp ha) b (Finset.mem_range.mp hb)]
  | super rb cb m n son ih =>
    obtain ⟨son', rfl, hs⟩ := ha
    obtain ⟨-, -, -, ho⟩ := ho
    show ∑ i : Fin m, ∑ j : Fin n, rowSum tm (son i j) p x = ∑ j : Fin n, ∑ i : Fin m, colSum tm (son' j i) p x
    rw [Finset.sum_comm]
    exact Finset.sum_congr rfl fun j _ => Finset.sum_congr rfl fun i _ => ih i j _ (ho i j) (hs i j)

/-- `compress_h2matrix_h2matrix` for Hermitian matrices: it succeeds, and the error of each block and the error of the entire matrix are bounded. -/
theorem C76_hermitian {env : LWEnv 𝕜} (he : ExactEnv env.toTrEnv) {frob blocks : Bool} {zl za eps : ℝ} (hn : ExactNorm env (some ⟨⟨frob, true⟩, blocks, zl, za⟩)) {h : H2V G 𝕜} (ha : LWArgs h)
    (hpr : h.rb.path = []) (hh : AdjointOf h h) (hzl : 0 ≤ zl) (hza : 0 < za) (hep : 0 ≤ eps) {rt ct : Nat} (hrt : h.rb.tree ≠ rt) (hct : h.rb.tree ≠ ct) :
    ∃ h', H2V.compress env h false false (some ⟨⟨frob, true⟩, blocks, zl, za⟩) eps rt ct = .ok h' ∧ Compressed frob blocks zl za eps h h' := by
  have hb : h.cb = h.rb := by
    cases h with
    | zero rb cb => exact (congrArg H2V.rb (show H2V.zero rb cb = .zero cb rb from hh)).symm
    | full rb cb f => obtain ⟨f', e, -⟩ := hh; exact (congrArg H2V.rb e).symm
    | uni rb cb f => obtain ⟨f', e, -⟩ := hh; exact (congrArg H2V.rb e).symm
    | super rb cb m n f => obtain ⟨f', e, -⟩ := hh; exact (congrArg H2V.rb e).symm
  exact C76_symmetric he hn ha hpr (by rw [hb]; exact hpr) (by rw [hb]) (fun p x => rowSum_adjoint _ h h ha.ok hh p x) hzl hza hep hrt (by rw [hb]; exact hct)

/-- Different clusters or different ranks for rows and columns: an assertion is violated, for every matrix, mode and tolerance. -/
theorem C76_mismatch {env : LWEnv 𝕜} (he : ExactEnv env.toTrEnv) {tm : Option CMode} (hn : ExactNorm env tm) {h : H2V G 𝕜} (ha : LWArgs h)
    (hd : h.cb.cb.t.same h.rb.cb.t = false ∨ h.cb.cb.k ≠ h.rb.cb.k) (eps : ℝ) (rt ct : Nat) : H2V.compress env h false false tm eps rt ct = .error .assertFail := by
  obtain ⟨rw, cw, rbn, cbn, -, c2, -, -, e⟩ := compress_head he hn ha eps rt ct
  rw [e]
  have hw := opFull_for (opFull_contrib (ofBasis_full env.junk h.cb.cb) c2)
  obtain ⟨f1, f2, -, -⟩ := opFor_root hw
  have : CBV.truncate env.toTrEnv h.rb.cb none (some cw) tm eps rbn (COp.ofBasis env.junk h.rb.cb) = .error .assertFail := by
    unfold CBV.truncate
    rw [if_pos (show (some cw).isSome = true from rfl)]
    obtain ⟨x, hx⟩ : ∃ x, x = h.rb.cb := ⟨_, rfl⟩
    rw [← hx] at hd ⊢
    cases x with
    | mk t k kt kb V E n son =>
      unfold CBV.truncIter
      show ((do
        let W ← truncPre env.toQrEnv t k (VMat.fresh env.toQrEnv 0 k) (some cw)
        pure (some W)) >>= _) = _
      have h1 : truncPre env.toQrEnv t k (VMat.fresh env.toQrEnv 0 k) (some cw) = .error .assertFail := by
        unfold truncPre
        rw [cassert_true (by simp [VMat.fresh]), ok_bind]
        simp only
        rcases hd with hd | hd
        · rw [f1]
          replace hd : h.cb.cb.t.same t = false := hd
          rw [hd]
          rfl
        · cases hs : cw.t.same t
          · rfl
          · replace hd : h.cb.cb.k ≠ k := hd
            rw [cassert_true rfl, ok_bind, f2]
            unfold cassert
            rw [if_neg (by simpa using hd)]
            rfl
      rw [h1]
      rfl
  rw [this]
  rfl

/-- `rbortho` or `cbortho`: a null pointer is dereferenced, for every matrix, mode and tolerance. -/
theorem C76_ortho {env : LWEnv 𝕜} (he : ExactEnv env.toTrEnv) {h : H2V G 𝕜} (ha : LWArgs h) {rbortho cbortho : Bool} (hb : rbortho = true ∨ cbortho = true) (tm : Option CMode) (eps : ℝ) (rt ct : Nat) :
    H2V.compress env h rbortho cbortho tm eps rt ct = .error .ub := by
  unfold H2V.compress
  by_cases hr : rbortho = true
  · subst hr
    rw [show CBV.basisWeight env.toQrEnv true h.rb.cb = .ok none from rfl, ok_bind]
    obtain ⟨z, e⟩ : ∃ z, CBV.basisWeight env.toQrEnv cbortho h.cb.cb = .ok z := by
      cases cbortho with
      | true => exact ⟨_, rfl⟩
      | false => obtain ⟨z, e, -⟩ := basisWeight_tot he ha.cok; exact ⟨z, e⟩
    rw [e, ok_bind, localweights_null]
    rfl
  · have hc : cbortho = true := hb.resolve_left hr
    have hr' : rbortho = false := by simpa using hr
    subst hc hr'
    obtain ⟨z, e, z', rfl, -, h1⟩ := basisWeight_tot he ha.rok
    rw [e, ok_bind, show CBV.basisWeight env.toQrEnv true h.cb.cb = .ok none from rfl, ok_bind, (C75_null ha.rfull _ _).2 z' h1]
    rfl

/-- The effect of the exchanged weights for matrices with one basis: the function succeeds in every mode, but all blocks are lost, whatever the tolerance is, for which there are no
blocks in the column that corresponds to their row cluster (or its predecessors). -/
theorem C76_lost {env : LWEnv 𝕜} (he : ExactEnv env.toTrEnv) {tm : Option CMode} (hn : ExactNorm env tm) {h : H2V G 𝕜} (ha : LWArgs h) (hpr : h.rb.path = []) (hpc : h.cb.path = []) (hb : h.cb.cb = h.rb.cb)
    (hl : 0 ≤ CMode.level tm) {eps : ℝ} (hep : 0 ≤ eps) {rt ct : Nat} (hrt : h.rb.tree ≠ rt) (hct : h.cb.tree ≠ ct) :
    ∃ h', H2V.compress env h false false tm eps rt ct = .ok h' ∧ H2VOk h' ∧ RowsLost (colSum tm h) h h' := by
  obtain ⟨rw, cw, rbn, cbn, c1, c2, s1, s2, e⟩ := compress_head he hn ha eps rt ct
  rw [e]
  have s1' : SameClusters h.cb.cb rbn := by rw [hb]; exact s1
  have s2' : SameClusters h.rb.cb cbn := by rw [← hb]; exact s2
  obtain ⟨⟨rb, ro⟩, e6, d1, z1, -, -⟩ := trunc_weights he hpc ha.cok ha.cfull (ofBasis_full env.junk h.cb.cb) (ofBasis_zero _ _) c2 (tm := tm) hl hep s1' (ofBasis_clusters env.junk _)
  obtain ⟨⟨cb, co⟩, e7, d2, -⟩ := trunc_weights he hpr ha.rok ha.rfull (ofBasis_full env.junk h.rb.cb) (ofBasis_zero _ _) c1 (tm := tm) hl hep s2' (ofBasis_clusters env.junk _)
  rw [hb] at e6 d1 z1
  rw [← hb] at e7 d2
  rw [e6, ok_bind, e7, ok_bind]
  have b1 : BChange h.rb ⟨rt, [], rb⟩ (some ro) := .inr ⟨hrt, ro, rfl, d1⟩
  have b2 : BChange h.cb ⟨ct, [], cb⟩ (some co) := .inr ⟨hct, co, rfl, d2⟩
  obtain ⟨h', e8, hp⟩ := buildProjected_tot ha.ok b1 b2
  refine ⟨h', e8, (projected_ok ha.ok b1 b2 hp).1, rows_lost ha.ok b1 b2 (fun _ => ?_) hp⟩
  rw [hpr]
  exact z1

/-- the blocks of a matrix: only the block (0, 1) is not zero -/
def h2vLostSon (i j : Fin 2) : H2V Nat ℝ := match i, j with
  | 0, 1 => .uni ⟨0, [0], cbvSon 0⟩ ⟨0, [1], cbvSon 1⟩ ⟨2, 1, fun a b => 1 + a + b⟩
  | 1, 0 => .zero ⟨0, [1], cbvSon 1⟩ ⟨0, [0], cbvSon 0⟩
  | 0, 0 => .zero ⟨0, [0], cbvSon 0⟩ ⟨0, [0], cbvSon 0⟩
  | 1, 1 => .zero ⟨0, [1], cbvSon 1⟩ ⟨0, [1], cbvSon 1⟩
def h2vLost : H2V Nat ℝ := .super ⟨0, [], cbvEx⟩ ⟨0, [], cbvEx⟩ 2 2 h2vLostSon

theorem h2vLost_args : LWArgs h2vLost := by
  refine ⟨⟨by decide, by decide, ⟨fun i => ⟨0, [i.1], cbvSon i⟩, fun j => ⟨0, [j.1], cbvSon j⟩, fun i j => ?_, .inr ⟨rfl, fun i => rfl⟩, .inr ⟨rfl, fun i => rfl⟩⟩, fun i j => ?_⟩,
    ⟨fun i j h => ?_, fun i j h => ?_, fun i j => ?_⟩, cbvEx_ok, cbvEx_ok, cbvEx_isFull, cbvEx_isFull⟩
  · fin_cases i <;> fin_cases j <;> exact ⟨rfl, rfl⟩
  · fin_cases i <;> fin_cases j <;> first | trivial | exact ⟨rfl, rfl⟩
  · have := congrArg BRef.path h
    fin_cases i <;> fin_cases j <;> cases this
  · have := congrArg BRef.path h
    fin_cases i <;> fin_cases j <;> cases this
  · fin_cases i <;> fin_cases j <;> trivial

theorem h2vLost_place : h2vplace h2vLost 1 3 = 7 := by
  show ∑ i : Fin 2, ∑ j : Fin 2, h2vplace (h2vLostSon i j) 1 3 = _
  rw [Fin.sum_univ_two, Fin.sum_univ_two, Fin.sum_univ_two]
  have h1 : h2vplace (h2vLostSon 0 0) 1 3 = 0 := rfl
  have h2 : h2vplace (h2vLostSon 1 1) 1 3 = 0 := rfl
  have h3 : h2vplace (h2vLostSon 1 0) 1 3 = 0 := rfl
  rw [h1, h2, h3]
  show 0 + ∑ a ∈ Finset.range 2, ∑ b ∈ Finset.range 1, vbasis (cbvSon 0) 1 a * (1 + (a : ℝ) + (b : ℝ)) * star (vbasis (cbvSon 1) 3 b) + (0 + 0) = 7
  have i1 : In (bs 0) 1 := by decide
  have i2 : In (bs 1) 3 := by decide
  have o1 : (bs 0).cl.off = 0 := by decide
  have o2 : (bs 1).cl.off = 2 := by decide
  simp [Finset.sum_range_succ, cbvSon, vbasis, i1, i2, o1, o2]
  norm_num

/-- `compress_h2matrix_h2matrix` is wrong for non-symmetric matrices: there is a matrix, not zero, that is replaced by zero in every mode and for every tolerance, even for `eps = 0`. -/
theorem C76_defect (tm : Option CMode) (hl : 0 ≤ CMode.level tm) {eps : ℝ} (hep : 0 ≤ eps) :
    LWArgs h2vLost ∧ h2vplace h2vLost 1 3 = 7 ∧ ∃ h', H2V.compress lwEnvEx h2vLost false false tm eps 1 2 = .ok h' ∧ ∀ r c, h2vplace h' r c = 0 := by
  obtain ⟨h', e, -, rb', cb', son', rfl, hs⟩ := C76_lost lwEnvEx_ok (lwEnvEx_norm tm) h2vLost_args rfl rfl rfl hl hep (rt := 1) (ct := 2) (by decide) (by decide)
  refine ⟨h2vLost_args, h2vLost_place, _, e, fun r c => ?_⟩
  have hq : ∀ x, colSum tm h2vLost [] x = 0 ∧ colSum tm h2vLost [0] x = 0 := by
    intro x
    have e : ∀ q, colSum tm h2vLost q x = 0 + colSum tm (h2vLostSon 0 1) q x + (0 + 0) := by
      intro q
      show ∑ i : Fin 2, ∑ j : Fin 2, colSum tm (h2vLostSon i j) q x = _
      rw [Fin.sum_univ_two, Fin.sum_univ_two, Fin.sum_univ_two]
      rfl
    rw [e, e]
    refine ⟨?_, ?_⟩
    · rw [show colSum tm (h2vLostSon 0 1) [] x = 0 from if_neg (by decide)]
      norm_num
    · rw [show colSum tm (h2vLostSon 0 1) [0] x = 0 from if_neg (by decide)]
      norm_num
  have h4 : ∀ r c, h2vplace (son' 0 1) r c = 0 := by
    refine hs 0 1 fun q hq' x => ?_
    replace hq' : q <+: [0] := hq'
    cases q with
    | nil => exact (hq x).1
    | cons a l =>
      rw [List.cons_prefix_cons] at hq'
      obtain ⟨rfl, hl⟩ := hq'
      rw [List.prefix_nil] at hl
      subst hl
      exact (hq x).2
  show ∑ i : Fin 2, ∑ j : Fin 2, h2vplace (son' i j) r c = _
  rw [Fin.sum_univ_two, Fin.sum_univ_two, Fin.sum_univ_two, h4, show h2vplace (son' 0 0) r c = 0 from hs 0 0 r c, show h2vplace (son' 1 0) r c = 0 from hs 1 0 r c, show h2vplace (son' 1 1) r c = 0 from hs 1 1 r c]
  norm_num

/-- C76_sequence and C76_hermitian: the matrix `h2vSq` is Hermitian -/
theorem h2vSq_herm : AdjointOf h2vSq h2vSq := by
  refine ⟨h2vSqSon, rfl, fun i j => ?_⟩
  fin_cases i <;> fin_cases j
  · rfl
  · refine ⟨_, rfl, rfl, rfl, fun a _ b _ => ?_⟩
    show 1 + (b : ℝ) + (a : ℝ) = star (1 + (a : ℝ) + (b : ℝ))
    rw [star_trivial]
    ring
  · refine ⟨_, rfl, rfl, rfl, fun a _ b _ => ?_⟩
    show 1 + (b : ℝ) + (a : ℝ) = star (1 + (a : ℝ) + (b : ℝ))
    rw [star_trivial]
    ring
  · rfl

example : ∃ h', H2V.compress lwEnvEx h2vSq false false (some ⟨⟨false, true⟩, true, 1, 1 / 2⟩) (1 / 10) 1 2 = .ok h' ∧ Compressed false true 1 (1 / 2) (1 / 10) h2vSq h' :=
  C76_hermitian lwEnvEx_ok (lwEnvEx_norm _) h2vSq_args rfl h2vSq_herm (by norm_num) (by norm_num) (by norm_num) (by decide) (by decide)

example : ∃ h', Compressed true false 1 (1 / 2) (1 / 10) h2vSq h' := by
  obtain ⟨_, _, _, _, _, _, _, _, _, _, h', _, _, _, _, _, _, _, _, p⟩ := C76_sequence lwEnvEx_ok (frob := true) (blocks := false) (zl := 1) (za := 1 / 2) (eps := 1 / 10) (lwEnvEx_norm _) h2vSq_args rfl rfl
    (by norm_num) (by norm_num) (by norm_num) (rt := 1) (ct := 2) (by decide) (by decide)
  exact ⟨h', p⟩

/-- C76_ortho: the matrix `h2vSq` -/
example : H2V.compress lwEnvEx h2vSq true false none 0 1 2 = .error .ub := C76_ortho lwEnvEx_ok h2vSq_args (.inl rfl) _ _ _ _

/-- C76_mismatch: a block that is not on the diagonal, with bases of rank 2 and 1 -/
example : H2V.compress lwEnvEx (h2vSqSon 0 1) false false none 0 1 2 = .error .assertFail := by
  have h1 : ∀ i, CBVOk (cbvSon i) := fun i => by fin_cases i <;> exact ⟨fun _ => ⟨rfl, rfl⟩, fun h => absurd h (by decide), fun i => i.elim0⟩
  have h2 : ∀ i, CBVFull (cbvSon i) := fun i => by fin_cases i <;> exact ⟨rfl, fun i => i.elim0⟩
  exact C76_mismatch (h := h2vSqSon 0 1) lwEnvEx_ok (lwEnvEx_norm _) ⟨⟨rfl, rfl⟩, trivial, h1 0, h1 1, h2 0, h2 1⟩ (.inr (by decide)) _ _ _

end H2.Props
