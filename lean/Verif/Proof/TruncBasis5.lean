import Verif.Proof.TruncBasis4

set_option linter.unusedSectionVars false

namespace H2.TB
open Spec Svd
variable {G 𝕜 : Type} [RCLike 𝕜]

theorem setE_products {cb cb' : CBV G 𝕜} {co : COp G 𝕜} {E : VMat 𝕜} (h : Products cb cb' co) : Products (cb.setE E) cb' co := by cases cb; cases co; exact h
theorem setE_opDims {cb cb' : CBV G 𝕜} {co : COp G 𝕜} {E : VMat 𝕜} (h : OpDims cb cb' co) : OpDims cb (cb'.setE E) co := by cases cb; cases cb'; cases co; exact h
theorem setE_cert {frob : Bool} {un : Prop} [Decidable un] {za zl : ℝ} {Ein : (Nat → 𝕜) → ℝ} {eps : ℝ} {cb cb' : CBV G 𝕜} {clw cw : Option (COp G 𝕜)} {E : VMat 𝕜}
    (h : Cert frob un za zl Ein eps cb cb' clw cw) : Cert frob un za zl Ein eps cb (cb'.setE E) clw cw := by cases cb; cases cb'; exact h
theorem setE_cross' (cb cb' : CBV G 𝕜) (E : VMat 𝕜) (a b : Nat) : cross (cb.setE E) cb' a b = cross cb cb' a b := by cases cb; rfl
theorem products_root {cb cb' : CBV G 𝕜} {co : COp G 𝕜} (h : Products cb cb' co) : co.C.rows = cb.k ∧ co.C.cols = cb'.k ∧ ∀ a < cb.k, ∀ b < cb'.k, co.C.e a b = cross cb cb' a b := by
  cases co; exact ⟨h.2.2.1, h.2.2.2.1, h.2.2.2.2.1⟩
theorem opFor_root {co : COp G 𝕜} {cb : CBV G 𝕜} (h : OpFor co cb) : co.t = cb.t ∧ co.kcol = cb.k ∧ co.C.rows = co.krow ∧ co.C.cols = cb.k := by
  cases co; exact ⟨h.1, h.2.1, h.2.2.1, h.2.2.2.1⟩

theorem opFor_son {t : CRef G} {k kt kb : Nat} {V E : VMat 𝕜} {n : Nat} {son : Fin n → CBV G 𝕜} {co : Option (COp G 𝕜)}
    (h : ∀ z, co = some z → OpFor z (.mk t k kt kb V E n son)) (i : Fin n) : ∀ z, opSon co i = some z → OpFor z (son i) := by
  intro z hz
  cases co with
  | none => cases hz
  | some x =>
    have h1 := h x rfl
    cases x with
    | mk t' kr kc C n' son' =>
      have h2 : (if h : i.1 < n' then some (son' ⟨i, h⟩) else none) = some z := hz
      split at h2
      · next hlt =>
        rw [← Option.some.inj h2]
        exact h1.2.2.2.2 ⟨i, hlt⟩ i.2
      · cases h2

/-- clusters without weights get the rank zero -/
def Lost : CBV G 𝕜 → Option (COp G 𝕜) → CBV G 𝕜 → Prop
  | .mk _ k _ _ _ _ n son, clw, cb' => (∀ x, locE clw k x = 0) → cb'.k = 0 ∧ ∀ (i : Fin n) (h : i.1 < cb'.sons), Lost (son i) (opSon clw i) (cb'.son ⟨i, h⟩)
theorem setE_lost {cb cb' : CBV G 𝕜} {clw : Option (COp G 𝕜)} {E : VMat 𝕜} (h : Lost cb clw cb') : Lost cb clw (cb'.setE E) := by cases cb; cases cb'; exact h

/-- result of the truncation -/
structure TruncPost (tm : Option CMode) (Ein : (Nat → 𝕜) → ℝ) (wn : Prop) (eps : ℝ) (cb : CBV G 𝕜) (clw cw : Option (COp G 𝕜)) (r : CBV G 𝕜 × COp G 𝕜) : Prop where
  ok : CBVOk r.1
  red : Reduced cb r.1
  orth : Spec.Orthonormal r.1
  counts : VCounts r.1
  dims : OpDims cb r.1 r.2
  op : OpClusters r.2 cb
  prod : Products r.1 cb r.2
  cert : ∀ (frob : Bool) (un : Prop) [Decidable un], ((∃ b zl za, tm = some ⟨⟨frob, true⟩, b, zl, za⟩) ∨ eps = 0) → (un → wn ∧ cw = none) →
    Cert frob un (CMode.age tm) (CMode.level tm) Ein eps cb r.1 clw cw
  lost : ¬ wn → cw = none → (∀ x, Ein x = 0) → Lost cb clw r.1

theorem truncIter_tot {env : TrEnv 𝕜} (he : ExactEnv env) {tm : Option CMode} (hz : 0 ≤ CMode.level tm) : ∀ {cb : CBV G 𝕜}, CBVOk cb → CBVFull cb →
    ∀ {cw clw : Option (COp G 𝕜)}, (∀ z, cw = some z → OpFor z cb) → (∀ z, clw = some z → OpFor z cb) → ∀ {W : Option (VMat 𝕜)}, (∀ w, W = some w → w.cols = cb.k) →
    (W = none → clw = none) → ∀ {eps : ℝ}, 0 ≤ eps → ∀ {cbnew : CBV G 𝕜} {old2new : COp G 𝕜}, SameClusters cb cbnew → OpClusters old2new cb →
    Tot (CBV.truncIter env tm cb cw clw W eps cbnew old2new) (TruncPost tm (enO cb.k W) (W = none) eps cb clw cw) := by
  intro cb
  induction cb with
  | mk t kold kt kb V E n son ih =>
    intro ho hf cw clw hcw hclw W hW hWn eps hp cbnew old2new hs hop
    obtain ⟨hnt, hft⟩ := hf
    cases cbnew with
    | mk tx kn ktn kbn Vn En nn sonn =>
    cases old2new with
    | mk tn kro kco Co no sono =>
    obtain ⟨e1, e2, hs2⟩ := hs
    obtain ⟨e3, e4, hop2⟩ := hop
    subst e1 e2 e3 e4
    replace hW : ∀ w, W = some w → w.cols = kold := hW
    unfold CBV.truncIter
    refine Tot.bind (truncPreO_tot he (k := kold) (t := tn) hW hWn fun z hz => opFor_root (hclw z hz)) fun W' _ hW' => ?_
    obtain ⟨hw1, hw2, hw3⟩ := hW'
    replace hw3 : enO kold W' = fun x => enO kold W x + locE clw kold x := funext hw3
    rw [if_neg (show ¬ tn.nsons < nn by omega)]
    refine Tot.cassert (by simpa using hnt) (Tot.cassert (by simp [CBV.t, CRef.same]) (Tot.cassert (by simp [COp.t, CRef.same]) ?_))
    have hcw' : ∀ z, cw = some z → z.kcol = kold ∧ z.C.rows = z.krow ∧ z.C.cols = kold := fun z hz => (opFor_root (hcw z hz)).2
    by_cases hn : 0 < nn
    · rw [if_pos hn]
      refine Tot.cassert (by simp [CBV.sons]) ?_
      refine Tot.bind (seqFin_tot (P := fun i => TruncPost tm (fun x => CMode.age tm ^ 2 * (enO kold W (adjE (son i).E (son i).k x) + locE clw kold (adjE (son i).E (son i).k x)))
        (W = none) (eps * CMode.level tm) (son i) (opSon clw i) (opSon cw i)) fun i => ?_) fun r _ hr => ?_
      · rw [dif_pos (show i.1 < (CBV.mk tn kn ktn kbn Vn En nn sonn).sons ∧ i.1 < (COp.mk tn kro kco Co nn sono).sons ∧ i.1 < tn.nsons from ⟨i.2, i.2, by omega⟩)]
        refine Tot.cassert (by rw [(hft i).1]; show (tn.son (Fin.cast hnt i)).same (tn.son (Fin.cast hnt i)) = true; generalize tn.son (Fin.cast hnt i) = y; simp [CRef.same]) ?_
        refine Tot.bind (truncInheritO_tot he (zeta := CMode.age tm) hw1 (ho.2.2 i).1 (ho.2.2 i).2.1) fun W1 _ hW1 => ?_
        obtain ⟨h1, h2, h3⟩ := hW1
        have h4 : enO (son i).k W1 = fun x => CMode.age tm ^ 2 * (enO kold W (adjE (son i).E (son i).k x) + locE clw kold (adjE (son i).E (son i).k x)) := by
          funext x
          rw [h3, hw3]
        have h5 : (W1 = none) = (W = none) := propext (h2.trans hw2)
        have := ih i (ho.2.2 i).2.2 (hft i).2 (cw := opSon cw i) (clw := opSon clw i) (opFor_son hcw i) (opFor_son hclw i) (W := W1) h1
          (fun h => by rw [hWn (hw2.mp (h2.mp h))]; rfl) (eps := eps * CMode.level tm) (mul_nonneg hp hz) (hs2 i) (hop2 i)
        rw [h4, h5] at this
        exact this
      refine Tot.bind (stack_tot (B := fun i a l => ∑ b ∈ Finset.range (son i).k, cross (r i).1 (son i) a b * (son i).E.e b l) fun i w h1 h2 => ?_) fun Vhat _ hV => ?_
      · obtain ⟨d1, d2, d3⟩ := products_root (hr i).prod
        refine (HV.addmul_tot (c := VMat.zero w.rows w.cols) (alpha := 1) (by simp [VMat.ocols, VMat.orows, d2, (ho.2.2 i).1]) (by simp [VMat.zero, VMat.orows, h1, d1])
          (by simp [VMat.zero, VMat.ocols, h2, (ho.2.2 i).2.1])).mono ?_
        rintro Y ⟨y1, y2, y3⟩
        refine ⟨y1.trans h1, y2.trans h2, fun a ha l hl => ?_⟩
        rw [y3 a (by show a < w.rows; omega) l (by show l < w.cols; omega)]
        simp only [VMat.zero, VMat.oe, VMat.ocols, d2, Bool.false_eq_true, if_false, zero_add, one_mul]
        exact Finset.sum_congr rfl fun b hb => by rw [d3 a ha b (Finset.mem_range.mp hb)]
      obtain ⟨hV1, hV2, hV3⟩ := hV
      refine Tot.bind (truncWeighted_tot he hV2 hw1 hcw') fun X _ hX => ?_
      obtain ⟨hX1, Z, hX2, hX3, hX4⟩ := hX
      refine Tot.bind (truncLocal_tot he hp (tm := tm) hV2 hX1) ?_
      rintro ⟨Q, C⟩ - ⟨q1, q2, q3, q4, q5, q6, q7, q8⟩
      simp only at q1 q2 q3 q4 q5 q6 q7 q8 ⊢
      refine Tot.bind (unstack_tot (Q := Q) (son := fun i => (r i).1) (by rw [q1, hV1])) fun son' _ hson => Tot.pure ?_
      have hk : ∀ i, (son' i).k = (r i).1.k := fun i => by obtain ⟨w, h1, -⟩ := hson i; rw [h1, setE_k]
      have hkf : (fun i => (son' i).k) = fun i => (r i).1.k := funext hk
      have hts : ∀ i, (son' i).t = (son i).t := fun i => by obtain ⟨w, h3, -⟩ := hson i; rw [h3, setE_t, (hr i).red.t]
      obtain ⟨E', hE'⟩ : ∃ E', E' = VMat.fresh env.toQrEnv Q.cols (CBV.E (.mk tn kn ktn kbn Vn En nn sonn)).cols := ⟨_, rfl⟩
      rw [← hE']
      have hok : CBVOk (.mk tn Q.cols (CBV.counts tn Q.cols son').1 (CBV.counts tn Q.cols son').2 Vn E' nn son') := by
        refine ⟨fun h => by omega, fun _ => ?_, fun i => ?_⟩
        · have h1 := ho.2.1 hn
          have h2 : (fun i => (son' i).t) = fun i => (son i).t := funext hts
          rw [h2]
          exact h1
        · obtain ⟨w, h3, h4, h5, -⟩ := hson i
          rw [h3, setE_E, setE_k]
          exact ⟨h4, h5, setE_ok (hr i).ok⟩
      have hson_o : ∀ i, Spec.Orthonormal (son' i) := fun i => by obtain ⟨w, h1, -⟩ := hson i; rw [h1]; exact setE_ortho (hr i).orth
      have hEi : ∀ i a l, (son' i).E.e a l = Q.e (ofs (fun i => (son' i).k) i + a) l := fun i a l => by
        obtain ⟨w, h1, -, -, h2⟩ := hson i
        rw [h1, setE_E, h2, hkf]
      have hcr : ∀ i a b, cross (son' i) (son i) a b = cross (r i).1 (son i) a b := fun i a b => by obtain ⟨w, h1, -⟩ := hson i; rw [h1, setE_cross']
      have hVh : ∀ i, ∀ a < (son' i).k, ∀ l < kold, Vhat.e (ofs (fun i => (son' i).k) i + a) l = ∑ b ∈ Finset.range (son i).k, cross (son' i) (son i) a b * (son i).E.e b l := by
        intro i a ha l hl
        rw [hkf, hV3 i a (by rw [← hk]; exact ha) l hl]
        exact Finset.sum_congr rfl fun b _ => by rw [hcr]
      have hrows : Vhat.rows = ∑ i, (son' i).k := by rw [hV1, Finset.sum_congr rfl fun i _ => (hk i).symm]
      have hCc : ∀ a < Q.cols, ∀ l < kold, C.e a l = cross (.mk tn Q.cols (CBV.counts tn Q.cols son').1 (CBV.counts tn Q.cols son').2 Vn E' nn son') (.mk tn kold kt kb V E nn son) a l := by
        intro a ha l hl
        rw [q6 a ha l hl, cross_node hn hok ho (fun i => (hts i).symm), hrows, sum_concat (fun i => (son' i).k)]
        refine Finset.sum_congr rfl fun i _ => Finset.sum_congr rfl fun nu hnu => ?_
        rw [hVh i nu (Finset.mem_range.mp hnu) l hl, Finset.mul_sum]
        exact Finset.sum_congr rfl fun b _ => by rw [hEi, mul_assoc]
      have hQk : Q.cols ≤ kold := by
        by_contra hlt
        refine q8 kold (by omega) Vhat.e Z (close_self fun i hi j hj => ?_)
        rw [hX2 i (by rw [hX1]; exact hi) j hj]
        rfl
      have hQs : Q.cols ≤ tn.cl.size := by
        refine q2.trans ?_
        rw [hV1, ← (ho.2.1 hn).2]
        exact Finset.sum_le_sum fun i _ => (hr i).red.size
      refine ⟨hok, ⟨rfl, hQk, hQs, rfl, fun i => ?_⟩, ⟨fun a ha b hb => ?_, hson_o⟩, counts_coeff (fun i => by obtain ⟨w, h1, -⟩ := hson i; rw [h1]; exact setE_counts (hr i).counts) Vn E',
        ⟨rfl, rfl, rfl, q4, q5, rfl, rfl, fun i => ?_⟩, ⟨rfl, rfl, fun i => (hr i).op⟩, ⟨rfl, rfl, q4, q5, hCc, fun i => ⟨i.2, i.2, ?_⟩⟩, ?_, ?_⟩
      · obtain ⟨w, h1, -⟩ := hson i
        rw [h1]
        exact setE_reduced (hr i).red
      · refine (cross_node_ortho hn hok (fun i => (hson_o i).root) a b).trans ?_
        rw [← q3 a ha b hb, hrows, sum_concat (fun i => (son' i).k)]
        refine Finset.sum_congr rfl fun i _ => Finset.sum_congr rfl fun nu _ => ?_
        rw [hEi, hEi]
      · obtain ⟨w, h1, -⟩ := hson i
        rw [h1]
        exact setE_opDims (hr i).dims
      · show Products (son' i) (son i) (r i).2
        obtain ⟨w, h1, -⟩ := hson i
        rw [h1]
        exact setE_products (hr i).prod
      · intro frob un _ hm hun
        refine ⟨X.cols, Z, Vhat.rows, fun i l => Vhat.e i l - ∑ a ∈ Finset.range Q.cols, Q.e i a * C.e a l, rfl, fun x => ?_, ?_, fun x => ?_, fun i => ?_⟩
        · have := hX3 un (fun hu => ⟨hw2.mpr (hun hu).1, (hun hu).2⟩) x
          rw [hw3] at this
          exact this
        · exact errLe_local hm (fun i hi j hj => hX2 i (by rw [hX1]; exact hi) j hj) q6 q7
        · have := pyth_node hn ho hok hts hson_o (Vh := Vhat.e) (Qh := Q.e) (C := C.e) hVh hEi hCc x
          rw [← hrows] at this
          exact this
        · have h1 := (hr i).cert frob un (hm.imp id fun h => by rw [h, zero_mul]) (fun hu => ⟨(hun hu).1, by rw [(hun hu).2]; rfl⟩)
          show Cert frob un _ _ _ _ (son i) (son' i) _ _
          obtain ⟨w, h2, -⟩ := hson i
          rw [h2]
          exact setE_cert h1
      · intro hw hcn hE hl
        replace hE : ∀ x, enO kold W x = 0 := hE
        refine ⟨?_, fun i h => ?_⟩
        · show Q.cols = 0
          by_contra hq
          refine q8 0 (by omega) Vhat.e Z (close_self fun i hi j hj => ?_)
          rw [hX2 i (by rw [hX1]; exact hi) j hj, dz_zero he (fun x => ?_) i hj]
          · rfl
          · rw [hX4 (fun h => hw (hw2.mp h)) hcn, hw3]
            beta_reduce
            rw [hE, hl, add_zero]
        · have h1 := (hr i).lost hw (by rw [hcn]; rfl) (fun x => by rw [hE, hl, add_zero, mul_zero])
          show Lost (son i) _ (son' ⟨i, h⟩)
          obtain ⟨w, h2, -⟩ := hson i
          rw [show (⟨i, h⟩ : Fin nn) = i from rfl, h2]
          exact setE_lost h1
    · have hn0 : nn = 0 := by omega
      subst hn0
      rw [if_neg (by omega), if_neg (by show ¬ 0 < 0; omega)]
      obtain ⟨hv1, hv2⟩ := ho.1 rfl
      rw [Tr.copyF hv1 hv2, ok_bind]
      refine Tot.bind (truncWeighted_tot he (Vhat := ⟨tn.cl.size, kold, V.e⟩) rfl hw1 hcw') fun X _ hX => ?_
      obtain ⟨hX1, Z, hX2, hX3, hX4⟩ := hX
      refine Tot.bind (truncLocal_tot he hp (tm := tm) (Vhat := ⟨tn.cl.size, kold, V.e⟩) rfl hX1) ?_
      rintro ⟨Q, C⟩ - ⟨q1, q2, q3, q4, q5, q6, q7, q8⟩
      simp only at q1 q2 q3 q4 q5 q6 q7 q8 hX1 hX2 hX3 hX4 ⊢
      rw [Tr.copyF q1 rfl, ok_bind]
      refine Tot.pure ?_
      have hQk : Q.cols ≤ kold := by
        by_contra hlt
        refine q8 kold (by omega) V.e Z (close_self fun i hi j hj => ?_)
        rw [hX2 i (by rw [hX1]; exact hi) j hj]
        rfl
      obtain ⟨E', hE'⟩ : ∃ E', E' = VMat.fresh env.toQrEnv Q.cols (CBV.E (.mk tn kn ktn kbn Vn En 0 sonn)).cols := ⟨_, rfl⟩
      rw [← hE']
      have hCc : ∀ a < Q.cols, ∀ l < kold, C.e a l = cross (.mk tn Q.cols (CBV.counts tn Q.cols son).1 (CBV.counts tn Q.cols son).2 ⟨tn.cl.size, Q.cols, Q.e⟩ E' 0 son) (.mk tn kold kt kb V E 0 son) a l := by
        intro a ha l hl
        rw [cross_leaf, q6 a ha l hl]
      refine ⟨⟨fun _ => ⟨rfl, rfl⟩, fun h => absurd h (by omega), fun i => i.elim0⟩, ⟨rfl, hQk, q2, rfl, fun i => i.elim0⟩, ⟨fun a ha b hb => ?_, fun i => i.elim0⟩,
        counts_coeff (fun i => i.elim0) _ E', ⟨rfl, rfl, rfl, q4, q5, rfl, rfl, fun i => i.elim0⟩, ⟨rfl, rfl, fun i => i.elim0⟩, ⟨rfl, rfl, q4, q5, hCc, fun i => i.elim0⟩, ?_, ?_⟩
      · rw [cross_leaf]
        exact q3 a ha b hb
      · intro frob un _ hm hun
        refine ⟨X.cols, Z, tn.cl.size, fun i l => V.e i l - ∑ a ∈ Finset.range Q.cols, Q.e i a * C.e a l, rfl, fun x => ?_, ?_, fun x => ?_, fun i => i.elim0⟩
        · have := hX3 un (fun hu => ⟨hw2.mpr (hun hu).1, (hun hu).2⟩) x
          rw [hw3] at this
          exact this
        · exact errLe_local hm (fun i hi j hj => hX2 i (by rw [hX1]; exact hi) j hj) q6 q7
        · rw [Fin.sum_univ_zero, zero_add]
          refine vecSq_congr fun i hi => ?_
          refine matVec_congr (fun l hl => ?_) x
          unfold dErr projected
          simp only [CBV.t, CBV.k, vbasis_leaf, if_pos (In.add hi), Nat.add_sub_cancel_left]
          congr 1
          exact Finset.sum_congr rfl fun a ha => by rw [hCc a (Finset.mem_range.mp ha) l hl]
      · intro hw hcn hE hl
        replace hE : ∀ x, enO kold W x = 0 := hE
        refine ⟨?_, fun i => i.elim0⟩
        · show Q.cols = 0
          by_contra hq
          refine q8 0 (by omega) V.e Z (close_self fun i hi j hj => ?_)
          rw [hX2 i (by rw [hX1]; exact hi) j hj, dz_zero he (fun x => ?_) i hj]
          · rfl
          · rw [hX4 (fun h => hw (hw2.mp h)) hcn, hw3]
            beta_reduce
            rw [hE, hl, add_zero]

end H2.TB
