import Verif.Proof.Ortho3

set_option linter.unusedSectionVars false

namespace H2
open Spec Dense Matrix
variable {G 𝕜 : Type} [RCLike 𝕜]

/-! ### weights -/

theorem QRLocal.gram {Vhat Q C : VMat 𝕜} (h : QRLocal 0 Vhat Q C) {a b : Nat} (ha : a < Vhat.cols) (hb : b < Vhat.cols) :
    ∑ i ∈ Finset.range Vhat.rows, star (Vhat.e i a) * Vhat.e i b = ∑ i ∈ Finset.range C.rows, star (C.e i a) * C.e i b := by
  rw [Finset.sum_congr rfl fun i hi => by
    rw [h.exact i (Finset.mem_range.mp hi) a ha, h.exact i (Finset.mem_range.mp hi) b hb, star_sum, Finset.sum_mul_sum]]
  rw [Finset.sum_comm, h.crows]
  refine Finset.sum_congr rfl fun l hl => ?_
  rw [Finset.sum_comm, Finset.sum_eq_single l]
  · rw [Finset.sum_congr rfl fun i _ => show star (Q.e i l * C.e l a) * (Q.e i l * C.e l b) = (star (Q.e i l) * Q.e i l) * (star (C.e l a) * C.e l b) by rw [star_mul']; ring]
    rw [← Finset.sum_mul, ← h.qrows, h.orth l (Finset.mem_range.mp hl) l (Finset.mem_range.mp hl), if_pos rfl, one_mul]
  · intro p hp hpl
    rw [Finset.sum_congr rfl fun i _ => show star (Q.e i l * C.e l a) * (Q.e i p * C.e p b) = (star (Q.e i l) * Q.e i p) * (star (C.e l a) * C.e p b) by rw [star_mul']; ring]
    rw [← Finset.sum_mul, ← h.qrows, h.orth l (Finset.mem_range.mp hl) p (Finset.mem_range.mp hp), if_neg (Ne.symm hpl), zero_mul]
  · exact fun h => absurd hl h

/-- result of the computation of weights -/
structure WeightPost (ex : Prop) (cb : CBV G 𝕜) (r : COp G 𝕜) : Prop where
  crows : r.C.rows = r.krow
  ccols : r.C.cols = cb.k
  kcol : r.kcol = cb.k
  krow : r.krow ≤ cb.k
  size : r.krow ≤ cb.t.cl.size
  tree : OpTree r cb
  w : ex → Weights cb r

theorem _root_.H2.Spec.Weights.gram {cb : CBV G 𝕜} {r : COp G 𝕜} (h : Weights cb r) :
    ∀ a < cb.k, ∀ b < cb.k, ∑ i ∈ Finset.range r.krow, star (r.C.e i a) * r.C.e i b = cross cb cb a b := by
  cases cb; cases r
  exact h.2.2.2.2.2.1

theorem weight_tot {q : QrEnv 𝕜} {e : ℝ} (hs : SignFn e q.sgn) (ht : 0 ≤ q.tiny) : ∀ {cb : CBV G 𝕜}, CBVOk cb → ∀ {co : COp G 𝕜}, OpTree co cb →
    Tot (CBV.weight q cb co) (WeightPost (max q.tiny e = 0) cb) := by
  intro cb
  induction cb with
  | mk t k kt kb V E n son ih =>
    intro ho co hg
    cases co with
    | mk ct kr kc C0 cn cson =>
    obtain ⟨en, hg⟩ := hg
    subst en
    unfold CBV.weight
    refine Tot.cassert (by simp) ?_
    by_cases hn : 0 < n
    · rw [if_pos hn]
      refine Tot.bind (seqFin_tot (P := fun i => WeightPost (max q.tiny e = 0) (son i)) fun i => ?_) fun r _ hr => ?_
      · rw [dif_pos i.2]
        exact ih i (ho.2.2 i).2.2 (hg i)
      refine Tot.bind (stack_tot (B := fun i a l => ∑ nu ∈ Finset.range (son i).k, (r i).C.e a nu * (son i).E.e nu l) fun i w h1 h2 => ?_) fun Vhat _ hV => ?_
      · refine Tot.cassert (by rw [decide_eq_true_eq, (hr i).kcol, (ho.2.2 i).1]) ?_
        refine Tot.mono (HV.addmul_tot (c := VMat.zero w.rows w.cols) (alpha := 1) (show VMat.ocols false (r i).C = VMat.orows false (son i).E by simp [VMat.ocols, VMat.orows, (hr i).ccols, (ho.2.2 i).1])
          (show w.rows = VMat.orows false (r i).C by simp [VMat.orows, (hr i).crows, h1]) (show w.cols = VMat.ocols false (son i).E by simp [VMat.ocols, h2, (ho.2.2 i).2.1])) ?_
        rintro v ⟨v1, v2, v3⟩
        refine ⟨v1.trans h1, v2.trans h2, fun a ha l hl => ?_⟩
        rw [v3 a (show a < w.rows by omega) l (show l < w.cols by omega)]
        simp only [VMat.zero, VMat.ocols, VMat.oe, Bool.false_eq_true, if_false, zero_add, one_mul]
        rw [(hr i).ccols]
      obtain ⟨hV1, hV2, hV3⟩ := hV
      refine Tot.bind (weightLocal_tot hs ht Vhat) fun C _ hC => Tot.pure ?_
      obtain ⟨Q, hQ⟩ := hC
      have hCr : C.rows = min Vhat.rows k := by rw [hQ.crows, hQ.qcols, hV2]
      have hCs : C.rows ≤ t.cl.size := by
        rw [hCr, hV1]
        refine (Nat.min_le_left _ _).trans ?_
        rw [← (ho.2.1 hn).2]
        exact Finset.sum_le_sum fun i _ => (hr i).size
      have hCk : C.rows ≤ k := by omega
      have hCc : C.cols = k := by rw [hQ.ccols, hV2]
      refine ⟨rfl, hCc, hCc, hCk, hCs, ⟨rfl, fun i => (hr i).tree⟩, fun hex => ⟨rfl, hCc, hCc, hCk, hCs, fun a ha b hb => ?_, rfl, fun i => (hr i).w hex⟩⟩
      rw [hex] at hQ
      rw [← hQ.gram (show a < Vhat.cols by omega) (show b < Vhat.cols by omega), cross_node hn ho ho (fun _ => rfl), hV1, sum_concat (fun i => (r i).krow)]
      refine Finset.sum_congr rfl fun i _ => ?_
      rw [Finset.sum_congr rfl fun p hp => by
        rw [hV3 i p (Finset.mem_range.mp hp) a ha, hV3 i p (Finset.mem_range.mp hp) b hb, star_sum, Finset.sum_mul_sum]]
      rw [Finset.sum_comm]
      refine Finset.sum_congr rfl fun nu hnu => ?_
      rw [Finset.sum_comm]
      refine Finset.sum_congr rfl fun mu hmu => ?_
      rw [← ((hr i).w hex).gram nu (Finset.mem_range.mp hnu) mu (Finset.mem_range.mp hmu), Finset.mul_sum, Finset.sum_mul]
      refine Finset.sum_congr rfl fun p _ => ?_
      rw [star_mul']
      ring
    · have hn0 : n = 0 := by omega
      subst hn0
      rw [if_neg (by omega)]
      obtain ⟨hv1, hv2⟩ := ho.1 rfl
      rw [HV.copy_tot (show VMat.orows false V = t.cl.size by simpa [VMat.orows] using hv1) (show VMat.ocols false V = k by simpa [VMat.ocols] using hv2), ok_bind]
      refine Tot.bind (weightLocal_tot hs ht ⟨t.cl.size, k, VMat.oe false V⟩) fun C _ hC => Tot.pure ?_
      obtain ⟨Q, hQ⟩ := hC
      have hCr : C.rows = min t.cl.size k := by rw [hQ.crows, hQ.qcols]
      have hCk : C.rows ≤ k := by omega
      have hCs : C.rows ≤ t.cl.size := by omega
      have hCc : C.cols = k := hQ.ccols
      refine ⟨rfl, hCc, hCc, hCk, hCs, ⟨rfl, fun i => i.elim0⟩, fun hex => ⟨rfl, hCc, hCc, hCk, hCs, fun a ha b hb => ?_, rfl, fun i => i.elim0⟩⟩
      rw [hex] at hQ
      rw [← hQ.gram ha hb, cross_leaf]
      simp [VMat.oe]

/-! ### checking orthonormality -/

theorem offIdent_eq {k : Nat} {M : VMat 𝕜} (h1 : M.rows = k) (h2 : M.cols = k) {F : Nat → Nat → 𝕜} (hF : ∀ a < k, ∀ b < k, M.e a b = F a b) : CBV.offIdent k M = identDev k F := by
  unfold CBV.offIdent CBV.frob identDev
  simp only [h1, h2]
  rw [Finset.sum_comm]
  congr 1
  refine Finset.sum_congr rfl fun i hi => Finset.sum_congr rfl fun j hj => ?_
  rw [hF i (Finset.mem_range.mp hi) j (Finset.mem_range.mp hj)]
  by_cases e : i = j
  · rw [if_pos ⟨e, Finset.mem_range.mp hi⟩, if_pos e]
  · rw [if_neg (fun h => e h.1), if_neg e, sub_zero]

theorem checkOrtho_tot : ∀ {cb : CBV G 𝕜}, CBVOk cb → Tot (CBV.checkOrtho cb) fun v => 0 ≤ v ∧ ∀ eps, 0 ≤ eps → (v ≤ eps ↔ LocalDev eps cb) := by
  intro cb
  induction cb with
  | mk t k kt kb V E n son ih =>
    intro ho
    unfold CBV.checkOrtho
    refine Tot.bind (P := fun (st : ℝ × VMat 𝕜) => 0 ≤ st.1 ∧ (∀ eps, 0 ≤ eps → (st.1 ≤ eps ↔ ∀ i, LocalDev eps (son i))) ∧ st.2.rows = k ∧ st.2.cols = k ∧
      ∀ a < k, ∀ b < k, st.2.e a b = if n = 0 then ∑ i ∈ Finset.range V.rows, star (V.e i a) * V.e i b
        else ∑ i : Fin n, ∑ nu ∈ Finset.range (son i).k, star ((son i).E.e nu a) * (son i).E.e nu b) ?_ ?_
    · by_cases hn : 0 < n
      · rw [if_pos hn]
        refine (foldFinM_tot (fun s (st : ℝ × VMat 𝕜) => 0 ≤ st.1 ∧ (∀ eps, 0 ≤ eps → (st.1 ≤ eps ↔ ∀ i : Fin n, i.1 < s → LocalDev eps (son i))) ∧ st.2.rows = k ∧ st.2.cols = k ∧
          ∀ a < k, ∀ b < k, st.2.e a b = pre (fun i => ∑ nu ∈ Finset.range (son i).k, star ((son i).E.e nu a) * (son i).E.e nu b) s)
          ⟨le_rfl, fun eps h => iff_of_true h fun i h => absurd h (Nat.not_lt_zero _), rfl, rfl, fun a _ b _ => by rw [pre_zero]; rfl⟩ ?_).mono ?_
        · rintro i ⟨v, M⟩ ⟨h1, h2, h3, h4, h5⟩
          simp only at h1 h2 h3 h4 h5 ⊢
          refine Tot.bind (ih i (ho.2.2 i).2.2) fun w _ hw => ?_
          refine Tot.bind (HV.addmul_tot (show VMat.ocols true (son i).E = VMat.orows false (son i).E by simp [VMat.ocols, VMat.orows])
            (show M.rows = VMat.orows true (son i).E by simp [VMat.orows, h3, (ho.2.2 i).2.1]) (show M.cols = VMat.ocols false (son i).E by simp [VMat.ocols, h4, (ho.2.2 i).2.1])) fun M' _ hM => Tot.pure ?_
          obtain ⟨m1, m2, m3⟩ := hM
          refine ⟨?_, fun eps heps => ?_, m1.trans h3, m2.trans h4, fun a ha b hb => ?_⟩
          · simp only; split_ifs
            · exact hw.1
            · exact h1
          · have : (if w > v then w else v) = max w v := by rw [max_def]; split_ifs <;> first | rfl | (exfalso; linarith) | linarith
            simp only
            rw [this, max_le_iff, hw.2 eps heps, h2 eps heps]
            refine ⟨fun h j hj => ?_, fun h => ⟨h i (by omega), fun j hj => h j (by omega)⟩⟩
            by_cases ej : j = i
            · rw [ej]; exact h.1
            · exact h.2 j (by have : j.1 ≠ i.1 := fun h => ej (Fin.ext h); omega)
          · simp only
            rw [m3 a (by omega) b (by omega), h5 a ha b hb, pre_succ]
            simp only [VMat.ocols, VMat.oe, Bool.false_eq_true, if_false, if_true, one_mul]
            rw [(ho.2.2 i).1]
        · rintro ⟨v, M⟩ ⟨h1, h2, h3, h4, h5⟩
          refine ⟨h1, fun eps he => by rw [h2 eps he]; exact ⟨fun h i => h i i.2, fun h i _ => h i⟩, h3, h4, fun a ha b hb => ?_⟩
          rw [if_neg (by omega), h5 a ha b hb, pre_all]
      · have hn0 : n = 0 := by omega
        subst hn0
        rw [if_neg (by omega)]
        obtain ⟨hv1, hv2⟩ := ho.1 rfl
        refine Tot.bind (HV.addmul_tot (show VMat.ocols true V = VMat.orows false V by simp [VMat.ocols, VMat.orows])
            (show k = VMat.orows true V by simp [VMat.orows, hv2]) (show k = VMat.ocols false V by simp [VMat.ocols, hv2])) fun M' _ hM => Tot.pure ?_
        obtain ⟨m1, m2, m3⟩ := hM
        refine ⟨le_rfl, fun eps h => iff_of_true h fun i => i.elim0, m1, m2, fun a ha b hb => ?_⟩
        simp only
        rw [m3 a ha b hb, if_pos trivial]
        simp [VMat.ocols, VMat.oe, VMat.zero]
    · rintro ⟨v, M⟩ - ⟨h1, h2, h3, h4, h5⟩
      simp only at h1 h2 h3 h4 h5 ⊢
      refine Tot.pure ?_
      have hd := offIdent_eq h3 h4 h5
      have : (if CBV.offIdent k M > v then CBV.offIdent k M else v) = max (CBV.offIdent k M) v := by
        rw [max_def]; split_ifs <;> first | rfl | (exfalso; linarith) | linarith
      rw [this]
      refine ⟨h1.trans (le_max_right _ _), fun eps he => ?_⟩
      rw [max_le_iff, h2 eps he, hd]
      rfl

theorem identDev_zero {k : Nat} {F : Nat → Nat → 𝕜} : identDev k F ≤ 0 ↔ ∀ a < k, ∀ b < k, F a b = if a = b then 1 else 0 := by
  unfold identDev
  constructor
  · intro h a ha b hb
    have h1 := le_antisymm h (Real.sqrt_nonneg _)
    rw [Real.sqrt_eq_zero (Finset.sum_nonneg fun _ _ => Finset.sum_nonneg fun _ _ => sq_nonneg _)] at h1
    have h2 := (Finset.sum_eq_zero_iff_of_nonneg fun _ _ => Finset.sum_nonneg fun _ _ => sq_nonneg _).mp h1 a (Finset.mem_range.mpr ha)
    have h3 := (Finset.sum_eq_zero_iff_of_nonneg fun _ _ => sq_nonneg _).mp h2 b (Finset.mem_range.mpr hb)
    rwa [pow_eq_zero_iff two_ne_zero, norm_eq_zero, sub_eq_zero] at h3
  · intro h
    refine le_of_eq ?_
    rw [Real.sqrt_eq_zero (Finset.sum_nonneg fun _ _ => Finset.sum_nonneg fun _ _ => sq_nonneg _)]
    refine Finset.sum_eq_zero fun a ha => Finset.sum_eq_zero fun b hb => ?_
    rw [h a (Finset.mem_range.mp ha) b (Finset.mem_range.mp hb), sub_self, norm_zero]
    norm_num

theorem localDev_ortho : ∀ {cb : CBV G 𝕜}, CBVOk cb → (LocalDev 0 cb ↔ Orthonormal cb) := by
  intro cb
  induction cb with
  | mk t k kt kb V E n son ih =>
    intro ho
    unfold LocalDev Orthonormal
    rw [identDev_zero]
    have h1 : (∀ i, LocalDev 0 (son i)) ↔ ∀ i, Orthonormal (son i) := forall_congr' fun i => ih i (ho.2.2 i).2.2
    rw [h1]
    refine and_congr_left fun h2 => ?_
    refine forall_congr' fun a => forall_congr' fun ha => forall_congr' fun b => forall_congr' fun hb => ?_
    by_cases hn : n = 0
    · subst hn
      rw [if_pos rfl, cross_leaf, (ho.1 rfl).1]
    · rw [if_neg hn, cross_node_ortho (by omega) ho fun i => (h2 i).root]

end H2
