import Verif.Spec.Ortho
import Verif.Proof.Ortho
import Verif.Proof.ClusterBasis2

set_option linter.unusedSectionVars false

namespace H2
open Spec Dense Matrix
variable {G 𝕜 : Type} [RCLike 𝕜]

/-! ### blocks of rows -/

theorem vsub_ok {a : VMat 𝕜} {rows roff cols coff : Nat} (h1 : roff + rows ≤ a.rows) (h2 : coff + cols ≤ a.cols) :
    a.sub rows roff cols coff = .ok ⟨rows, cols, fun i j => a.e (roff + i) (coff + j)⟩ := by
  unfold VMat.sub
  rw [cassert_true (by rw [decide_eq_true_eq]; exact h1), ok_bind, cassert_true (by rw [decide_eq_true_eq]; exact h2), ok_bind]
  rfl

theorem stack_tot {junk : Nat → 𝕜} {n cols : Nat} {rows : Fin n → Nat} {f : Fin n → VMat 𝕜 → R (VMat 𝕜)} {B : Fin n → Nat → Nat → 𝕜}
    (hf : ∀ i w, w.rows = rows i → w.cols = cols → Tot (f i w) fun v => v.rows = rows i ∧ v.cols = cols ∧ ∀ a < rows i, ∀ l < cols, v.e a l = B i a l) :
    Tot (stack junk cols rows f) fun V => V.rows = ∑ i, rows i ∧ V.cols = cols ∧ ∀ i, ∀ a < rows i, ∀ l < cols, V.e (ofs rows i + a) l = B i a l := by
  unfold stack
  simp only
  have hm : foldFin n (fun i a => a + rows i) 0 = ∑ i, rows i := by rw [foldFin_sum, Nat.zero_add]
  rw [hm]
  refine Tot.bind (foldFinM_tot (fun s (st : VMat 𝕜 × Nat) => st.1.rows = ∑ i, rows i ∧ st.1.cols = cols ∧ st.2 = pre rows s ∧
    ∀ i : Fin n, i.1 < s → ∀ a < rows i, ∀ l < cols, st.1.e (ofs rows i + a) l = B i a l) ⟨rfl, rfl, by rw [pre_zero], fun i h => absurd h (Nat.not_lt_zero _)⟩ ?_) ?_
  · rintro i ⟨V, off⟩ ⟨h1, h2, h3, h4⟩
    simp only at h1 h2 h3 h4 ⊢
    have hle : pre rows i.1 + rows i ≤ ∑ i, rows i := pre_le rows i
    rw [vsub_ok (by omega) (by omega), ok_bind]
    refine Tot.bind (hf i _ rfl rfl) fun w _ hw => Tot.pure ⟨h1, h2, by simp only [h3, pre_succ], fun j hj a ha l hl => ?_⟩
    obtain ⟨w1, w2, w3⟩ := hw
    simp only [VMat.glue, w1, w2]
    by_cases e : j = i
    · subst e
      rw [if_pos (by rw [ofs_eq]; omega), ← w3 a ha l hl]
      congr 1
      rw [ofs_eq]; omega
    · have hji : j.1 < i.1 := by
        have : j.1 ≠ i.1 := fun h => e (Fin.ext h)
        omega
      have : ofs rows j + a < pre rows i.1 := by
        rw [ofs_eq]
        have h5 : pre rows (j.1 + 1) ≤ pre rows i.1 := pre_mono rows hji
        rw [pre_succ] at h5
        omega
      rw [if_neg (by omega), h4 j hji a ha l hl]
  · rintro ⟨V, off⟩ - ⟨h1, h2, h3, h4⟩
    simp only at h1 h2 h3 h4 ⊢
    rw [cassert_true (by rw [decide_eq_true_eq, h3, pre_all]), ok_bind]
    exact Tot.pure ⟨h1, h2, fun i => h4 i i.2⟩

theorem unstack_tot {Q : VMat 𝕜} {n : Nat} {son : Fin n → CBV G 𝕜} (hQ : Q.rows = ∑ i, (son i).k) :
    Tot (unstack Q son) fun son' => ∀ i, ∃ w : VMat 𝕜, son' i = (son i).setE w ∧ w.rows = (son i).k ∧ w.cols = Q.cols ∧
      ∀ a l, w.e a l = Q.e (ofs (fun i => (son i).k) i + a) l := by
  unfold unstack
  simp only
  have hm : foldFin n (fun i a => a + (son i).k) 0 = ∑ i, (son i).k := by rw [foldFin_sum, Nat.zero_add]
  rw [hm]
  refine Tot.bind (foldFinM_tot (fun s (st : (Fin n → CBV G 𝕜) × Nat) => st.2 = pre (fun i => (son i).k) s ∧
    (∀ i : Fin n, i.1 < s → ∃ w : VMat 𝕜, st.1 i = (son i).setE w ∧ w.rows = (son i).k ∧ w.cols = Q.cols ∧
      ∀ a l, w.e a l = Q.e (ofs (fun i => (son i).k) i + a) l) ∧ ∀ i : Fin n, s ≤ i.1 → st.1 i = son i)
    ⟨by rw [pre_zero], fun i h => absurd h (Nat.not_lt_zero _), fun _ _ => rfl⟩ ?_) ?_
  · rintro i ⟨S, off⟩ ⟨h3, h4, h5⟩
    simp only at h3 h4 h5 ⊢
    have hle : pre (fun i => (son i).k) i.1 + (son i).k ≤ ∑ i, (son i).k := pre_le (fun i => (son i).k) i
    rw [vsub_ok (by omega) (by omega), ok_bind, HV.copy_tot (rows := (son i).k) (cols := Q.cols) rfl rfl, ok_bind]
    refine Tot.pure ⟨by simp only [h3, pre_succ (fun i => (son i).k)], fun j hj => ?_, fun j hj => ?_⟩
    · by_cases e : j = i
      · subst e
        refine ⟨⟨(son j).k, Q.cols, VMat.oe false ⟨(son j).k, Q.cols, fun i j => Q.e (off + i) (0 + j)⟩⟩, by simp only; rw [if_pos trivial, h5 j le_rfl], rfl, rfl, fun a l => ?_⟩
        simp only [VMat.oe, Bool.false_eq_true, if_false, Nat.zero_add]
        rw [h3, ofs_eq]
      · have hji : j.1 < i.1 := by
          have : j.1 ≠ i.1 := fun h => e (Fin.ext h)
          omega
        obtain ⟨w, w1, w2⟩ := h4 j hji
        exact ⟨w, by simp only; rw [if_neg e, w1], w2⟩
    · simp only
      rw [if_neg (fun h => by rw [h] at hj; omega), h5 j (by omega)]
  · rintro ⟨S, off⟩ - ⟨h3, h4, h5⟩
    simp only at h3 h4 h5 ⊢
    rw [cassert_true (by rw [decide_eq_true_eq, h3, pre_all]), ok_bind]
    exact Tot.pure fun i => h4 i i.2

/-! ### the basis of a cluster with sons -/

theorem setE_k (cb : CBV G 𝕜) (E : VMat 𝕜) : (cb.setE E).k = cb.k := by cases cb; rfl
theorem setE_t (cb : CBV G 𝕜) (E : VMat 𝕜) : (cb.setE E).t = cb.t := by cases cb; rfl
theorem setE_E (cb : CBV G 𝕜) (E : VMat 𝕜) : (cb.setE E).E = E := by cases cb; rfl
theorem setE_basis (cb : CBV G 𝕜) (E : VMat 𝕜) (r l : Nat) : vbasis (cb.setE E) r l = vbasis cb r l := by cases cb; rfl
theorem setE_ok {cb : CBV G 𝕜} {E : VMat 𝕜} (h : CBVOk cb) : CBVOk (cb.setE E) := by cases cb; exact h
theorem setE_cross (cb : CBV G 𝕜) (E : VMat 𝕜) (a b : Nat) : cross (cb.setE E) (cb.setE E) a b = cross cb cb a b := by cases cb; rfl
theorem setE_ortho {cb : CBV G 𝕜} {E : VMat 𝕜} (h : Orthonormal cb) : Orthonormal (cb.setE E) := by cases cb; exact h
theorem setE_counts {cb : CBV G 𝕜} {E : VMat 𝕜} (h : VCounts cb) : VCounts (cb.setE E) := by cases cb; exact h
theorem setE_reduced {cb cb' : CBV G 𝕜} {E : VMat 𝕜} (h : Reduced cb cb') : Reduced cb (cb'.setE E) := by cases cb; cases cb'; exact h
theorem setE_changes {cb cb' : CBV G 𝕜} {co : COp G 𝕜} {E : VMat 𝕜} (h : Changes cb cb' co) : Changes cb (cb'.setE E) co := by cases cb; cases cb'; cases co; exact h

theorem vbasis_leaf {t : CRef G} {k kt kb : Nat} {V E : VMat 𝕜} {son : Fin 0 → CBV G 𝕜} (r l : Nat) :
    vbasis (.mk t k kt kb V E 0 son) r l = if In t r then V.e (r - t.cl.off) l else 0 := by
  unfold vbasis; rw [if_pos rfl]

theorem vbasis_node {t : CRef G} {k kt kb : Nat} {V E : VMat 𝕜} {n : Nat} {son : Fin n → CBV G 𝕜} (h : 0 < n) (r l : Nat) :
    vbasis (.mk t k kt kb V E n son) r l = ∑ i : Fin n, ∑ nu ∈ Finset.range (son i).k, vbasis (son i) r nu * (son i).E.e nu l := by
  rw [vbasis, if_neg (by omega)]

theorem vbasis_zero : ∀ {cb : CBV G 𝕜}, CBVOk cb → ∀ {r : Nat} (l : Nat), ¬ In cb.t r → vbasis cb r l = 0 := by
  intro cb
  induction cb with
  | mk t k kt kb V E n son ih =>
    intro ho r l hr
    unfold vbasis
    by_cases hn : n = 0
    · rw [if_pos hn, if_neg (show ¬ In t r from hr)]
    · rw [if_neg hn]
      refine Finset.sum_eq_zero fun i _ => Finset.sum_eq_zero fun nu _ => ?_
      rw [ih i (ho.2.2 i).2.2 nu (fun h => hr (In.son (ho.2.1 (by omega)) h)), zero_mul]

/-- in the rows of a son -/
theorem vbasis_son {t : CRef G} {k kt kb : Nat} {V E : VMat 𝕜} {n : Nat} {son : Fin n → CBV G 𝕜} (ho : CBVOk (.mk t k kt kb V E n son)) (i : Fin n) {r : Nat}
    (hr : In (son i).t r) (l : Nat) : vbasis (.mk t k kt kb V E n son) r l = ∑ nu ∈ Finset.range (son i).k, vbasis (son i) r nu * (son i).E.e nu l := by
  have hn : 0 < n := by have := i.2; omega
  rw [vbasis_node hn, Finset.sum_eq_single i]
  · intro j _ hj
    refine Finset.sum_eq_zero fun nu _ => ?_
    rw [vbasis_zero (ho.2.2 j).2.2 nu (fun h => hj (CBas.In.unique (ho.2.1 hn) h hr)), zero_mul]
  · exact fun h => absurd (Finset.mem_univ i) h

theorem cross_leaf {t : CRef G} {k kt kb : Nat} {V E : VMat 𝕜} {son : Fin 0 → CBV G 𝕜} {k' kt' kb' : Nat} {V' E' : VMat 𝕜} {son' : Fin 0 → CBV G 𝕜} (a b : Nat) :
    cross (.mk t k kt kb V E 0 son) (.mk t k' kt' kb' V' E' 0 son') a b = ∑ i ∈ Finset.range t.cl.size, star (V.e i a) * V'.e i b := by
  unfold cross
  refine Finset.sum_congr rfl fun i hi => ?_
  have hi := Finset.mem_range.mp hi
  simp only [CBV.t, vbasis_leaf, if_pos (In.add hi)]
  rw [Nat.add_sub_cancel_left]

/-- the product of two bases with the same clusters -/
theorem cross_node {t : CRef G} {k kt kb : Nat} {V E : VMat 𝕜} {n : Nat} {son : Fin n → CBV G 𝕜} {t' : CRef G} {k' kt' kb' : Nat} {V' E' : VMat 𝕜} {son' : Fin n → CBV G 𝕜}
    (hn : 0 < n) (ho : CBVOk (.mk t k kt kb V E n son)) (ho' : CBVOk (.mk t' k' kt' kb' V' E' n son')) (ht : ∀ i, (son' i).t = (son i).t) (a b : Nat) :
    cross (.mk t k kt kb V E n son) (.mk t' k' kt' kb' V' E' n son') a b = ∑ i, ∑ nu ∈ Finset.range (son i).k, ∑ mu ∈ Finset.range (son' i).k,
      star ((son i).E.e nu a) * cross (son i) (son' i) nu mu * (son' i).E.e mu b := by
  have h1 : cross (.mk t k kt kb V E n son) (.mk t' k' kt' kb' V' E' n son') a b =
      ∑ i ∈ Finset.range t.cl.size, (fun r => star (vbasis (.mk t k kt kb V E n son) r a) * vbasis (.mk t' k' kt' kb' V' E' n son') r b) (t.cl.off + i) := rfl
  rw [h1, sum_segments (ho.2.1 hn) (fun r => star (vbasis (.mk t k kt kb V E n son) r a) * vbasis (.mk t' k' kt' kb' V' E' n son') r b)]
  refine Finset.sum_congr rfl fun i _ => ?_
  unfold cross
  simp only [Finset.mul_sum, Finset.sum_mul]
  rw [Finset.sum_congr rfl fun r hr => by
    rw [vbasis_son ho i (In.add (Finset.mem_range.mp hr)) a, vbasis_son ho' i (r := (son i).t.cl.off + r) (by rw [ht]; exact In.add (Finset.mem_range.mp hr)) b, star_sum, Finset.sum_mul,
      Finset.sum_congr rfl fun nu _ => Finset.mul_sum _ _ _]]
  rw [Finset.sum_comm]
  refine Finset.sum_congr rfl fun nu _ => ?_
  rw [Finset.sum_comm]
  refine Finset.sum_congr rfl fun mu _ => Finset.sum_congr rfl fun r _ => ?_
  rw [star_mul']
  ring

theorem cross_node_ortho {t : CRef G} {k kt kb : Nat} {V E : VMat 𝕜} {n : Nat} {son : Fin n → CBV G 𝕜} (hn : 0 < n) (ho : CBVOk (.mk t k kt kb V E n son))
    (h : ∀ i, ∀ a < (son i).k, ∀ b < (son i).k, cross (son i) (son i) a b = if a = b then 1 else 0) (a b : Nat) :
    cross (.mk t k kt kb V E n son) (.mk t k kt kb V E n son) a b = ∑ i, ∑ nu ∈ Finset.range (son i).k, star ((son i).E.e nu a) * (son i).E.e nu b := by
  rw [cross_node hn ho ho (fun _ => rfl)]
  refine Finset.sum_congr rfl fun i _ => Finset.sum_congr rfl fun nu hnu => ?_
  rw [Finset.sum_eq_single nu]
  · rw [h i nu (Finset.mem_range.mp hnu) nu (Finset.mem_range.mp hnu), if_pos rfl, mul_one]
  · intro mu hmu e
    rw [h i nu (Finset.mem_range.mp hnu) mu (Finset.mem_range.mp hmu), if_neg (Ne.symm e), mul_zero, zero_mul]
  · exact fun h => absurd hnu h

theorem _root_.H2.Spec.Orthonormal.root {cb : CBV G 𝕜} (h : Orthonormal cb) : ∀ a < cb.k, ∀ b < cb.k, cross cb cb a b = if a = b then 1 else 0 := by
  cases cb; exact h.1

end H2
