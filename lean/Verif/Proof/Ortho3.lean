import Verif.Proof.Ortho2

set_option linter.unusedSectionVars false

namespace H2
open Spec Dense Matrix
variable {G 𝕜 : Type} [RCLike 𝕜]

/-! ### numbers of coefficients -/

theorem counts_coeff {t : CRef G} {k n : Nat} {son : Fin n → CBV G 𝕜} (h : ∀ i, VCounts (son i)) (V E : VMat 𝕜) :
    VCounts (.mk t k (CBV.counts t k son).1 (CBV.counts t k son).2 V E n son) := by
  have h1 : ∀ i, (son i).ktree = vCoeffs (son i) ∧ (son i).kbranch = vBranch (son i) := fun i => by
    have := h i
    cases e : son i
    rw [e] at this
    exact ⟨this.1, this.2.1⟩
  refine ⟨?_, ?_, h⟩
  · unfold CBV.counts vCoeffs
    by_cases hn : n = 0
    · rw [if_pos hn, if_pos hn, Nat.add_comm]
    · rw [if_neg hn, if_neg hn, foldFin_sum, Nat.zero_add, Nat.add_comm, Finset.sum_congr rfl fun i _ => (h1 i).1]
  · unfold CBV.counts vBranch
    by_cases hn : n = 0
    · rw [if_pos hn, if_pos hn, Nat.add_comm]
    · rw [if_neg hn, if_neg hn]
      simp only
      rw [Nat.add_comm]
      congr 1
      have h2 := foldFin_inv (fun s (a : Nat) => (∀ i : Fin n, i.1 < s → vBranch (son i) ≤ a) ∧ (∀ b, (∀ i : Fin n, vBranch (son i) ≤ b) → a ≤ b)) (n := n)
        (f := fun i a => if a < (son i).kbranch then (son i).kbranch else a) (s := 0) ⟨fun i h => absurd h (Nat.not_lt_zero _), fun b _ => Nat.zero_le _⟩ (by
          intro i a ⟨h2, h3⟩
          rw [(h1 i).2]
          split_ifs with c
          · refine ⟨fun j hj => ?_, fun b hb => hb i⟩
            by_cases e : j = i
            · rw [e]
            · exact (h2 j (by have : j.1 ≠ i.1 := fun h => e (Fin.ext h); omega)).trans c.le
          · refine ⟨fun j hj => ?_, h3⟩
            by_cases e : j = i
            · rw [e]; omega
            · exact h2 j (by have : j.1 ≠ i.1 := fun h => e (Fin.ext h); omega))
      refine le_antisymm (h2.2 _ fun i => Finset.le_sup (f := fun i => vBranch (son i)) (Finset.mem_univ i)) (Finset.sup_le fun i _ => h2.1 i i.2)

/-! ### orthogonalization -/

/-- no operator, or one with the structure of the basis -/
def OpFits (co : Option (COp G 𝕜)) (cb : CBV G 𝕜) : Prop := ∀ o, co = some o → OpTree o cb

/-- result of the orthogonalization -/
structure OrthoPost (ex : Prop) (cb : CBV G 𝕜) (given : Option (COp G 𝕜)) (r : CBV G 𝕜 × Option (COp G 𝕜)) : Prop where
  ok : CBVOk r.1
  erows : r.1.E.rows = r.1.k
  ecols : r.1.E.cols = cb.E.cols
  orth : Orthonormal r.1
  counts : VCounts r.1
  red : Reduced cb r.1
  op : ∃ co, co.C.cols = cb.k ∧ co.C.rows = r.1.k ∧ (∀ i < r.1.k, ∀ j < cb.E.cols, r.1.E.e i j = ∑ l ∈ Finset.range cb.k, co.C.e i l * cb.E.e l j) ∧
    (ex → Changes cb r.1 co) ∧ (given = none → r.2 = none) ∧ ∀ o, given = some o → r.2 = some co

theorem _root_.H2.Spec.Reduced.t {cb cb' : CBV G 𝕜} (h : Reduced cb cb') : cb'.t = cb.t := by cases cb; cases cb'; exact h.1
theorem _root_.H2.Spec.Reduced.size {cb cb' : CBV G 𝕜} (h : Reduced cb cb') : cb'.k ≤ cb.t.cl.size := by cases cb; cases cb'; exact h.2.2.1

/-- the operator that is (or could be) stored -/
def mkOp (t : CRef G) (given : Option (COp G 𝕜)) (C : VMat 𝕜) {n : Nat} (son : Fin n → COp G 𝕜) : COp G 𝕜 :=
  .mk (match given with | none => t | some o => o.t) C.rows C.cols C n son

theorem ortho_tot {q : QrEnv 𝕜} {e : ℝ} (hs : SignFn e q.sgn) (ht : 0 ≤ q.tiny) : ∀ {cb : CBV G 𝕜}, CBVOk cb → cb.E.rows = cb.k → ∀ {given : Option (COp G 𝕜)}, OpFits given cb →
    Tot (CBV.ortho q cb given) (OrthoPost (max q.tiny e = 0) cb given) := by
  intro cb
  induction cb with
  | mk t kold kt kb V E n son ih =>
    intro ho hE given hg
    unfold CBV.ortho
    have hfit : COp.fits given n = true := by
      unfold COp.fits
      cases given with
      | none => rfl
      | some o =>
        have := hg o rfl
        cases o
        obtain ⟨e, -⟩ := this
        exact decide_eq_true e
    refine Tot.cassert hfit ?_
    by_cases hn : 0 < n
    · rw [if_pos hn]
      refine Tot.bind (seqFin_tot (P := fun i => OrthoPost (max q.tiny e = 0) (son i) (COp.sonOf given i)) fun i => ih i (ho.2.2 i).2.2 (ho.2.2 i).1 ?_) fun r _ hr => ?_
      · intro o hso
        unfold COp.sonOf at hso
        cases given with
        | none => exact absurd hso (by simp)
        | some o' =>
          have h1 := hg o' rfl
          cases o' with
          | mk t' kr kc C n' son' =>
            obtain ⟨e, h2⟩ := h1
            subst e
            have h3 : (if h : i.1 < n then some (son' ⟨i, h⟩) else none) = some o := hso
            rw [dif_pos i.2] at h3
            rw [← Option.some.inj h3]
            exact h2 i
      refine Tot.bind (stack_tot (B := fun i a l => (r i).1.E.e a l) fun i w h1 h2 => ?_) fun Vhat _ hV => ?_
      · rw [HV.copy_tot (show VMat.orows false (r i).1.E = w.rows by simp [VMat.orows, (hr i).erows, h1])
          (show VMat.ocols false (r i).1.E = w.cols by simp [VMat.ocols, (hr i).ecols, h2, (ho.2.2 i).2.1])]
        exact ⟨_, rfl, h1, h2, fun a _ l _ => by simp [VMat.oe]⟩
      obtain ⟨hV1, hV2, hV3⟩ := hV
      refine Tot.bind (orthoLocal_tot hs ht (Vhat := Vhat) (E := E) (by rw [hV2]; exact hE)) ?_
      rintro ⟨Q, E', C⟩ - ⟨hQ, hE1, hE2, hE3⟩
      simp only at hQ hE1 hE2 hE3 ⊢
      refine Tot.bind (unstack_tot (Q := Q) (son := fun i => (r i).1) (by rw [hQ.qrows, hV1])) fun son' _ hson => Tot.pure ?_
      have hk : ∀ i, (son' i).k = (r i).1.k := fun i => by obtain ⟨w, h1, -⟩ := hson i; rw [h1, setE_k]
      have hok : CBVOk (.mk t Q.cols (CBV.counts t Q.cols son').1 (CBV.counts t Q.cols son').2 V E' n son') := by
        refine ⟨fun h => by omega, fun _ => ?_, fun i => ?_⟩
        · have h1 := ho.2.1 hn
          have h2 : (fun i => (son' i).t) = fun i => (son i).t := by
            funext i
            obtain ⟨w, h3, -⟩ := hson i
            rw [h3, setE_t, (hr i).red.t]
          rw [h2]
          exact h1
        · obtain ⟨w, h3, h4, h5, -⟩ := hson i
          rw [h3, setE_E, setE_k]
          exact ⟨h4, h5, setE_ok (hr i).ok⟩
      have hson_o : ∀ i, Orthonormal (son' i) := fun i => by obtain ⟨w, h1, -⟩ := hson i; rw [h1]; exact setE_ortho (hr i).orth
      have hEi : ∀ i a l, (son' i).E.e a l = Q.e (ofs (fun i => (r i).1.k) i + a) l := fun i a l => by
        obtain ⟨w, h1, -, -, h2⟩ := hson i
        rw [h1, setE_E, h2]
      have hQk : Q.cols ≤ kold := by rw [hQ.qcols, hV2]; exact Nat.min_le_right _ _
      have hQs : Q.cols ≤ t.cl.size := by
        rw [hQ.qcols, hV1]
        refine (Nat.min_le_left _ _).trans ?_
        rw [← (ho.2.1 hn).2]
        exact Finset.sum_le_sum fun i _ => (hr i).red.size
      refine ⟨hok, hE1, hE2, ⟨fun a ha b hb => ?_, hson_o⟩, counts_coeff (fun i => by obtain ⟨w, h1, -⟩ := hson i; rw [h1]; exact setE_counts (hr i).counts) V E',
        ⟨rfl, hQk, hQs, rfl, fun i => by obtain ⟨w, h1, -⟩ := hson i; rw [h1]; exact setE_reduced (hr i).red⟩, ?_⟩
      · rw [cross_node_ortho hn hok (fun i => (hson_o i).root)]
        rw [← hQ.orth a ha b hb, hQ.qrows, hV1, sum_concat (fun i => (r i).1.k)]
        refine Finset.sum_congr rfl fun i _ => ?_
        rw [hk]
        refine Finset.sum_congr rfl fun nu _ => ?_
        rw [hEi, hEi]
      · choose co hc1 hc2 hc3 hc4 hc5 hc6 using fun i => (hr i).op
        refine ⟨mkOp t given C co, by show C.cols = kold; rw [hQ.ccols, hV2], hQ.crows, fun i hi j hj => ?_, fun hex => ?_, ?_, fun o heq => ?_⟩
        · show E'.e i j = ∑ l ∈ Finset.range kold, C.e i l * E.e l j
          rw [hE3 i hi j hj, hV2]
        · refine ⟨hQ.crows, by rw [hQ.ccols, hV2], hQ.crows, by rw [hQ.ccols, hV2], fun x l hl => ?_, rfl, rfl, fun i => ?_⟩
          · rw [hex] at hQ
            rw [vbasis_node hn]
            conv_rhs => rw [Finset.sum_congr rfl fun nu _ => by rw [vbasis_node hn]]
            simp only [Finset.sum_mul]
            rw [Finset.sum_comm]
            refine Finset.sum_congr rfl fun i _ => ?_
            have hch := hc4 i hex
            have hb : ∀ nu < (son i).k, vbasis (son i) x nu = ∑ mu ∈ Finset.range (r i).1.k, vbasis (r i).1 x mu * (co i).C.e mu nu := by
              intro nu hnu
              have h7 := hch
              obtain ⟨cb0, hcb0⟩ : ∃ c, c = son i := ⟨_, rfl⟩
              obtain ⟨cb1, hcb1⟩ : ∃ c, c = (r i).1 := ⟨_, rfl⟩
              obtain ⟨co1, hco1⟩ : ∃ c, c = co i := ⟨_, rfl⟩
              rw [← hcb0, ← hcb1, ← hco1] at h7
              rw [← hcb0] at hnu
              rw [← hcb0, ← hcb1, ← hco1]
              cases cb0; cases cb1; cases co1
              exact h7.2.2.2.2.1 x nu hnu
            rw [Finset.sum_congr rfl fun nu hnu => by rw [hb nu (Finset.mem_range.mp hnu), Finset.sum_mul], Finset.sum_comm]
            have hbs : ∀ mu, vbasis (son' i) x mu = vbasis (r i).1 x mu := fun mu => by obtain ⟨w, h1, -⟩ := hson i; rw [h1, setE_basis]
            rw [Finset.sum_comm (s := Finset.range Q.cols), hk]
            refine Finset.sum_congr rfl fun mu hmu => ?_
            have hmu := Finset.mem_range.mp hmu
            have hle : ofs (fun i => (r i).1.k) i + mu < Vhat.rows := by
              rw [hV1, ofs_eq]
              have := pre_le (fun i => (r i).1.k) i
              simp only at this
              omega
            have h8 := hQ.exact _ hle l (by rw [hV2]; exact hl)
            rw [hV3 i mu hmu l hl, hc3 i mu hmu l (by rw [(ho.2.2 i).2.1]; exact hl)] at h8
            simp only [mul_assoc]
            rw [← Finset.mul_sum, h8, Finset.mul_sum]
            refine Finset.sum_congr rfl fun p _ => ?_
            rw [hbs, hEi]
          · obtain ⟨w, h1, -⟩ := hson i
            rw [h1]
            exact setE_changes (hc4 i hex)
        · intro heq
          rw [heq]
          rfl
        · rw [heq]
          show some _ = some _
          congr 2
          funext i
          have h1 := hg o heq
          have h2 : ∃ o', COp.sonOf given i = some o' := by
            rw [heq]
            cases o with
            | mk t' kr kc C n' son'' =>
              obtain ⟨e, -⟩ := h1
              refine ⟨son'' (Fin.cast e i), ?_⟩
              show (if h : i.1 < n' then some (son'' ⟨i, h⟩) else none) = _
              rw [dif_pos (by omega)]
              rfl
          obtain ⟨o', h3⟩ := h2
          show ((r i).2).getD o = co i
          rw [hc6 i o' h3]
          rfl
    · have hn0 : n = 0 := by omega
      subst hn0
      rw [if_neg (by omega)]
      obtain ⟨hv1, hv2⟩ := ho.1 rfl
      rw [HV.copy_tot (show VMat.orows false V = t.cl.size by simpa [VMat.orows] using hv1) (show VMat.ocols false V = kold by simpa [VMat.ocols] using hv2), ok_bind]
      refine Tot.bind (orthoLocal_tot hs ht (Vhat := ⟨t.cl.size, kold, VMat.oe false V⟩) (E := E) hE) ?_
      rintro ⟨Q, E', C⟩ - ⟨hQ, hE1, hE2, hE3⟩
      simp only at hQ hE1 hE2 hE3 ⊢
      refine Tot.pure ?_
      have q1 : Q.rows = t.cl.size := hQ.qrows
      have q2 : Q.cols = min t.cl.size kold := hQ.qcols
      refine ⟨⟨fun _ => ⟨q1, rfl⟩, fun h => absurd h (by omega), fun i => i.elim0⟩, hE1, hE2, ⟨fun a ha b hb => ?_, fun i => i.elim0⟩, counts_coeff (fun i => i.elim0) Q E',
        ⟨rfl, by omega, by omega, rfl, fun i => i.elim0⟩, ?_⟩
      · rw [cross_leaf, ← q1]
        exact hQ.orth a ha b hb
      · refine ⟨mkOp t given C (fun i : Fin 0 => i.elim0), hQ.ccols, hQ.crows, hE3, fun hex => ?_, ?_, fun o heq => ?_⟩
        · refine ⟨hQ.crows, hQ.ccols, hQ.crows, hQ.ccols, fun x l hl => ?_, rfl, rfl, fun i => i.elim0⟩
          rw [hex] at hQ
          rw [vbasis_leaf]
          conv_rhs => rw [Finset.sum_congr rfl fun nu _ => by rw [vbasis_leaf]]
          by_cases hx : In t x
          · simp only [if_pos hx]
            have hlt : x - t.cl.off < t.cl.size := by unfold In at hx; omega
            have := hQ.exact _ hlt l hl
            simpa [VMat.oe] using this
          · simp only [if_neg hx, zero_mul, Finset.sum_const_zero]
        · intro heq
          rw [heq]
          rfl
        · rw [heq]
          show some _ = some _
          congr 2
          funext i
          exact i.elim0

end H2
