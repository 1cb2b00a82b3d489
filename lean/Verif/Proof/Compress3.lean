import Verif.Proof.Compress2

/-! Error of the compression of H²-matrices: the Frobenius norm of the total error. -/

set_option linter.unusedSectionVars false

namespace H2.TB
open Spec Svd
variable {G 𝕜 : Type} [RCLike 𝕜]

/-- sum of the weighted errors of all clusters -/
def totE (f : List Nat → (Nat → 𝕜) → ℝ) : CBV G 𝕜 → List Nat → CBV G 𝕜 → ℝ
  | .mk t k kt kb V E n son, p, cb' => ∑ i ∈ Finset.range t.cl.size, f p (fun a => star (dErr (.mk t k kt kb V E n son) cb' i a)) +
    ∑ i : Fin n, if h : i.1 < cb'.sons then totE f (son i) (p ++ [i.1]) (cb'.son ⟨i, h⟩) else 0

theorem totE_nonneg {f : List Nat → (Nat → 𝕜) → ℝ} (hf : ∀ p x, 0 ≤ f p x) : ∀ (cb : CBV G 𝕜) (p : List Nat) (cb' : CBV G 𝕜), 0 ≤ totE f cb p cb' := by
  intro cb
  induction cb with
  | mk t k kt kb V E n son ih =>
    intro p cb'
    unfold totE
    refine add_nonneg (Finset.sum_nonneg fun i _ => hf _ _) (Finset.sum_nonneg fun i _ => ?_)
    split
    · exact ih i _ _
    · exact le_rfl

theorem totE_sum {n : Nat} (f : Fin n → List Nat → (Nat → 𝕜) → ℝ) : ∀ (cb : CBV G 𝕜) (p : List Nat) (cb' : CBV G 𝕜), totE (fun p x => ∑ j, f j p x) cb p cb' = ∑ j, totE (f j) cb p cb' := by
  intro cb
  induction cb with
  | mk t k kt kb V E m son ih =>
    intro p cb'
    unfold totE
    rw [Finset.sum_add_distrib, Finset.sum_comm]
    congr 1
    rw [Finset.sum_comm]
    refine Finset.sum_congr rfl fun i _ => ?_
    by_cases h : i.1 < cb'.sons
    · rw [dif_pos h, ih]
      exact Finset.sum_congr rfl fun j _ => by rw [dif_pos h]
    · rw [dif_neg h]
      exact (Finset.sum_eq_zero fun j _ => dif_neg h).symm

theorem totE_root {f : List Nat → (Nat → 𝕜) → ℝ} (hf : ∀ p x, 0 ≤ f p x) (cb : CBV G 𝕜) (p : List Nat) (cb' : CBV G 𝕜) :
    ∑ i ∈ Finset.range cb.t.cl.size, f p (fun a => star (dErr cb cb' i a)) ≤ totE f cb p cb' := by
  cases cb with
  | mk t k kt kb V E n son =>
    unfold totE
    refine le_add_of_nonneg_right (Finset.sum_nonneg fun i _ => ?_)
    split
    · exact totE_nonneg hf _ _ _
    · exact le_rfl

theorem totE_son {f : List Nat → (Nat → 𝕜) → ℝ} (hf : ∀ p x, 0 ≤ f p x) (cb : CBV G 𝕜) (p : List Nat) (cb' : CBV G 𝕜) (i : Fin cb.sons) (h : i.1 < cb'.sons) :
    totE f (cb.son i) (p ++ [i.1]) (cb'.son ⟨i, h⟩) ≤ totE f cb p cb' := by
  cases cb with
  | mk t k kt kb V E n son =>
    show totE f (son i) _ _ ≤ totE f (.mk t k kt kb V E n son) p cb'
    rw [totE]
    have h1 := Finset.single_le_sum (f := fun i : Fin n => if h : i.1 < cb'.sons then totE f (son i) (p ++ [i.1]) (cb'.son ⟨i, h⟩) else 0) (s := Finset.univ)
      (fun i _ => by beta_reduce; split; exacts [totE_nonneg hf _ _ _, le_rfl]) (Finset.mem_univ i)
    beta_reduce at h1
    rw [dif_pos h] at h1
    exact h1.trans (le_add_of_nonneg_left (Finset.sum_nonneg fun i _ => hf _ _))

theorem totE_le {q zl : ℝ} (hq : 0 ≤ q) {f : List Nat → (Nat → 𝕜) → ℝ} : ∀ {cb : CBV G 𝕜} {p : List Nat} {eps : ℝ} {cb' : CBV G 𝕜}, ErrT true q zl f cb p eps cb' → totE f cb p cb' ≤ boundSum q zl eps cb := by
  intro cb
  induction cb with
  | mk t k kt kb V E n son ih =>
    intro p eps cb' h
    rw [totE, boundSum]
    obtain ⟨⟨m, C, h1, h2⟩, h3⟩ := h
    refine add_le_add ?_ (Finset.sum_le_sum fun i _ => ?_)
    · unfold ErrLe at h2
      rw [if_pos rfl, frob_en] at h2
      refine le_trans (le_of_eq ?_) h2
      exact Finset.sum_congr rfl fun i _ => (h1 _).symm
    · split
      · next hi => exact ih i (h3 i hi)
      · have : ∀ (cb : CBV G 𝕜) (e : ℝ), 0 ≤ boundSum q zl e cb := by
          intro cb
          induction cb with
          | mk t k kt kb V E n son ih =>
            intro e
            rw [boundSum]
            exact add_nonneg (mul_nonneg (sq_nonneg _) (treeSum_nonneg hq _)) (Finset.sum_nonneg fun i _ => ih i _)
        exact this _ _

theorem projected_tiles : ∀ {h : H2V G 𝕜}, H2VOk h → H2VTiles h → ∀ {rb cb : BRef G 𝕜} {ro co : Option (COp G 𝕜)}, BChange h.rb rb ro → BChange h.cb cb co →
    ∀ {h' : H2V G 𝕜}, ProjectedTo h rb ro cb co h' → H2VTiles h' := by
  intro h
  induction h with
  | zero hrb hcb => intro _ _ rb cb ro co _ _ h' hp; rw [show h' = _ from hp]; trivial
  | uni hrb hcb S => intro _ _ rb cb ro co _ _ h' hp; obtain ⟨S', rfl, -⟩ := hp; trivial
  | full hrb hcb f => intro _ _ rb cb ro co _ _ h' hp; obtain ⟨S', rfl, -⟩ := hp; trivial
  | super hrb hcb m n son ih =>
    intro ho ht rb cb ro co hbr hbc h' hp
    have hok := (projected_ok ho hbr hbc hp).1
    obtain ⟨h1, h2, ⟨R, C, hRC, hR, hC⟩, hson⟩ := ho
    obtain ⟨t1, t2, t3⟩ := ht
    obtain ⟨son', rfl, NR, NC, hN, hs⟩ := hp
    have key : ∀ {b b' : BRef G 𝕜} {o : Option (COp G 𝕜)} {n : Nat} {R : Fin n → BRef G 𝕜}, BChange b b' o → SonRefs b R → ∀ (i : Fin n) (N : BRef G 𝕜 × Option (COp G 𝕜)),
        (R i = b → N = (b', o)) → (R i ≠ b → ∃ h : i.1 < b'.cb.sons, N = (b'.son ⟨i, h⟩, opSon o i)) → BChange (R i) N.1 N.2 ∧ (N.1 = b' → R i = b) := by
      intro b b' o n R hb hR i N n1 n2
      rcases hR with hR | ⟨e, hR⟩
      · rw [n1 (hR i), hR i]; exact ⟨hb, fun _ => rfl⟩
      · subst e
        obtain ⟨h3, rfl⟩ := n2 (by rw [hR]; exact bref_son_ne b _)
        rw [hR]
        obtain ⟨h4, h5, -⟩ := hb.son i
        exact ⟨h5, fun h => absurd h (bref_son_ne b' _)⟩
    have key2 : ∀ i j, (BChange (son i j).rb (NR i).1 (NR i).2 ∧ ((NR i).1 = rb → R i = hrb)) ∧ (BChange (son i j).cb (NC j).1 (NC j).2 ∧ ((NC j).1 = cb → C j = hcb)) := by
      intro i j
      obtain ⟨n1, n2, n3, n4⟩ := hN i j
      rw [(hRC i j).1] at n1 n2
      rw [(hRC i j).2] at n3 n4
      rw [(hRC i j).1, (hRC i j).2]
      exact ⟨key hbr hR i (NR i) n1 n2, key hbc hC j (NC j) n3 n4⟩
    have key3 : ∀ i j, (son' i j).rb = (NR i).1 ∧ (son' i j).cb = (NC j).1 := fun i j => (projected_ok (hson i j) (key2 i j).1.1 (key2 i j).2.1 (hs i j)).2
    refine ⟨fun i j e => t1 i j ?_, fun i j e => t2 i j ?_, fun i j => ih i j (hson i j) (t3 i j) (key2 i j).1.1 (key2 i j).2.1 (hs i j)⟩
    · rw [(hRC i j).1]; exact (key2 i j).1.2 ((key3 i j).1.symm.trans e)
    · rw [(hRC i j).2]; exact (key2 i j).2.2 ((key3 i j).2.symm.trans e)

theorem frob_lErr (tm : Option CMode) (rb cb : BRef G 𝕜) (S : VMat 𝕜) (rb' : CBV G 𝕜) :
    frobSq rb.cb.t.cl.size cb.cb.t.cl.size (lErr (blockScale tm rb.cb cb.cb S) rb.cb cb.cb rb' S) ≤ totE (rowSum tm (.uni rb cb S)) rb.cb rb.path rb' := by
  unfold lErr
  rw [frob_en]
  refine le_trans (le_of_eq (Finset.sum_congr rfl fun i _ => yMat_en ..)) (totE_root (rowSum_nonneg tm _) _ _ _)
theorem frob_rErr (tm : Option CMode) (rb cb : BRef G 𝕜) (S : VMat 𝕜) (cb' : CBV G 𝕜) :
    frobSq cb.cb.t.cl.size rb.cb.t.cl.size (rErr (blockScale tm rb.cb cb.cb S) rb.cb cb.cb cb' S) ≤ totE (colSum tm (.uni rb cb S)) cb.cb cb.path cb' := by
  unfold rErr
  rw [frob_en]
  refine le_trans (le_of_eq (Finset.sum_congr rfl fun i _ => xMat_en ..)) (totE_root (colSum_nonneg tm _) _ _ _)

theorem totE_refs {f : List Nat → (Nat → 𝕜) → ℝ} (hf : ∀ p x, 0 ≤ f p x) {b b' : BRef G 𝕜} {o : Option (COp G 𝕜)} {n : Nat} {R : Fin n → BRef G 𝕜} (hR : SonRefs b R) (i : Fin n)
    (N : BRef G 𝕜 × Option (COp G 𝕜)) (n1 : R i = b → N = (b', o)) (n2 : R i ≠ b → ∃ h : i.1 < b'.cb.sons, N = (b'.son ⟨i, h⟩, opSon o i)) :
    totE f (R i).cb (R i).path N.1.cb ≤ totE f b.cb b.path b'.cb := by
  rcases hR with hR | ⟨e, hR⟩
  · rw [n1 (hR i), hR i]
  · subst e
    obtain ⟨h3, rfl⟩ := n2 (by rw [hR]; exact bref_son_ne b _)
    rw [hR]
    exact totE_son hf b.cb b.path b'.cb i h3

theorem err_total {fr fc : List Nat → (Nat → 𝕜) → ℝ} {frob : Bool} {q zl eps : ℝ} {tm : Option CMode} (htm : ∀ (rb cb : CBV G 𝕜) (S : VMat 𝕜), blockScale tm rb cb S = 1) :
    ∀ {h : H2V G 𝕜}, H2VOk h → H2VTiles h → CBVOk h.rb.cb → CBVOk h.cb.cb → ∀ {rb cb : BRef G 𝕜} {ro co : Option (COp G 𝕜)} {h' : H2V G 𝕜},
    Half frob q zl eps fr h.rb rb ro → Half frob q zl eps fc h.cb cb co → ProjectedTo h rb ro cb co h' →
    errSq (h2vplace h) h' ≤ totE (rowSum tm h) h.rb.cb h.rb.path rb.cb + totE (colSum tm h) h.cb.cb h.cb.path cb.cb := by
  intro h
  induction h with
  | zero hrb hcb =>
    intro _ _ _ _ rb cb ro co h' _ _ hp
    rw [show h' = _ from hp]
    have : errSq (h2vplace (.zero hrb hcb)) (.zero rb cb) = 0 := errSq_zero.mpr fun _ _ _ _ => rfl
    rw [this]
    exact add_nonneg (totE_nonneg (rowSum_nonneg tm _) _ _ _) (totE_nonneg (colSum_nonneg tm _) _ _ _)
  | full hrb hcb f =>
    intro ho _ _ _ rb cb ro co h' hr hc hp
    obtain ⟨f', rfl, h1, h2, h3⟩ := hp
    have e1 : rb.cb.t = hrb.cb.t := hr.t_eq
    have e2 : cb.cb.t = hcb.cb.t := hc.t_eq
    have : errSq (h2vplace (.full hrb hcb f)) (.full rb cb f') = 0 := by
      refine errSq_zero.mpr fun r c ir ic => ?_
      replace ir : In rb.cb.t r := ir
      replace ic : In cb.cb.t c := ic
      rw [e1] at ir
      rw [e2] at ic
      unfold h2vplace
      rw [e1, e2, if_pos ⟨ir, ic⟩, if_pos ⟨ir, ic⟩]
      obtain ⟨i1, i2⟩ := ir
      obtain ⟨i3, i4⟩ := ic
      exact h3 _ (by rw [ho.1]; omega) _ (by rw [ho.2]; omega)
    rw [this]
    exact add_nonneg (totE_nonneg (rowSum_nonneg tm _) _ _ _) (totE_nonneg (colSum_nonneg tm _) _ _ _)
  | uni hrb hcb S =>
    intro ho _ _ _ rb cb ro co h' hr hc hp
    obtain ⟨S', rfl, -, -, h3⟩ := hp
    have e1 : rb.cb.t = hrb.cb.t := hr.t_eq
    have e2 : cb.cb.t = hcb.cb.t := hc.t_eq
    have h1 : errSq (h2vplace (.uni hrb hcb S)) (.uni rb cb S') = frobSq hrb.cb.t.cl.size hcb.cb.t.cl.size (bErr (blockScale tm hrb.cb hcb.cb S) hrb.cb hcb.cb rb.cb cb.cb S S') := by
      unfold errSq frobSq vecSq
      show ∑ i ∈ Finset.range rb.cb.t.cl.size, ∑ j ∈ Finset.range cb.cb.t.cl.size, ‖h2vplace (.uni hrb hcb S) (rb.cb.t.cl.off + i) (cb.cb.t.cl.off + j) - h2vplace (.uni rb cb S') (rb.cb.t.cl.off + i) (cb.cb.t.cl.off + j)‖ ^ 2 = _
      rw [Finset.sum_comm, e1, e2]
      refine Finset.sum_congr rfl fun j _ => Finset.sum_congr rfl fun i _ => ?_
      unfold bErr
      rw [htm, RCLike.ofReal_one]
      beta_reduce
      rw [one_mul]
      unfold blockMat h2vplace
      rw [e1, e2]
    rw [h1]
    refine (block_frob hr.t_eq hc.t_eq (isProj_of hr hc h3) hr.orth_root).trans ?_
    exact add_le_add (frob_lErr tm hrb hcb S rb.cb) (frob_rErr tm hrb hcb S cb.cb)
  | super hrb hcb m n son ih =>
    intro ho ht o1 o2 rb cb ro co h' hr hc hp
    have ho' := ho
    have ht' := ht
    have hok := projected_ok ho hr.change hc.change hp
    have htl := projected_tiles ho ht hr.change hc.change hp
    obtain ⟨h1, h2, ⟨R, C, hRC, hR, hC⟩, hson⟩ := ho
    obtain ⟨t1, t2, t3⟩ := ht
    obtain ⟨son', rfl, NR, NC, hN, hs⟩ := hp
    rw [errSq_super hok.1 htl hr.ok hc.ok]
    have f1 : totE (rowSum tm (.super hrb hcb m n son)) hrb.cb hrb.path rb.cb = ∑ i, ∑ j, totE (rowSum tm (son i j)) hrb.cb hrb.path rb.cb := by
      have := totE_sum (fun i => fun p x => ∑ j, rowSum tm (son i j) p x) hrb.cb hrb.path rb.cb
      refine Eq.trans this (Finset.sum_congr rfl fun i _ => totE_sum (fun j => rowSum tm (son i j)) _ _ _)
    have f2 : totE (colSum tm (.super hrb hcb m n son)) hcb.cb hcb.path cb.cb = ∑ i, ∑ j, totE (colSum tm (son i j)) hcb.cb hcb.path cb.cb := by
      have := totE_sum (fun i => fun p x => ∑ j, colSum tm (son i j) p x) hcb.cb hcb.path cb.cb
      refine Eq.trans this (Finset.sum_congr rfl fun i _ => totE_sum (fun j => colSum tm (son i j)) _ _ _)
    show _ ≤ totE (rowSum tm (.super hrb hcb m n son)) hrb.cb hrb.path rb.cb + totE (colSum tm (.super hrb hcb m n son)) hcb.cb hcb.path cb.cb
    rw [f1, f2, ← Finset.sum_add_distrib]
    refine Finset.sum_le_sum fun i _ => ?_
    rw [← Finset.sum_add_distrib]
    refine Finset.sum_le_sum fun j _ => ?_
    obtain ⟨n1, n2, n3, n4⟩ := hN i j
    rw [(hRC i j).1] at n1 n2
    rw [(hRC i j).2] at n3 n4
    have g1 : Half frob q zl eps fr (son i j).rb (NR i).1 (NR i).2 := by rw [(hRC i j).1]; exact hr.refs hR i _ n1 n2
    have g2 : Half frob q zl eps fc (son i j).cb (NC j).1 (NC j).2 := by rw [(hRC i j).2]; exact hc.refs hC j _ n3 n4
    have g3 := (projected_ok (hson i j) g1.change g2.change (hs i j)).2
    have g4 : errSq (h2vplace (.super hrb hcb m n son)) (son' i j) = errSq (h2vplace (son i j)) (son' i j) := by
      unfold errSq
      refine Finset.sum_congr rfl fun r hr' => Finset.sum_congr rfl fun c hc' => ?_
      rw [h2vplace_son ho' ht' o1 o2 i j]
      · rw [g3.1, g1.t_eq]; rw [g3.1, g1.t_eq] at hr'; exact In.add (Finset.mem_range.mp hr')
      · rw [g3.2, g2.t_eq]; rw [g3.2, g2.t_eq] at hc'; exact In.add (Finset.mem_range.mp hc')
    rw [g4]
    have q1 : CBVOk (son i j).rb.cb := by rw [(hRC i j).1]; exact hR.inherit (P := CBVOk) (fun cb h i => h.son i) o1 i
    have q2 : CBVOk (son i j).cb.cb := by rw [(hRC i j).2]; exact hC.inherit (P := CBVOk) (fun cb h i => h.son i) o2 j
    refine (ih i j (hson i j) (t3 i j) q1 q2 g1 g2 (hs i j)).trans (add_le_add ?_ ?_)
    · rw [(hRC i j).1]; exact totE_refs (rowSum_nonneg tm _) hR i _ n1 n2
    · rw [(hRC i j).2]; exact totE_refs (colSum_nonneg tm _) hC j _ n3 n4

end H2.TB
