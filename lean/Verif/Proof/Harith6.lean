import Verif.Proof.Harith5

set_option linter.unusedSectionVars false

namespace H2
open Spec
variable {G K : Type} [Field K] [StarRing K]

namespace HV

theorem same_refl (t : CRef G) : t.same t = true := by unfold CRef.same; simp

/-! ### `add_hmatrix` -/

theorem glue_val {x w' : VMat K} {t s : CRef G} {m n : Nat} {R : Fin m → CRef G} {C : Fin n → CRef G}
    (hR : Segments t R) (hC : Segments s C) {i : Fin m} {j : Fin n} (f1 : w'.rows = (R i).cl.size)
    (f2 : w'.cols = (C j).cl.size) (r c : Nat) :
    hval (.full t s (x.glue (pre (fun i => (R i).cl.size) i.1) (pre (fun j => (C j).cl.size) j.1) w')) r c =
      if r ∈ seg (R i) ∧ c ∈ seg (C j) then hval (.full (R i) (C j) w') r c else hval (.full t s x) r c := by
  have e1 := segments_end hR i
  have e2 := segments_end hC j
  have e3 := segments_off hR i
  have e4 := segments_off hC j
  by_cases hin : r ∈ seg (R i) ∧ c ∈ seg (C j)
  · rw [if_pos hin, hval_full, hval_full, if_pos hin, if_pos ⟨seg_son hR hin.1, seg_son hC hin.2⟩]
    obtain ⟨h3, h4⟩ := hin
    rw [mem_seg] at h3 h4
    unfold VMat.glue
    simp only
    rw [if_pos (by omega)]
    congr 1 <;> omega
  · rw [if_neg hin, hval_full, hval_full]
    by_cases h : r ∈ seg t ∧ c ∈ seg s
    · rw [if_pos h, if_pos h]
      unfold VMat.glue
      simp only
      rw [if_neg]
      intro h'
      apply hin
      obtain ⟨h3, h4⟩ := h
      rw [mem_seg] at h3 h4
      rw [mem_seg, mem_seg]
      omega
    · rw [if_neg h, if_neg h]

theorem unsplit_upd {x : VMat K} {t s : CRef G} (ht : KSeg t) (hs : KSeg s) {a b : Bool} (ha : a = true ∨ t.nsons = 0)
    (hb : b = true ∨ s.nsons = 0) (h1 : x.rows = t.cl.size) (h2 : x.cols = s.cl.size)
    {son : Fin (max 1 t.nsons) → Fin (max 1 s.nsons) → HV G K} {D : Fin (max 1 t.nsons) → Fin (max 1 s.nsons) → Nat → Nat → K}
    (hson : ∀ i j, ∃ w, son i j = .full (kid t i.1) (kid s j.1) w ∧ HVOk (son i j))
    (hD : ∀ i j r c, hval (son i j) r c =
      (if r ∈ seg (kid t i.1) ∧ c ∈ seg (kid s j.1) then hval (.full t s x) r c else 0) + D i j r c) :
    Upd (.full t s x) (.full t s (unsplitAm a b t s son x)) (fun r c => ∑ i, ∑ j, D i j r c) := by
  have hD0 : ∀ i j r c, ¬ (r ∈ seg (kid t i.1) ∧ c ∈ seg (kid s j.1)) → D i j r c = 0 := by
    intro i j r c hn
    have := hD i j r c
    obtain ⟨w, e, ho⟩ := hson i j
    rw [if_neg hn, zero_add] at this
    rw [← this, e, hval_full]
    exact if_neg hn
  unfold unsplitAm
  have fin : ∀ y : VMat K, ((y.rows = t.cl.size ∧ y.cols = s.cl.size) ∧ ∀ r c, hval (.full t s y) r c =
      hval (.full t s x) r c + pre (fun j => ∑ i, D i j r c) (max 1 s.nsons)) →
      Upd (.full t s x) (.full t s y) (fun r c => ∑ i, ∑ j, D i j r c) := by
    rintro y ⟨g1, g2⟩
    refine ⟨⟨rfl, rfl⟩, g1, fun r c => ?_⟩
    rw [g2 r c, pre_all]
    congr 1
    rw [Finset.sum_comm]
  refine fin _ (foldFin_inv (fun j (y : VMat K) => (y.rows = t.cl.size ∧ y.cols = s.cl.size) ∧ ∀ r c, hval (.full t s y) r c =
    hval (.full t s x) r c + pre (fun j => ∑ i, D i j r c) j) ?_ ?_)
  · exact ⟨⟨h1, h2⟩, fun r c => by rw [pre_zero, add_zero]⟩
  · rintro j y ⟨k1, k2⟩
    have fin' : ∀ z : VMat K, ((z.rows = t.cl.size ∧ z.cols = s.cl.size) ∧ ∀ r c, hval (.full t s z) r c =
        hval (.full t s y) r c + pre (fun i => D i j r c) (max 1 t.nsons)) →
        (z.rows = t.cl.size ∧ z.cols = s.cl.size) ∧ ∀ r c, hval (.full t s z) r c =
    hval (.full t s x) r c + pre (fun j => ∑ i, D i j r c) (j.1 + 1) := by
      rintro z ⟨g1, g2⟩
      refine ⟨g1, fun r c => ?_⟩
      rw [g2 r c, k2 r c, pre_all, pre_succ, add_assoc]
    refine fin' _ (foldFin_inv (fun i (z : VMat K) => (z.rows = t.cl.size ∧ z.cols = s.cl.size) ∧ ∀ r c, hval (.full t s z) r c =
      hval (.full t s y) r c + pre (fun i => D i j r c) i) ?_ ?_)
    · exact ⟨k1, fun r c => by rw [pre_zero, add_zero]⟩
    · rintro i z ⟨l1, l2⟩
      obtain ⟨w, e, ho⟩ := hson i j
      have hd := hD i j
      rw [e] at ho
      rw [e] at hd
      simp only [e]
      rw [poff_eq ha i.2.le, poff_eq hb j.2.le]
      refine ⟨l1, fun r c => ?_⟩
      rw [glue_val (R := fun i : Fin (max 1 t.nsons) => kid t i.1) (C := fun i : Fin (max 1 s.nsons) => kid s i.1) ht hs ho.1 ho.2]
      rw [pre_succ]
      by_cases hin : r ∈ seg (kid t i.1) ∧ c ∈ seg (kid s j.1)
      · rw [if_pos hin, hd r c, if_pos hin, k2 r c]
        have z1 : pre (fun j => ∑ i, D i j r c) j.1 = 0 := by
          refine Finset.sum_eq_zero fun j' _ => ?_
          by_cases hlt : j'.1 < j.1
          · rw [if_pos hlt]
            refine Finset.sum_eq_zero fun i' _ => hD0 i' j' r c ?_
            rintro ⟨-, h'⟩
            have := congrArg Fin.val (seg_unique hs (i := j') (j := j) h' hin.2)
            omega
          · rw [if_neg hlt]
        have z2 : pre (fun i => D i j r c) i.1 = 0 := by
          refine Finset.sum_eq_zero fun i' _ => ?_
          by_cases hlt : i'.1 < i.1
          · rw [if_pos hlt]
            refine hD0 i' j r c ?_
            rintro ⟨h', -⟩
            have := congrArg Fin.val (seg_unique ht (i := i') (j := i) h' hin.1)
            omega
          · rw [if_neg hlt]
        rw [z1, z2, add_zero, zero_add]
      · rw [if_neg hin, hD0 i j r c hin, add_zero, l2 r c]

theorem shape_rk {t s : CRef G} {x : VRk K} {z : HV G K} (h : SameShape (.rk t s x) z) : ∃ y, z = .rk t s y := by
  cases z with
  | rk a b y => obtain ⟨rfl, rfl⟩ : t = a ∧ s = b := h; exact ⟨y, rfl⟩
  | full => exact h.elim
  | super => exact h.elim

theorem shape_full {t s : CRef G} {x : VMat K} {z : HV G K} (h : SameShape (.full t s x) z) : ∃ y, z = .full t s y := by
  cases z with
  | full a b y => obtain ⟨rfl, rfl⟩ : t = a ∧ s = b := h; exact ⟨y, rfl⟩
  | rk => exact h.elim
  | super => exact h.elim

/-- adding the merged sons of a temporary block to a low-rank block -/
theorem merge_upd {T : TruncOps K} (hT : Lossless T) {t s : CRef G} {x : VRk K} (hx : HVOk (.rk t s x : HV G K))
    {m n : Nat} {son son' : Fin m → Fin n → HV G K} {D : Fin m → Fin n → Nat → Nat → K}
    (ho : HVOk (.super t s m n son)) (hrk : ∀ i j, ∃ a b x, son i j = .rk a b x) (h0 : ∀ i j r c, hval (son i j) r c = 0)
    (hu : ∀ i j, Upd (son i j) (son' i j) (D i j)) :
    Tot (do
      let rk' ← mergeH T (super t s m n son')
      let r ← T.addRk 1 rk' x
      pure (rk t s r)) (fun z' => Upd (.rk t s x) z' (fun r c => ∑ i, ∑ j, D i j r c)) := by
  have up := Upd.super ho hu
  refine Tot.bind (mergeH_tot hT up.ok ?_) ?_
  · intro i j
    obtain ⟨a, b, y, e⟩ := hrk i j
    have := (hu i j).shape
    rw [e] at this
    obtain ⟨y', e'⟩ := shape_rk this
    exact ⟨a, b, y', e'⟩
  · rintro w - ⟨g1, g2, g3, g4⟩
    obtain ⟨x1, x2, x3⟩ := hx
    obtain ⟨v, e, k1, k2, k3, k4⟩ := hT.addRk 1 w x g1 x1 (by rw [g2, x2]) (by rw [g3, x3])
    rw [e, ok_bind]
    refine Tot.pure ⟨⟨rfl, rfl⟩, ⟨k1, by rw [k2, x2], by rw [k3, x3]⟩, fun r c => ?_⟩
    have hz : hval (.super t s m n son) r c = 0 := by
      rw [hval_super]; exact Finset.sum_eq_zero fun i _ => Finset.sum_eq_zero fun j _ => h0 i j r c
    have hw := g4 r c
    rw [up.val, hz, zero_add] at hw
    rw [← hw, hval_rk, hval_rk, hval_rk]
    by_cases h : r ∈ seg t ∧ c ∈ seg s
    · rw [if_pos h, if_pos h, if_pos h]
      obtain ⟨h3, h4⟩ := h
      rw [mem_seg] at h3 h4
      rw [k4 _ (by omega) _ (by omega), one_mul]
    · rw [if_neg h, if_neg h, if_neg h, add_zero]

theorem addH_tot {T : TruncOps K} (hT : Lossless T) (alpha : K) : ∀ {a b : HV G K}, HVOk a → HVStd a → HVOk b → HVStd b →
    b.rc = a.rc → b.cc = a.cc → Tot (addH T alpha a b) (fun b' => Upd b b' (fun r c => alpha * hval a r c)) := by
  intro a
  induction a with
  | rk t s x =>
    rintro b ⟨ho, hA, hB⟩ - hb - h1 h2
    replace h1 : b.rc = t := h1
    replace h2 : b.cc = s := h2
    simp only [addH]
    refine Tot.cassert (by rw [h1]; exact same_refl t) (Tot.cassert (by rw [h2]; exact same_refl s) ?_)
    refine Tot.mono (addRkH_tot hT alpha hb ho (by rw [hA, rsize, h1]) (by rw [hB, csize, h2])) ?_
    intro b' hu
    rw [h1, h2] at hu
    exact hu
  | full t s x =>
    rintro b ⟨hA, hB⟩ - hb - h1 h2
    replace h1 : b.rc = t := h1
    replace h2 : b.cc = s := h2
    simp only [addH]
    refine Tot.cassert (by rw [h1]; exact same_refl t) (Tot.cassert (by rw [h2]; exact same_refl s) ?_)
    refine Tot.mono (addAmH_tot hT alpha hb (by rw [hA, rsize, h1]) (by rw [hB, csize, h2])) ?_
    intro b' hu
    rw [h1, h2] at hu
    exact hu
  | super t s m n son ih =>
    rintro b ho hst hb hbs h1 h2
    replace h1 : b.rc = t := h1
    replace h2 : b.cc = s := h2
    have hks := std_segs ho hst
    obtain ⟨hm, hn, -, hs⟩ := ho
    obtain ⟨hpos, em, en, hkid⟩ := hst
    simp only [addH]
    refine Tot.cassert (by rw [h1]; exact same_refl t) (Tot.cassert (by rw [h2]; exact same_refl s) ?_)
    have hstep : ∀ (i : Fin m) (j : Fin n) (b1 : HV G K), HVOk b1 → HVStd b1 → b1.rc = kid t i.1 → b1.cc = kid s j.1 →
        Tot (addH T alpha (son i j) b1) (fun b' => Upd b1 b' (fun r c => alpha * hval (son i j) r c)) :=
      fun i j b1 k1 k2 k3 k4 => ih i j (hs i j) (hkid i j).2.2 k1 k2 (by rw [k3, (hkid i j).1]) (by rw [k4, (hkid i j).2.1])
    have hfin : ∀ r c, (∑ i, ∑ j, alpha * hval (son i j) r c) = alpha * hval (.super t s m n son) r c := by
      intro r c; rw [hval_super]; simp only [Finset.mul_sum]
    have hpm : decide (m ≠ 0) = true := by simp; omega
    have hpn : decide (n ≠ 0) = true := by simp; omega
    cases b with
    | super bt bs bm bn bson =>
      obtain ⟨rfl, rfl⟩ : bt = t ∧ bs = s := ⟨h1, h2⟩
      obtain ⟨-, em', en', hkid'⟩ := hbs
      have e1 : bm = m := by rw [em, em']
      have e2 : bn = n := by rw [en, en']
      subst e1 e2
      simp only
      refine Tot.cassert (by simp) (Tot.cassert (by simp) ?_)
      refine Tot.bind (gridloopFin (P := fun i j v => Upd (bson i j) v (fun r c => alpha * hval (son i j) r c)) bson ?_) ?_
      · intro i j
        exact hstep i j _ (hb.2.2.2 i j) (hkid' i j).2.2 (hkid' i j).1 (hkid' i j).2.1
      · rintro bson' - hu
        exact Tot.pure ((Upd.super hb hu).congr hfin)
    | rk bt bs x =>
      obtain ⟨rfl, rfl⟩ : bt = t ∧ bs = s := ⟨h1, h2⟩
      simp only [hpm, hpn]
      refine Tot.bind (splitRk_tot hks.1 hks.2 (Or.inl rfl) (Or.inl rfl)) ?_
      rintro h - ⟨m', n', em', en', sson, rfl, hz⟩
      have e1 : m' = m := by rw [em, em']
      have e2 : n' = n := by rw [en, en']
      subst e1 e2
      subst em en
      simp only
      have hzo : ∀ i j, HVOk (sson i j) := fun i j => by rw [hz i j]; exact ⟨⟨rfl, rfl⟩, rfl, rfl⟩
      refine Tot.bind (gridloopFin (P := fun i j v => Upd (sson i j) v (fun r c => alpha * hval (son i j) r c)) sson ?_) ?_
      · intro i j
        exact hstep i j _ (hzo i j) (by rw [hz]; trivial) (by rw [hz]; rfl) (by rw [hz]; rfl)
      · rintro sson' - hu
        refine Tot.mono (merge_upd hT hb (grid_ok hks.1 hks.2 fun i j => ⟨hzo i j, by rw [hz]; rfl, by rw [hz]; rfl⟩)
          (fun i j => ⟨_, _, _, hz i j⟩) (fun i j r c => by rw [hz, new0_val]) hu) ?_
        exact fun b' hb' => hb'.congr hfin
    | full bt bs x =>
      obtain ⟨rfl, rfl⟩ : bt = t ∧ bs = s := ⟨h1, h2⟩
      simp only [hpm, hpn]
      refine Tot.bind (splitAm_tot hks.1 hks.2 (Or.inl rfl) (Or.inl rfl) hb.1 hb.2) ?_
      rintro h - ⟨m', n', em', en', sson, rfl, hz⟩
      have e1 : m' = m := by rw [em, em']
      have e2 : n' = n := by rw [en, en']
      subst e1 e2
      subst em en
      simp only
      refine Tot.bind (gridloopFin (P := fun i j v => Upd (sson i j) v (fun r c => alpha * hval (son i j) r c)) sson ?_) ?_
      · intro i j
        obtain ⟨w, e, o, -⟩ := hz i j
        exact hstep i j _ o (by rw [e]; trivial) (by rw [e]; rfl) (by rw [e]; rfl)
      · rintro sson' - hu
        refine Tot.pure ((unsplit_upd hks.1 hks.2 (Or.inl rfl) (Or.inl rfl) hb.1 hb.2 ?_ ?_).congr hfin)
        · intro i j
          obtain ⟨w, e, o, -⟩ := hz i j
          have := (hu i j).shape
          rw [e] at this
          obtain ⟨y, e'⟩ := shape_full this
          exact ⟨y, e', (hu i j).ok⟩
        · intro i j r c
          obtain ⟨w, e, o, hv⟩ := hz i j
          rw [(hu i j).val, hv]

end HV
end H2
