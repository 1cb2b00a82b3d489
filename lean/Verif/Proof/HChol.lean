import Verif.Model.HChol
import Verif.Proof.HSolve6

/-! Updates of the lower triangular part of H-matrices (C65). -/

set_option linter.unusedSectionVars false

namespace H2
open Spec Dense
variable {G K : Type} [Field K] [StarRing K]

/-- the lower triangular part of `z'` is the one of `z` plus the one of `D` -/
structure UpdLow (z z' : HV G K) (D : Nat → Nat → K) : Prop where
  shape : SameShape z z'
  ok : HVOk z'
  val : ∀ r c, c ≤ r → hval z' r c = hval z r c + D r c

theorem Upd.low {z z' : HV G K} {D : Nat → Nat → K} (h : Upd z z' D) : UpdLow z z' D := ⟨h.shape, h.ok, fun r c _ => h.val r c⟩

theorem UpdLow.refl {z : HV G K} (h : HVOk z) : UpdLow z z (fun _ _ => 0) := ⟨.refl z, h, fun r c _ => by rw [add_zero]⟩

theorem UpdLow.trans {z z' z'' : HV G K} {D D' : Nat → Nat → K} (h : UpdLow z z' D) (h' : UpdLow z' z'' D') :
    UpdLow z z'' (fun r c => D r c + D' r c) :=
  ⟨h.shape.trans h'.shape, h'.ok, fun r c e => by rw [h'.val r c e, h.val r c e, add_assoc]⟩

theorem UpdLow.congr {z z' : HV G K} {D D' : Nat → Nat → K} (h : UpdLow z z' D) (e : ∀ r c, c ≤ r → D r c = D' r c) : UpdLow z z' D' :=
  ⟨h.shape, h.ok, fun r c l => by rw [h.val r c l, e r c l]⟩

theorem UpdLow.super {t s : CRef G} {m n : Nat} {son son' : Fin m → Fin n → HV G K} {D : Fin m → Fin n → Nat → Nat → K}
    (ho : HVOk (.super t s m n son)) (h : ∀ i j, UpdLow (son i j) (son' i j) (D i j)) :
    UpdLow (.super t s m n son) (.super t s m n son') (fun r c => ∑ i, ∑ j, D i j r c) := by
  obtain ⟨hm, hn, ⟨R, C, hrc, hR, hC⟩, hs⟩ := ho
  refine ⟨⟨rfl, rfl, rfl, rfl, fun i j => (h i j).shape⟩, ⟨hm, hn, ⟨R, C, fun i j => ?_, hR, hC⟩, fun i j => (h i j).ok⟩, ?_⟩
  · exact ⟨(h i j).shape.rc.trans (hrc i j).1, (h i j).shape.cc.trans (hrc i j).2⟩
  · intro r c hrc
    rw [hval_super, hval_super, ← Finset.sum_add_distrib]
    refine Finset.sum_congr rfl fun i _ => ?_
    rw [← Finset.sum_add_distrib]
    exact Finset.sum_congr rfl fun j _ => (h i j).val r c hrc

/-! ### loops over the sons -/

theorem setSon_self {m n : Nat} {s : Fin m → Fin n → HV G K} {i : Fin m} {j : Fin n} : HV.setSon s i j (s i j) = s := by
  funext i' j'
  by_cases h : i' = i ∧ j' = j
  · obtain ⟨rfl, rfl⟩ := h; exact setSon_same
  · exact setSon_ne h

/-- like `rowloop`; the entry to be changed still has its original value -/
theorem rowloop' {m n : Nat} {f : Fin m → (Fin m → Fin n → HV G K) × Nat → R ((Fin m → Fin n → HV G K) × Nat)}
    (j : Fin n) (sz : Fin m → Nat) (Rel : Fin m → HV G K → Prop) (s0 : Fin m → Fin n → HV G K)
    (h : ∀ i s, s i j = s0 i j →
      Tot (f i (s, pre sz i.1)) (fun st => st.2 = pre sz (i.1 + 1) ∧ ∃ v, Rel i v ∧ st.1 = HV.setSon s i j v)) :
    Tot (foldFinM m f (s0, 0)) (fun st => st.2 = ∑ i, sz i ∧ (∀ i, Rel i (st.1 i j)) ∧
      ∀ i j', j' ≠ j → st.1 i j' = s0 i j') := by
  refine Tot.mono (foldFinM_tot (P := fun k (st : (Fin m → Fin n → HV G K) × Nat) => st.2 = pre sz k ∧
    (∀ i : Fin m, i.1 < k → Rel i (st.1 i j)) ∧ (∀ i : Fin m, k ≤ i.1 → st.1 i j = s0 i j) ∧
    ∀ i j', j' ≠ j → st.1 i j' = s0 i j') ?_ ?_) ?_
  · exact ⟨(pre_zero _).symm, fun i hi => absurd hi (Nat.not_lt_zero _), fun _ _ => rfl, fun i j' _ => rfl⟩
  · rintro i ⟨s, o⟩ ⟨h2, h3, h5, h4⟩
    replace h2 : o = _ := h2
    subst h2
    refine Tot.mono (h i s (h5 i le_rfl)) ?_
    rintro ⟨s', o'⟩ ⟨g1, v, g2, g3⟩
    replace g3 : s' = _ := g3
    subst g3
    refine ⟨g1, fun i' hi' => ?_, fun i' hi' => ?_, fun i' j' hj => ?_⟩
    · show Rel i' (HV.setSon s i j v i' j)
      by_cases e : i' = i
      · subst e; rw [setSon_same]; exact g2
      · rw [setSon_ne (fun h => e h.1)]
        refine h3 i' ?_
        have : i'.1 ≠ i.1 := fun h => e (Fin.ext h)
        omega
    · show HV.setSon s i j v i' j = _
      have e : i' ≠ i := fun h => by rw [h] at hi'; omega
      rw [setSon_ne (fun h => e h.1)]
      exact h5 i' (by omega)
    · show HV.setSon s i j v i' j' = _
      rw [setSon_ne (fun h => hj h.2)]; exact h4 i' j' hj
  · rintro ⟨s, o⟩ ⟨h2, h3, -, h4⟩
    exact ⟨by rw [← pre_all]; exact h2, fun i => h3 i i.2, h4⟩

/-- like `colloop`; the columns to be changed still have their original values -/
theorem colloop' {m n : Nat} {f : Fin n → (Fin m → Fin n → HV G K) × Nat → R ((Fin m → Fin n → HV G K) × Nat)}
    (sz : Fin n → Nat) (Rel : Fin m → Fin n → HV G K → Prop) (s0 : Fin m → Fin n → HV G K)
    (h : ∀ j s, (∀ i, s i j = s0 i j) → Tot (f j (s, pre sz j.1)) (fun st => st.2 = pre sz (j.1 + 1) ∧ (∀ i, Rel i j (st.1 i j)) ∧
      ∀ i j', j' ≠ j → st.1 i j' = s i j')) :
    Tot (foldFinM n f (s0, 0)) (fun st => st.2 = ∑ i, sz i ∧ ∀ i j, Rel i j (st.1 i j)) := by
  refine Tot.mono (foldFinM_tot (P := fun k (st : (Fin m → Fin n → HV G K) × Nat) => st.2 = pre sz k ∧
    (∀ i (j : Fin n), k ≤ j.1 → st.1 i j = s0 i j) ∧ (∀ i (j : Fin n), j.1 < k → Rel i j (st.1 i j))) ?_ ?_) ?_
  · exact ⟨(pre_zero _).symm, fun _ _ _ => rfl, fun i j hj => absurd hj (Nat.not_lt_zero _)⟩
  · rintro j ⟨s, o⟩ ⟨h2, h5, h3⟩
    replace h2 : o = _ := h2
    subst h2
    refine Tot.mono (h j s fun i => h5 i j le_rfl) ?_
    rintro ⟨s', o'⟩ ⟨g1, g2, g3⟩
    refine ⟨g1, fun i j' hj' => ?_, fun i j' hj' => ?_⟩
    · have e : j' ≠ j := fun h => by rw [h] at hj'; omega
      rw [g3 i j' e]; exact h5 i j' (by omega)
    · by_cases e : j' = j
      · subst e; exact g2 i
      · rw [g3 i j' e]
        refine h3 i j' ?_
        have : j'.1 ≠ j.1 := fun h => e (Fin.ext h)
        omega
  · rintro ⟨s, o⟩ ⟨h2, -, h3⟩
    exact ⟨by rw [← pre_all]; exact h2, fun i j => h3 i j j.2⟩

theorem seg_order {t : CRef G} {m : Nat} {R : Fin m → CRef G} (hR : Segments t R) {i j : Fin m} (hij : i.1 < j.1) {r c : Nat}
    (hr : r ∈ seg (R i)) (hc : c ∈ seg (R j)) : r < c := by
  have e1 := segments_off hR i
  have e2 := segments_off hR j
  rw [mem_seg] at hr hc
  have e3 := pre_succ (fun k => (R k).cl.size) i
  have := pre_mono (fun k => (R k).cl.size) (show i.1 + 1 ≤ j.1 by omega)
  beta_reduce at e3
  omega

/-- the segments of the rows and columns of a square block agree -/
theorem sq_segs {t : CRef G} {m : Nat} {son : Fin m → Fin m → HV G K} (hs : ∀ i, SqOk (son i i))
    (ho : HVOk (.super t t m m son)) : ∃ R : Fin m → CRef G, (∀ i j, (son i j).rc = R i ∧ (son i j).cc = R j) ∧ Segments t R := by
  obtain ⟨hm, -, ⟨R, C, hRC, hR, hC⟩, hok⟩ := ho
  have hRC' : R = C := by
    funext i
    have := (hs i).eq
    rw [(hRC i _).1, (hRC i _).2] at this
    exact this
  subst hRC'
  exact ⟨R, hRC, hR⟩

namespace HV

/-- summing up the updates of the sons -/
theorem grid_updLow {t : CRef G} {m : Nat} {son son' : Fin m → Fin m → HV G K} {R : Fin m → CRef G}
    (ho : HVOk (.super t t m m son)) (hR : Segments t R) {alpha : K} {H : Nat → Nat → K}
    (hH : ∀ r c, ¬ (r ∈ seg t ∧ c ∈ seg t) → H r c = 0)
    (h : ∀ i j, UpdLow (son i j) (son' i j) (fun r c => alpha * if r ∈ seg (R i) ∧ c ∈ seg (R j) then H r c else 0)) :
    UpdLow (.super t t m m son) (.super t t m m son') (fun r c => alpha * H r c) := by
  refine (UpdLow.super ho h).congr fun r c _ => ?_
  simp only [← Finset.mul_sum]
  rw [sum_pick_grid hR hR]
  by_cases hin : r ∈ seg t ∧ c ∈ seg t
  · rw [if_pos hin]
  · rw [if_neg hin, hH r c hin]

theorem skip_low {t : CRef G} {m : Nat} {R : Fin m → CRef G} (hR : Segments t R) {i j : Fin m} (hij : i.1 < j.1) {z : HV G K}
    (hz : HVOk z) (alpha : K) (H : Nat → Nat → K) :
    UpdLow z z (fun r c => alpha * if r ∈ seg (R i) ∧ c ∈ seg (R j) then H r c else 0) := by
  refine (UpdLow.refl hz).congr fun r c hrc => ?_
  rw [if_neg, mul_zero]
  rintro ⟨h1, h2⟩
  have := seg_order hR hij h1 h2
  omega

theorem addLowerRkH_tot {T : TruncOps K} (hT : Lossless T) (alpha : K) : ∀ {z : HV G K} {x : VRk K}, HVOk z → SqOk z → RkOk x →
    x.A.rows = z.rsize → x.B.rows = z.csize →
    Tot (addLowerRkH T alpha x z) (fun z' => UpdLow z z' (fun r c => alpha * hval (.rk z.rc z.cc x) r c)) := by
  intro z
  induction z with
  | rk t s y => intro x _ h; exact h.elim
  | full t s f =>
    rintro x ⟨hA, hB⟩ hs hx h1 h2
    obtain rfl : t = s := hs
    replace h1 : x.A.rows = t.cl.size := h1
    replace h2 : x.B.rows = t.cl.size := h2
    rw [addLowerRkH]
    refine Tot.cassert (same_refl _) ?_
    refine Tot.bind (addRkAm_tot (atrans := false) (a := x) (b := f) (alpha := alpha) hx (by rw [hA]; exact h1.symm)
      (by rw [hB]; exact h2.symm)) ?_
    rintro f' - ⟨g1, g2, g3⟩
    refine Tot.pure ⟨⟨rfl, rfl⟩, ⟨by rw [g1, hA], by rw [g2, hB]⟩, fun r c _ => ?_⟩
    show hval (.full t t f') r c = hval (.full t t f) r c + alpha * hval (.rk t t x) r c
    rw [hval_full, hval_full, hval_rk]
    by_cases h : r ∈ seg t ∧ c ∈ seg t
    · rw [if_pos h, if_pos h, if_pos h]
      obtain ⟨h3, h4⟩ := h
      rw [mem_seg] at h3 h4
      rw [g3 _ (by omega) _ (by omega)]
      rfl
    · rw [if_neg h, if_neg h, if_neg h, mul_zero, add_zero]
  | super t s m n son ih =>
    rintro x ho hsq hx h1 h2
    obtain ⟨rfl, e, hs⟩ := hsq
    subst e
    replace hs : ∀ i, SqOk (son i i) := hs
    obtain ⟨R, hrc, hR⟩ := sq_segs hs ho
    obtain ⟨hm, -, -, hok⟩ := id ho
    replace h1 : x.A.rows = t.cl.size := h1
    replace h2 : x.B.rows = t.cl.size := h2
    have hrs : ∀ i j, (son i j).rsize = (R i).cl.size := fun i j => by unfold rsize; rw [(hrc i j).1]
    have hcs : ∀ i j, (son i j).csize = (R j).cl.size := fun i j => by unfold csize; rw [(hrc i j).2]
    rw [addLowerRkH]
    refine Tot.cassert (same_refl _) (Tot.cassert (by simp) ?_)
    refine Tot.bind (colloop' (fun j => (R j).cl.size) (fun i j v => UpdLow (son i j) v (fun r c =>
      alpha * if r ∈ seg (R i) ∧ c ∈ seg (R j) then hval (.rk t t x) r c else 0)) son ?_) ?_
    · intro j s1 hs1
      simp only [dif_pos hm]
      refine Tot.bind (rowloop' j (fun i => (R i).cl.size) (fun i v => UpdLow (son i j) v (fun r c =>
        alpha * if r ∈ seg (R i) ∧ c ∈ seg (R j) then hval (.rk t t x) r c else 0)) s1 ?_) ?_
      · intro i s2 hs2
        simp only [hrs, hcs]
        by_cases hij : i.1 < j.1
        · rw [if_pos hij]
          refine Tot.pure ⟨(pre_succ (fun i => (R i).cl.size) i).symm, s2 i j, ?_, setSon_self.symm⟩
          rw [hs2, hs1]
          exact skip_low hR hij (hok i j) _ _
        · rw [if_neg hij]
          refine Tot.bind (rksub_tot hx h1 h2 hR hR i j) ?_
          rintro w - ⟨g1, g2⟩
          refine Tot.bind (P := fun v => UpdLow (son i j) v (fun r c =>
            alpha * if r ∈ seg (R i) ∧ c ∈ seg (R j) then hval (.rk t t x) r c else 0)) ?_ ?_
          · by_cases e : i.1 = j.1
            · rw [if_pos e]
              obtain rfl : i = j := Fin.ext e
              refine (ih i i (hok i i) (hs i) g1.1 (by rw [g1.2.1, hrs]) (by rw [g1.2.2, hcs])).mono fun v hv => ?_
              refine hv.congr fun r c _ => ?_
              rw [(hrc i i).1, (hrc i i).2, g2]
            · rw [if_neg e]
              refine (addRkH_tot hT alpha (hok i j) g1.1 (by rw [g1.2.1, hrs]) (by rw [g1.2.2, hcs])).mono fun v hv => ?_
              refine hv.low.congr fun r c _ => ?_
              rw [(hrc i j).1, (hrc i j).2, g2]
          · rintro v - hv
            exact Tot.pure ⟨(pre_succ (fun i => (R i).cl.size) i).symm, v, hv, rfl⟩
      · rintro ⟨s2, o⟩ - ⟨g1, g2, g3⟩
        replace g1 : o = _ := g1
        refine Tot.cassert (by simp [g1, hR.2]) (Tot.pure ⟨?_, g2, g3⟩)
        show _ + _ = _
        rw [hcs]
        exact (pre_succ (fun j => (R j).cl.size) j).symm
    · rintro ⟨s2, o⟩ - ⟨g1, g2⟩
      replace g1 : o = _ := g1
      refine Tot.cassert (by simp [g1, hR.2]) (Tot.pure ?_)
      exact grid_updLow (H := hval (.rk t t x)) ho hR (fun r c hn => by rw [hval_rk]; exact if_neg hn) g2

theorem addLowerAmH_tot {T : TruncOps K} (hT : Lossless T) (alpha : K) : ∀ {z : HV G K} {x : VMat K}, HVOk z → SqOk z →
    x.rows = z.rsize → x.cols = z.csize →
    Tot (addLowerAmH T alpha false x z) (fun z' => UpdLow z z' (fun r c => alpha * hval (.full z.rc z.cc x) r c)) := by
  intro z
  induction z with
  | rk t s y => intro x _ h; exact h.elim
  | full t s f =>
    rintro x ⟨hA, hB⟩ hs h1 h2
    obtain rfl : t = s := hs
    replace h1 : x.rows = t.cl.size := h1
    replace h2 : x.cols = t.cl.size := h2
    rw [addLowerAmH]
    refine Tot.cassert (same_refl _) ?_
    refine Tot.bind (add_tot (atrans := false) (a := x) (b := f) (alpha := alpha)
      (by rw [hA]; exact h1) (by rw [hB]; exact h2)) ?_
    rintro f' - ⟨g1, g2, g3⟩
    refine Tot.pure ⟨⟨rfl, rfl⟩, ⟨by rw [g1, hA], by rw [g2, hB]⟩, fun r c _ => ?_⟩
    show hval (.full t t f') r c = hval (.full t t f) r c + alpha * hval (.full t t x) r c
    rw [hval_full, hval_full, hval_full]
    by_cases h : r ∈ seg t ∧ c ∈ seg t
    · rw [if_pos h, if_pos h, if_pos h]
      obtain ⟨h3, h4⟩ := h
      rw [mem_seg] at h3 h4
      rw [g3 _ (by omega) _ (by omega)]
      rfl
    · rw [if_neg h, if_neg h, if_neg h, mul_zero, add_zero]
  | super t s m n son ih =>
    rintro x ho hsq h1 h2
    obtain ⟨rfl, e, hs⟩ := hsq
    subst e
    replace hs : ∀ i, SqOk (son i i) := hs
    obtain ⟨R, hrc, hR⟩ := sq_segs hs ho
    obtain ⟨hm, -, -, hok⟩ := id ho
    replace h1 : x.rows = t.cl.size := h1
    replace h2 : x.cols = t.cl.size := h2
    have hrs : ∀ i j, (son i j).rsize = (R i).cl.size := fun i j => by unfold rsize; rw [(hrc i j).1]
    have hcs : ∀ i j, (son i j).csize = (R j).cl.size := fun i j => by unfold csize; rw [(hrc i j).2]
    rw [addLowerAmH]
    refine Tot.cassert (same_refl _) (Tot.cassert (by simp) ?_)
    refine Tot.bind (colloop' (fun j => (R j).cl.size) (fun i j v => UpdLow (son i j) v (fun r c =>
      alpha * if r ∈ seg (R i) ∧ c ∈ seg (R j) then hval (.full t t x) r c else 0)) son ?_) ?_
    · intro j s1 hs1
      simp only [dif_pos hm]
      refine Tot.bind (rowloop' j (fun i => (R i).cl.size) (fun i v => UpdLow (son i j) v (fun r c =>
        alpha * if r ∈ seg (R i) ∧ c ∈ seg (R j) then hval (.full t t x) r c else 0)) s1 ?_) ?_
      · intro i s2 hs2
        simp only [hrs, hcs, Bool.false_eq_true, if_false]
        by_cases hij : i.1 < j.1
        · rw [if_pos hij]
          refine Tot.pure ⟨(pre_succ (fun i => (R i).cl.size) i).symm, s2 i j, ?_, setSon_self.symm⟩
          rw [hs2, hs1]
          exact skip_low hR hij (hok i j) _ _
        · rw [if_neg hij]
          refine Tot.bind (amsub_tot h1 h2 hR hR i j) ?_
          rintro w - ⟨g1, g2⟩
          refine Tot.bind (P := fun v => UpdLow (son i j) v (fun r c =>
            alpha * if r ∈ seg (R i) ∧ c ∈ seg (R j) then hval (.full t t x) r c else 0)) ?_ ?_
          · by_cases e : i.1 = j.1
            · rw [if_pos e]
              obtain rfl : i = j := Fin.ext e
              refine (ih i i (hok i i) (hs i) (by rw [g1.1, hrs]) (by rw [g1.2, hcs])).mono fun v hv => ?_
              refine hv.congr fun r c _ => ?_
              rw [(hrc i i).1, (hrc i i).2, g2]
            · rw [if_neg e]
              refine (addAmH_tot hT alpha (hok i j) (by rw [g1.1, hrs]) (by rw [g1.2, hcs])).mono fun v hv => ?_
              refine hv.low.congr fun r c _ => ?_
              rw [(hrc i j).1, (hrc i j).2, g2]
          · rintro v - hv
            exact Tot.pure ⟨(pre_succ (fun i => (R i).cl.size) i).symm, v, hv, rfl⟩
      · rintro ⟨s2, o⟩ - ⟨g1, g2, g3⟩
        replace g1 : o = _ := g1
        refine Tot.cassert (by simp [g1, hR.2]) (Tot.pure ⟨?_, g2, g3⟩)
        show _ + _ = _
        rw [hcs]
        exact (pre_succ (fun j => (R j).cl.size) j).symm
    · rintro ⟨s2, o⟩ - ⟨g1, g2⟩
      replace g1 : o = _ := g1
      refine Tot.cassert (by simp [g1, hR.2]) (Tot.pure ?_)
      exact grid_updLow (H := hval (.full t t x)) ho hR (fun r c hn => by rw [hval_full]; exact if_neg hn) g2

/-- adding the lower part of a low-rank matrix that represents `P` -/
theorem rk_low {T : TruncOps K} (hT : Lossless T) {alpha : K} {z : HV G K} {x : VRk K} (hz : HVOk z) (hs : SqOk z) (hx : RkOk x)
    (h1 : x.A.rows = z.rsize) (h2 : x.B.rows = z.csize) {P : Nat → Nat → K}
    (hP : ∀ i < z.rsize, ∀ j < z.csize, rkVal x i j = P (z.rc.cl.off + i) (z.cc.cl.off + j))
    (hP0 : ∀ r c, ¬ (r ∈ seg z.rc ∧ c ∈ seg z.cc) → P r c = 0) :
    Tot (addLowerRkH T alpha x z) (fun z' => UpdLow z z' (fun r c => alpha * P r c)) := by
  refine Tot.mono (addLowerRkH_tot hT alpha hz hs hx h1 h2) fun z' hu => hu.congr fun r c _ => ?_
  congr 1
  rw [hval_rk]
  by_cases h : r ∈ seg z.rc ∧ c ∈ seg z.cc
  · rw [if_pos h]
    obtain ⟨h3, h4⟩ := h
    rw [mem_seg] at h3 h4
    unfold rsize csize at hP
    rw [hP _ (by omega) _ (by omega)]
    congr 1 <;> omega
  · rw [if_neg h, hP0 r c h]

/-- adding the lower part of a dense matrix that represents `P` -/
theorem am_low {T : TruncOps K} (hT : Lossless T) {alpha : K} {z : HV G K} {x : VMat K} (hz : HVOk z) (hs : SqOk z)
    (h1 : x.rows = z.rsize) (h2 : x.cols = z.csize) {P : Nat → Nat → K}
    (hP : ∀ i < z.rsize, ∀ j < z.csize, x.e i j = P (z.rc.cl.off + i) (z.cc.cl.off + j))
    (hP0 : ∀ r c, ¬ (r ∈ seg z.rc ∧ c ∈ seg z.cc) → P r c = 0) :
    Tot (addLowerAmH T alpha false x z) (fun z' => UpdLow z z' (fun r c => alpha * P r c)) := by
  refine Tot.mono (addLowerAmH_tot hT alpha hz hs h1 h2) fun z' hu => hu.congr fun r c _ => ?_
  congr 1
  rw [hval_full]
  by_cases h : r ∈ seg z.rc ∧ c ∈ seg z.cc
  · rw [if_pos h]
    obtain ⟨h3, h4⟩ := h
    rw [mem_seg] at h3 h4
    unfold rsize csize at hP
    rw [hP _ (by omega) _ (by omega)]
    congr 1 <;> omega
  · rw [if_neg h, hP0 r c h]

end HV
end H2
