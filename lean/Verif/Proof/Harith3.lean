import Verif.Proof.Harith2

set_option linter.unusedSectionVars false

namespace H2
open Spec
variable {G K : Type} [Field K] [StarRing K]

/-! ### shapes -/

theorem _root_.H2.Spec.SameShape.refl : ∀ h : HV G K, SameShape h h := by
  intro h
  induction h with
  | rk => exact ⟨rfl, rfl⟩
  | full => exact ⟨rfl, rfl⟩
  | super t s m n son ih => exact ⟨rfl, rfl, rfl, rfl, fun i j => ih i j⟩

theorem _root_.H2.Spec.SameShape.trans : ∀ {a b c : HV G K}, SameShape a b → SameShape b c → SameShape a c := by
  intro a
  induction a with
  | rk t s x => intro b c h1 h2; cases b <;> cases c <;> simp only [SameShape] at *; exact ⟨h1.1.trans h2.1, h1.2.trans h2.2⟩
  | full t s x => intro b c h1 h2; cases b <;> cases c <;> simp only [SameShape] at *; exact ⟨h1.1.trans h2.1, h1.2.trans h2.2⟩
  | super t s m n son ih =>
    intro b c h1 h2
    cases b with
    | rk => simp only [SameShape] at h1
    | full => simp only [SameShape] at h1
    | super t' s' m' n' son' =>
      cases c with
      | rk => simp only [SameShape] at h2
      | full => simp only [SameShape] at h2
      | super t'' s'' m'' n'' son'' =>
        simp only [SameShape] at h1 h2 ⊢
        obtain ⟨rfl, rfl, rfl, rfl, h1⟩ := h1
        obtain ⟨rfl, rfl, rfl, rfl, h2⟩ := h2
        exact ⟨rfl, rfl, rfl, rfl, fun i j => ih i j (h1 i j) (h2 i j)⟩

theorem _root_.H2.Spec.SameShape.rc {a b : HV G K} (h : SameShape a b) : b.rc = a.rc := by
  cases a <;> cases b <;> simp only [SameShape] at h <;> exact h.1.symm

theorem _root_.H2.Spec.SameShape.cc {a b : HV G K} (h : SameShape a b) : b.cc = a.cc := by
  cases a <;> cases b <;> simp only [SameShape] at h
  · exact h.2.symm
  · exact h.2.symm
  · exact h.2.1.symm

theorem _root_.H2.Spec.SameShape.std : ∀ {a b : HV G K}, SameShape a b → HVStd a → HVStd b := by
  intro a
  induction a with
  | rk => intro b h _; cases b <;> simp only [SameShape] at h; trivial
  | full => intro b h _; cases b <;> simp only [SameShape] at h; trivial
  | super t s m n son ih =>
    intro b h hs
    cases b with
    | rk => simp only [SameShape] at h
    | full => simp only [SameShape] at h
    | super t' s' m' n' son' =>
      simp only [SameShape] at h
      obtain ⟨rfl, rfl, rfl, rfl, h⟩ := h
      simp only [HVStd] at hs ⊢
      refine ⟨hs.1, hs.2.1, hs.2.2.1, fun i j => ?_⟩
      obtain ⟨e1, e2, e3⟩ := hs.2.2.2 i j
      exact ⟨(h i j).rc.trans e1, (h i j).cc.trans e2, ih i j (h i j) e3⟩

/-- `z'` is `z` plus the matrix `D` -/
structure Upd (z z' : HV G K) (D : Nat → Nat → K) : Prop where
  shape : SameShape z z'
  ok : HVOk z'
  val : ∀ r c, hval z' r c = hval z r c + D r c

theorem Upd.refl {z : HV G K} (h : HVOk z) : Upd z z (fun _ _ => 0) := ⟨.refl z, h, fun r c => by rw [add_zero]⟩

theorem Upd.trans {z z' z'' : HV G K} {D D' : Nat → Nat → K} (h : Upd z z' D) (h' : Upd z' z'' D') :
    Upd z z'' (fun r c => D r c + D' r c) :=
  ⟨h.shape.trans h'.shape, h'.ok, fun r c => by rw [h'.val, h.val, add_assoc]⟩

theorem Upd.congr {z z' : HV G K} {D D' : Nat → Nat → K} (h : Upd z z' D) (e : ∀ r c, D r c = D' r c) : Upd z z' D' :=
  ⟨h.shape, h.ok, fun r c => by rw [h.val, e]⟩

theorem Upd.super {t s : CRef G} {m n : Nat} {son son' : Fin m → Fin n → HV G K} {D : Fin m → Fin n → Nat → Nat → K}
    (ho : HVOk (.super t s m n son)) (h : ∀ i j, Upd (son i j) (son' i j) (D i j)) :
    Upd (.super t s m n son) (.super t s m n son') (fun r c => ∑ i, ∑ j, D i j r c) := by
  obtain ⟨hm, hn, ⟨R, C, hrc, hR, hC⟩, hs⟩ := ho
  refine ⟨⟨rfl, rfl, rfl, rfl, fun i j => (h i j).shape⟩, ⟨hm, hn, ⟨R, C, fun i j => ?_, hR, hC⟩, fun i j => (h i j).ok⟩, ?_⟩
  · exact ⟨(h i j).shape.rc.trans (hrc i j).1, (h i j).shape.cc.trans (hrc i j).2⟩
  · intro r c
    rw [hval_super, hval_super, ← Finset.sum_add_distrib]
    refine Finset.sum_congr rfl fun i _ => ?_
    rw [← Finset.sum_add_distrib]
    exact Finset.sum_congr rfl fun j _ => (h i j).val r c

/-! ### loops over the sons -/

theorem setSon_same {m n : Nat} {s : Fin m → Fin n → HV G K} {i : Fin m} {j : Fin n} {v : HV G K} :
    HV.setSon s i j v i j = v := by unfold HV.setSon; rw [if_pos ⟨rfl, rfl⟩]

theorem setSon_ne {m n : Nat} {s : Fin m → Fin n → HV G K} {i i' : Fin m} {j j' : Fin n} {v : HV G K}
    (h : ¬ (i' = i ∧ j' = j)) : HV.setSon s i j v i' j' = s i' j' := by unfold HV.setSon; rw [if_neg h]

theorem rowloop {m n : Nat} {f : Fin m → (Fin m → Fin n → HV G K) × Nat → R ((Fin m → Fin n → HV G K) × Nat)}
    (j : Fin n) (sz : Fin m → Nat) (Rel : Fin m → HV G K → Prop)
    (h : ∀ i s, Tot (f i (s, pre sz i.1)) (fun st => st.2 = pre sz (i.1 + 1) ∧ ∃ v, Rel i v ∧ st.1 = HV.setSon s i j v))
    (s0 : Fin m → Fin n → HV G K) :
    Tot (foldFinM m f (s0, 0)) (fun st => st.2 = ∑ i, sz i ∧ (∀ i, Rel i (st.1 i j)) ∧
      ∀ i j', j' ≠ j → st.1 i j' = s0 i j') := by
  refine Tot.mono (foldFinM_tot (P := fun k (st : (Fin m → Fin n → HV G K) × Nat) => st.2 = pre sz k ∧
    (∀ i : Fin m, i.1 < k → Rel i (st.1 i j)) ∧ ∀ i j', j' ≠ j → st.1 i j' = s0 i j') ?_ ?_) ?_
  · exact ⟨(pre_zero _).symm, fun i hi => absurd hi (Nat.not_lt_zero _), fun i j' _ => rfl⟩
  · rintro i ⟨s, o⟩ ⟨h2, h3, h4⟩
    replace h2 : o = _ := h2
    subst h2
    refine Tot.mono (h i s) ?_
    rintro ⟨s', o'⟩ ⟨g1, v, g2, g3⟩
    replace g3 : s' = _ := g3
    subst g3
    refine ⟨g1, fun i' hi' => ?_, fun i' j' hj => ?_⟩
    · show Rel i' (HV.setSon s i j v i' j)
      by_cases e : i' = i
      · subst e; rw [setSon_same]; exact g2
      · rw [setSon_ne (fun h => e h.1)]
        refine h3 i' ?_
        have : i'.1 ≠ i.1 := fun h => e (Fin.ext h)
        omega
    · show HV.setSon s i j v i' j' = _
      rw [setSon_ne (fun h => hj h.2)]; exact h4 i' j' hj
  · rintro ⟨s, o⟩ ⟨h2, h3, h4⟩
    exact ⟨by rw [← pre_all]; exact h2, fun i => h3 i i.2, h4⟩

theorem colloop {m n : Nat} {f : Fin n → (Fin m → Fin n → HV G K) × Nat → R ((Fin m → Fin n → HV G K) × Nat)}
    (sz : Fin n → Nat) (Rel : Fin m → Fin n → HV G K → Prop)
    (h : ∀ j s, Tot (f j (s, pre sz j.1)) (fun st => st.2 = pre sz (j.1 + 1) ∧ (∀ i, Rel i j (st.1 i j)) ∧
      ∀ i j', j' ≠ j → st.1 i j' = s i j')) (s0 : Fin m → Fin n → HV G K) :
    Tot (foldFinM n f (s0, 0)) (fun st => st.2 = ∑ i, sz i ∧ ∀ i j, Rel i j (st.1 i j)) := by
  refine Tot.mono (foldFinM_tot (P := fun k (st : (Fin m → Fin n → HV G K) × Nat) => st.2 = pre sz k ∧
    (∀ i (j : Fin n), j.1 < k → Rel i j (st.1 i j))) ?_ ?_) ?_
  · exact ⟨(pre_zero _).symm, fun i j hj => absurd hj (Nat.not_lt_zero _)⟩
  · rintro j ⟨s, o⟩ ⟨h2, h3⟩
    replace h2 : o = _ := h2
    subst h2
    refine Tot.mono (h j s) ?_
    rintro ⟨s', o'⟩ ⟨g1, g2, g3⟩
    refine ⟨g1, fun i j' hj' => ?_⟩
    by_cases e : j' = j
    · subst e; exact g2 i
    · rw [g3 i j' e]
      refine h3 i j' ?_
      have : j'.1 ≠ j.1 := fun h => e (Fin.ext h)
      omega
  · rintro ⟨s, o⟩ ⟨h2, h3⟩
    exact ⟨by rw [← pre_all]; exact h2, fun i j => h3 i j j.2⟩

/-! ### restriction to sub-blocks -/

theorem sum_pick_grid {M : Type _} [AddCommMonoid M] {t s : CRef G} {m n : Nat} {R : Fin m → CRef G} {C : Fin n → CRef G}
    (hR : Segments t R) (hC : Segments s C) (r c : Nat) (a : M) :
    (∑ i, ∑ j, if r ∈ seg (R i) ∧ c ∈ seg (C j) then a else 0) = if r ∈ seg t ∧ c ∈ seg s then a else 0 := by
  have : ∀ i, (∑ j, if r ∈ seg (R i) ∧ c ∈ seg (C j) then a else 0) =
      if r ∈ seg (R i) then (if c ∈ seg s then a else 0) else 0 := by
    intro i
    by_cases h : r ∈ seg (R i)
    · simp only [h, true_and, if_true]
      exact sum_pick_seg hC c a
    · simp [h]
  rw [Finset.sum_congr rfl fun i _ => this i, sum_pick_seg hR]
  by_cases h : r ∈ seg t
  · simp [h]
  · simp [h]

namespace HV

theorem rksub_tot {x : VRk K} {t s : CRef G} {m n : Nat} {R : Fin m → CRef G} {C : Fin n → CRef G} (hx : RkOk x)
    (h1 : x.A.rows = t.cl.size) (h2 : x.B.rows = s.cl.size) (hR : Segments t R) (hC : Segments s C) (i : Fin m) (j : Fin n) :
    Tot (x.sub (R i).cl.size (pre (fun i => (R i).cl.size) i.1) (C j).cl.size (pre (fun j => (C j).cl.size) j.1))
      (fun w => HVOk (.rk (R i) (C j) w) ∧ ∀ r c, hval (.rk (R i) (C j) w) r c =
        if r ∈ seg (R i) ∧ c ∈ seg (C j) then hval (.rk t s x) r c else 0) := by
  unfold VRk.sub
  have e1 := segments_end hR i
  have e2 := segments_end hC j
  rw [sub_tot (by rw [h1]; exact e1) (by rw [hx.1, Nat.zero_add]), ok_bind,
    sub_tot (by rw [h2]; exact e2) (by rw [hx.2, Nat.zero_add]), ok_bind]
  refine Tot.pure ⟨⟨⟨rfl, rfl⟩, rfl, rfl⟩, fun r c => ?_⟩
  rw [hval_rk]
  by_cases h : r ∈ seg (R i) ∧ c ∈ seg (C j)
  · rw [if_pos h, if_pos h, hval_rk, if_pos ⟨seg_son hR h.1, seg_son hC h.2⟩]
    unfold rkVal
    simp only [Nat.zero_add]
    obtain ⟨h3, h4⟩ := h
    rw [mem_seg] at h3 h4
    have e3 := segments_off hR i
    have e4 := segments_off hC j
    refine Finset.sum_congr rfl fun nu _ => ?_
    congr 2
    · omega
    · congr 1; omega
  · rw [if_neg h, if_neg h]

theorem amsub_tot {x : VMat K} {t s : CRef G} {m n : Nat} {R : Fin m → CRef G} {C : Fin n → CRef G}
    (h1 : x.rows = t.cl.size) (h2 : x.cols = s.cl.size) (hR : Segments t R) (hC : Segments s C) (i : Fin m) (j : Fin n) :
    Tot (x.sub (R i).cl.size (pre (fun i => (R i).cl.size) i.1) (C j).cl.size (pre (fun j => (C j).cl.size) j.1))
      (fun w => HVOk (.full (R i) (C j) w) ∧ ∀ r c, hval (.full (R i) (C j) w) r c =
        if r ∈ seg (R i) ∧ c ∈ seg (C j) then hval (.full t s x) r c else 0) := by
  have e1 := segments_end hR i
  have e2 := segments_end hC j
  rw [sub_tot (by rw [h1]; exact e1) (by rw [h2]; exact e2)]
  refine ⟨_, rfl, ⟨rfl, rfl⟩, fun r c => ?_⟩
  rw [hval_full]
  by_cases h : r ∈ seg (R i) ∧ c ∈ seg (C j)
  · rw [if_pos h, if_pos h, hval_full, if_pos ⟨seg_son hR h.1, seg_son hC h.2⟩]
    obtain ⟨h3, h4⟩ := h
    rw [mem_seg] at h3 h4
    have e3 := segments_off hR i
    have e4 := segments_off hC j
    simp only
    congr 1 <;> omega
  · rw [if_neg h, if_neg h]

/-- summing up the updates of the sons -/
theorem grid_upd {t s : CRef G} {m n : Nat} {son son' : Fin m → Fin n → HV G K} {R : Fin m → CRef G} {C : Fin n → CRef G}
    (ho : HVOk (.super t s m n son)) (hR : Segments t R) (hC : Segments s C) {alpha : K} {H : Nat → Nat → K}
    (hH : ∀ r c, ¬ (r ∈ seg t ∧ c ∈ seg s) → H r c = 0)
    (h : ∀ i j, Upd (son i j) (son' i j) (fun r c => alpha * if r ∈ seg (R i) ∧ c ∈ seg (C j) then H r c else 0)) :
    Upd (.super t s m n son) (.super t s m n son') (fun r c => alpha * H r c) := by
  refine (Upd.super ho h).congr fun r c => ?_
  simp only [← Finset.mul_sum]
  rw [sum_pick_grid hR hC]
  by_cases hin : r ∈ seg t ∧ c ∈ seg s
  · rw [if_pos hin]
  · rw [if_neg hin, hH r c hin]

theorem addRkH_tot {T : TruncOps K} (hT : Lossless T) (alpha : K) : ∀ {z : HV G K} {x : VRk K}, HVOk z → RkOk x →
    x.A.rows = z.rsize → x.B.rows = z.csize →
    Tot (addRkH T alpha x z) (fun z' => Upd z z' (fun r c => alpha * hval (.rk z.rc z.cc x) r c)) := by
  intro z
  induction z with
  | rk t s y =>
    rintro x ⟨ho, hA, hB⟩ hx h1 h2
    replace h1 : x.A.rows = t.cl.size := h1
    replace h2 : x.B.rows = s.cl.size := h2
    simp only [addRkH]
    obtain ⟨y', e, g1, g2, g3, g4⟩ := hT.addRk alpha x y hx ho (by rw [h1, hA]) (by rw [h2, hB])
    rw [e, ok_bind]
    refine Tot.pure ⟨⟨rfl, rfl⟩, ⟨g1, by rw [g2, hA], by rw [g3, hB]⟩, fun r c => ?_⟩
    show hval (.rk t s y') r c = hval (.rk t s y) r c + alpha * hval (.rk t s x) r c
    rw [hval_rk, hval_rk, hval_rk]
    by_cases h : r ∈ seg t ∧ c ∈ seg s
    · rw [if_pos h, if_pos h, if_pos h]
      obtain ⟨h3, h4⟩ := h
      rw [mem_seg] at h3 h4
      exact g4 _ (by omega) _ (by omega)
    · rw [if_neg h, if_neg h, if_neg h, mul_zero, add_zero]
  | full t s f =>
    rintro x ⟨hA, hB⟩ hx h1 h2
    replace h1 : x.A.rows = t.cl.size := h1
    replace h2 : x.B.rows = s.cl.size := h2
    simp only [addRkH]
    refine Tot.bind (addmul_tot (at' := false) (bt := true) (a := x.A) (b := x.B) (c := f) (alpha := alpha)
      (by show x.A.cols = x.B.cols; rw [hx.1, hx.2]) (by rw [hA]; exact h1.symm) (by rw [hB]; exact h2.symm)) ?_
    rintro f' - ⟨g1, g2, g3⟩
    refine Tot.pure ⟨⟨rfl, rfl⟩, ⟨by rw [g1, hA], by rw [g2, hB]⟩, fun r c => ?_⟩
    show hval (.full t s f') r c = hval (.full t s f) r c + alpha * hval (.rk t s x) r c
    rw [hval_full, hval_full, hval_rk]
    by_cases h : r ∈ seg t ∧ c ∈ seg s
    · rw [if_pos h, if_pos h, if_pos h]
      obtain ⟨h3, h4⟩ := h
      rw [mem_seg] at h3 h4
      rw [g3 _ (by omega) _ (by omega), show x.A.ocols false = x.k from hx.1]
      rfl
    · rw [if_neg h, if_neg h, if_neg h, mul_zero, add_zero]
  | super t s m n son ih =>
    rintro x ho hx h1 h2
    have ho' := ho
    obtain ⟨hm, hn, ⟨R, C, hrc, hR, hC⟩, hs⟩ := ho
    replace h1 : x.A.rows = t.cl.size := h1
    replace h2 : x.B.rows = s.cl.size := h2
    have hrs : ∀ i j, (son i j).rsize = (R i).cl.size := fun i j => by unfold rsize; rw [(hrc i j).1]
    have hcs : ∀ i j, (son i j).csize = (C j).cl.size := fun i j => by unfold csize; rw [(hrc i j).2]
    simp only [addRkH]
    refine Tot.bind (colloop (fun j => (C j).cl.size) (fun i j v => Upd (son i j) v (fun r c =>
      alpha * if r ∈ seg (R i) ∧ c ∈ seg (C j) then hval (.rk t s x) r c else 0)) ?_ son) ?_
    · intro j s1
      simp only [dif_pos hm]
      refine Tot.bind (rowloop j (fun i => (R i).cl.size) (fun i v => Upd (son i j) v (fun r c =>
        alpha * if r ∈ seg (R i) ∧ c ∈ seg (C j) then hval (.rk t s x) r c else 0)) ?_ s1) ?_
      · intro i s2
        simp only [hrs, hcs]
        refine Tot.bind (rksub_tot hx h1 h2 hR hC i j) ?_
        rintro w - ⟨g1, g2⟩
        refine Tot.bind (ih i j (hs i j) g1.1 (by rw [g1.2.1, hrs]) (by rw [g1.2.2, hcs])) ?_
        rintro v - hv
        refine Tot.pure ⟨(pre_succ (fun i => (R i).cl.size) i).symm, v, ?_, rfl⟩
        refine hv.congr fun r c => ?_
        rw [(hrc i j).1, (hrc i j).2, g2]
      · rintro ⟨s2, o⟩ - ⟨g1, g2, g3⟩
        replace g1 : o = _ := g1
        refine Tot.cassert (by simp [g1, hR.2]) (Tot.pure ⟨?_, g2, g3⟩)
        show _ + _ = _
        rw [hcs]
        exact (pre_succ (fun j => (C j).cl.size) j).symm
    · rintro ⟨s2, o⟩ - ⟨g1, g2⟩
      replace g1 : o = _ := g1
      refine Tot.cassert (by simp [g1, hC.2]) (Tot.pure ?_)
      exact grid_upd (H := hval (.rk t s x)) ho' hR hC (fun r c hn => by rw [hval_rk]; exact if_neg hn) g2

theorem addAmH_tot {T : TruncOps K} (hT : Lossless T) (alpha : K) : ∀ {z : HV G K} {x : VMat K}, HVOk z →
    x.rows = z.rsize → x.cols = z.csize →
    Tot (addAmH T alpha false x z) (fun z' => Upd z z' (fun r c => alpha * hval (.full z.rc z.cc x) r c)) := by
  intro z
  induction z with
  | rk t s y =>
    rintro x ⟨ho, hA, hB⟩ h1 h2
    replace h1 : x.rows = t.cl.size := h1
    replace h2 : x.cols = s.cl.size := h2
    simp only [addAmH]
    obtain ⟨y', e, g1, g2, g3, g4⟩ := hT.addAm alpha false x y ho (by show x.rows = _; rw [h1, hA])
      (by show x.cols = _; rw [h2, hB])
    rw [e, ok_bind]
    refine Tot.pure ⟨⟨rfl, rfl⟩, ⟨g1, by rw [g2, hA], by rw [g3, hB]⟩, fun r c => ?_⟩
    show hval (.rk t s y') r c = hval (.rk t s y) r c + alpha * hval (.full t s x) r c
    rw [hval_rk, hval_rk, hval_full]
    by_cases h : r ∈ seg t ∧ c ∈ seg s
    · rw [if_pos h, if_pos h, if_pos h]
      obtain ⟨h3, h4⟩ := h
      rw [mem_seg] at h3 h4
      exact g4 _ (by omega) _ (by omega)
    · rw [if_neg h, if_neg h, if_neg h, mul_zero, add_zero]
  | full t s f =>
    rintro x ⟨hA, hB⟩ h1 h2
    replace h1 : x.rows = t.cl.size := h1
    replace h2 : x.cols = s.cl.size := h2
    simp only [addAmH]
    refine Tot.bind (add_tot (atrans := false) (a := x) (b := f) (alpha := alpha)
      (by rw [hA]; exact h1) (by rw [hB]; exact h2)) ?_
    rintro f' - ⟨g1, g2, g3⟩
    refine Tot.pure ⟨⟨rfl, rfl⟩, ⟨by rw [g1, hA], by rw [g2, hB]⟩, fun r c => ?_⟩
    show hval (.full t s f') r c = hval (.full t s f) r c + alpha * hval (.full t s x) r c
    rw [hval_full, hval_full, hval_full]
    by_cases h : r ∈ seg t ∧ c ∈ seg s
    · rw [if_pos h, if_pos h, if_pos h]
      obtain ⟨h3, h4⟩ := h
      rw [mem_seg] at h3 h4
      rw [g3 _ (by omega) _ (by omega)]
      rfl
    · rw [if_neg h, if_neg h, if_neg h, mul_zero, add_zero]
  | super t s m n son ih =>
    rintro x ho h1 h2
    have ho' := ho
    obtain ⟨hm, hn, ⟨R, C, hrc, hR, hC⟩, hs⟩ := ho
    replace h1 : x.rows = t.cl.size := h1
    replace h2 : x.cols = s.cl.size := h2
    have hrs : ∀ i j, (son i j).rsize = (R i).cl.size := fun i j => by unfold rsize; rw [(hrc i j).1]
    have hcs : ∀ i j, (son i j).csize = (C j).cl.size := fun i j => by unfold csize; rw [(hrc i j).2]
    simp only [addAmH]
    refine Tot.bind (colloop (fun j => (C j).cl.size) (fun i j v => Upd (son i j) v (fun r c =>
      alpha * if r ∈ seg (R i) ∧ c ∈ seg (C j) then hval (.full t s x) r c else 0)) ?_ son) ?_
    · intro j s1
      simp only [dif_pos hm]
      refine Tot.bind (rowloop j (fun i => (R i).cl.size) (fun i v => Upd (son i j) v (fun r c =>
        alpha * if r ∈ seg (R i) ∧ c ∈ seg (C j) then hval (.full t s x) r c else 0)) ?_ s1) ?_
      · intro i s2
        simp only [hrs, hcs]
        refine Tot.bind (amsub_tot h1 h2 hR hC i j) ?_
        rintro w - ⟨g1, g2⟩
        refine Tot.bind (ih i j (hs i j) (by rw [g1.1, hrs]) (by rw [g1.2, hcs])) ?_
        rintro v - hv
        refine Tot.pure ⟨(pre_succ (fun i => (R i).cl.size) i).symm, v, ?_, rfl⟩
        refine hv.congr fun r c => ?_
        rw [(hrc i j).1, (hrc i j).2, g2]
      · rintro ⟨s2, o⟩ - ⟨g1, g2, g3⟩
        replace g1 : o = _ := g1
        refine Tot.cassert (by simp [g1, hR.2]) (Tot.pure ⟨?_, g2, g3⟩)
        show _ + _ = _
        rw [hcs]
        exact (pre_succ (fun j => (C j).cl.size) j).symm
    · rintro ⟨s2, o⟩ - ⟨g1, g2⟩
      replace g1 : o = _ := g1
      refine Tot.cassert (by simp [g1, hC.2]) (Tot.pure ?_)
      exact grid_upd (H := hval (.full t s x)) ho' hR hC (fun r c hn => by rw [hval_full]; exact if_neg hn) g2

end HV
end H2
