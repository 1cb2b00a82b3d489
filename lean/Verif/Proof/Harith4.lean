import Verif.Proof.Harith3

set_option linter.unusedSectionVars false

namespace H2
open Spec
variable {G K : Type} [Field K] [StarRing K]

namespace HV

/-! ### dense windows -/

theorem amglue {x w w' : VMat K} {t s : CRef G} {m n : Nat} {R : Fin m → CRef G} {C : Fin n → CRef G}
    (h1 : x.rows = t.cl.size) (h2 : x.cols = s.cl.size) (hR : Segments t R) (hC : Segments s C) {i : Fin m} {j : Fin n}
    (hw : ∀ r c, hval (.full (R i) (C j) w) r c =
        if r ∈ seg (R i) ∧ c ∈ seg (C j) then hval (.full t s x) r c else 0)
    {D : Nat → Nat → K} (hw' : Upd (.full (R i) (C j) w) (.full (R i) (C j) w') D) :
    Upd (.full t s x) (.full t s (x.glue (pre (fun i => (R i).cl.size) i.1) (pre (fun j => (C j).cl.size) j.1) w')) D := by
  refine ⟨⟨rfl, rfl⟩, ⟨h1, h2⟩, fun r c => ?_⟩
  obtain ⟨f1, f2⟩ : w'.rows = (R i).cl.size ∧ w'.cols = (C j).cl.size := hw'.ok
  have e1 := segments_end hR i
  have e2 := segments_end hC j
  have e3 := segments_off hR i
  have e4 := segments_off hC j
  have hv := hw'.val r c
  rw [hw, hval_full] at hv
  by_cases hin : r ∈ seg (R i) ∧ c ∈ seg (C j)
  · rw [if_pos hin, if_pos hin] at hv
    rw [← hv, hval_full, if_pos ⟨seg_son hR hin.1, seg_son hC hin.2⟩]
    obtain ⟨h3, h4⟩ := hin
    rw [mem_seg] at h3 h4
    unfold VMat.glue
    simp only
    rw [if_pos (by omega)]
    congr 1 <;> omega
  · rw [if_neg hin, if_neg hin, zero_add] at hv
    rw [← hv, add_zero, hval_full, hval_full]
    by_cases h : r ∈ seg t ∧ c ∈ seg s
    · rw [if_pos h, if_pos h]
      unfold VMat.glue
      simp only
      rw [if_neg]
      intro h'
      apply hin
      obtain ⟨h3, h4⟩ := h
      rw [mem_seg] at h3 h4
      rw [mem_seg, mem_seg]
      omega
    · rw [if_neg h, if_neg h]

theorem addRkAm_tot {alpha : K} {atrans : Bool} {a : VRk K} {b : VMat K} (ha : RkOk a)
    (h1 : b.rows = if atrans then a.B.rows else a.A.rows) (h2 : b.cols = if atrans then a.A.rows else a.B.rows) :
    Tot (addRkAm alpha atrans a b) (fun b' => b'.rows = b.rows ∧ b'.cols = b.cols ∧ ∀ i < b.rows, ∀ j < b.cols,
      b'.e i j = b.e i j + alpha * if atrans then star (rkVal a j i) else rkVal a i j) := by
  have main : ∀ P Q : VMat K, P.cols = a.k → Q.cols = a.k → P.rows = b.rows → Q.rows = b.cols →
      Tot (cassert (decide (P.rows = b.rows)) >>= fun _ => cassert (decide (Q.rows = b.cols)) >>= fun _ =>
        if 0 < a.k then VMat.addmul alpha false P true Q b else pure b)
        (fun b' => b'.rows = b.rows ∧ b'.cols = b.cols ∧ ∀ i < b.rows, ∀ j < b.cols,
      b'.e i j = b.e i j + alpha * ∑ nu ∈ Finset.range a.k, P.e i nu * star (Q.e j nu)) := by
    intro P Q hP hQ h3 h4
    refine Tot.cassert (by simpa using h3) (Tot.cassert (by simpa using h4) ?_)
    by_cases hk : 0 < a.k
    · rw [if_pos hk]
      refine Tot.mono (addmul_tot (by show P.cols = Q.cols; rw [hP, hQ]) h3.symm h4.symm) ?_
      rintro b' ⟨g1, g2, g3⟩
      refine ⟨g1, g2, fun i hi j hj => ?_⟩
      rw [g3 i hi j hj, show P.ocols false = a.k from hP]
      rfl
    · rw [if_neg hk]
      refine Tot.pure ⟨rfl, rfl, fun i hi j hj => ?_⟩
      rw [show a.k = 0 by omega]; simp
  unfold addRkAm
  cases atrans with
  | true =>
    rw [if_pos rfl]
    refine Tot.mono (main a.B a.A ha.2 ha.1 h1.symm h2.symm) ?_
    rintro b' ⟨g1, g2, g3⟩
    refine ⟨g1, g2, fun i hi j hj => ?_⟩
    rw [g3 i hi j hj, if_pos rfl, rkVal, star_sum]
    congr 2
    refine Finset.sum_congr rfl fun nu _ => ?_
    rw [star_mul', star_star, mul_comm]
  | false =>
    rw [if_neg (by simp)]
    exact main a.A a.B ha.1 ha.2 h1.symm h2.symm

theorem addHAm_tot (alpha : K) (atrans : Bool) : ∀ {a : HV G K} {b : VMat K}, HVOk a →
    b.rows = (a.orc atrans).cl.size → b.cols = (a.occ atrans).cl.size →
    Tot (addHAm alpha atrans a b) (fun b' => Upd (.full (a.orc atrans) (a.occ atrans) b)
      (.full (a.orc atrans) (a.occ atrans) b') (fun r c => alpha * ohval atrans a r c)) := by
  intro a
  have asserts : ∀ {a : HV G K} {b : VMat K}, b.rows = (a.orc atrans).cl.size → b.cols = (a.occ atrans).cl.size →
      a.rc.cl.size = b.orows atrans ∧ a.cc.cl.size = b.ocols atrans := by
    intro a b h1 h2
    unfold orc occ VMat.orows VMat.ocols at *
    cases atrans
    · exact ⟨h1.symm, h2.symm⟩
    · exact ⟨h2.symm, h1.symm⟩
  induction a with
  | rk t s x =>
    rintro b ⟨ho, hA, hB⟩ h1 h2
    obtain ⟨a1, a2⟩ := asserts (a := .rk t s x) h1 h2
    replace a1 : t.cl.size = _ := a1
    replace a2 : s.cl.size = _ := a2
    simp only [addHAm]
    refine Tot.cassert (by simpa using a1) (Tot.cassert (by simpa using a2) ?_)
    refine Tot.mono (addRkAm_tot ho (by rw [h1, hA, hB]; cases atrans <;> rfl) (by rw [h2, hA, hB]; cases atrans <;> rfl)) ?_
    rintro b' ⟨g1, g2, g3⟩
    refine ⟨⟨rfl, rfl⟩, ⟨by rw [g1, h1], by rw [g2, h2]⟩, fun r c => ?_⟩
    rw [hval_full, hval_full]
    by_cases h : r ∈ seg (orc atrans (.rk t s x)) ∧ c ∈ seg (occ atrans (.rk t s x))
    · rw [if_pos h, if_pos h]
      have h' := h
      rw [mem_seg, mem_seg] at h'
      rw [g3 _ (by omega) _ (by omega)]
      congr 2
      unfold ohval
      cases atrans
      · simp only [Bool.false_eq_true, if_false]
        rw [hval_rk]
        exact (if_pos h).symm
      · simp only [if_true]
        rw [hval_rk]
        congr 1
        exact (if_pos ⟨h.2, h.1⟩).symm
    · rw [if_neg h, if_neg h, ohval_out (h := .rk t s x) ⟨ho, hA, hB⟩ h, mul_zero, add_zero]
  | full t s x =>
    rintro b ⟨hA, hB⟩ h1 h2
    obtain ⟨a1, a2⟩ := asserts (a := .full t s x) h1 h2
    replace a1 : t.cl.size = _ := a1
    replace a2 : s.cl.size = _ := a2
    simp only [addHAm]
    refine Tot.cassert (by simpa using a1) (Tot.cassert (by simpa using a2) ?_)
    refine Tot.mono (add_tot (by rw [h1]; cases atrans <;> assumption) (by rw [h2]; cases atrans <;> assumption)) ?_
    rintro b' ⟨g1, g2, g3⟩
    refine ⟨⟨rfl, rfl⟩, ⟨by rw [g1, h1], by rw [g2, h2]⟩, fun r c => ?_⟩
    rw [hval_full, hval_full]
    by_cases h : r ∈ seg (orc atrans (.full t s x)) ∧ c ∈ seg (occ atrans (.full t s x))
    · rw [if_pos h, if_pos h]
      have h' := h
      rw [mem_seg, mem_seg] at h'
      rw [g3 _ (by omega) _ (by omega)]
      congr 2
      unfold ohval
      cases atrans
      · simp only [Bool.false_eq_true, if_false]
        rw [hval_full]
        exact (if_pos h).symm
      · simp only [if_true]
        rw [hval_full]
        show star (x.e _ _) = _
        congr 1
        exact (if_pos ⟨h.2, h.1⟩).symm
    · rw [if_neg h, if_neg h, ohval_out (h := .full t s x) ⟨hA, hB⟩ h, mul_zero, add_zero]
  | super t s m n son ih =>
    rintro b ho h1 h2
    obtain ⟨a1, a2⟩ := asserts (a := .super t s m n son) h1 h2
    replace a1 : t.cl.size = _ := a1
    replace a2 : s.cl.size = _ := a2
    obtain ⟨hm, hn, ⟨R, C, hrc, hR, hC⟩, hs⟩ := ho
    have hrs : ∀ i j, (son i j).rsize = (R i).cl.size := fun i j => by unfold rsize; rw [(hrc i j).1]
    have hcs : ∀ i j, (son i j).csize = (C j).cl.size := fun i j => by unfold csize; rw [(hrc i j).2]
    simp only [addHAm]
    refine Tot.cassert (by simpa using a1) (Tot.cassert (by simpa using a2) ?_)
    refine Tot.bind (addloop (fun b => b.rows = (orc atrans (.super t s m n son)).cl.size ∧
        b.cols = (occ atrans (.super t s m n son)).cl.size)
      (fun b r c => hval (.full (orc atrans (.super t s m n son)) (occ atrans (.super t s m n son)) b) r c)
      (fun j r c => ∑ i, alpha * ohval atrans (son i j) r c) (fun j => (C j).cl.size) ?_ ⟨h1, h2⟩) ?_
    · intro j b ⟨h1, h2⟩
      simp only [dif_pos hm]
      refine Tot.bind (addloop (fun b => b.rows = (orc atrans (.super t s m n son)).cl.size ∧
          b.cols = (occ atrans (.super t s m n son)).cl.size)
        (fun b r c => hval (.full (orc atrans (.super t s m n son)) (occ atrans (.super t s m n son)) b) r c)
        (fun i r c => alpha * ohval atrans (son i j) r c) (fun i => (R i).cl.size) ?_ ⟨h1, h2⟩) ?_
      · intro i b ⟨h1, h2⟩
        simp only [hrs, hcs]
        have e1 : (son i j).orc atrans = if atrans then C j else R i := by
          unfold orc; rw [(hrc i j).1, (hrc i j).2]
        have e2 : (son i j).occ atrans = if atrans then R i else C j := by
          unfold occ; rw [(hrc i j).1, (hrc i j).2]
        cases atrans with
        | false =>
          simp only [Bool.false_eq_true, if_false] at *
          refine Tot.bind (amsub_tot h1 h2 hR hC i j) ?_
          rintro w - ⟨g1, g2⟩
          refine Tot.bind (ih i j (hs i j) (by rw [g1.1, e1]) (by rw [g1.2, e2])) ?_
          rintro w' - g3
          rw [e1, e2] at g3
          have := amglue h1 h2 hR hC g2 g3
          exact Tot.pure ⟨this.ok, (pre_succ (fun i => (R i).cl.size) i).symm, this.val⟩
        | true =>
          simp only [if_true] at *
          refine Tot.bind (amsub_tot h1 h2 hC hR j i) ?_
          rintro w - ⟨g1, g2⟩
          refine Tot.bind (ih i j (hs i j) (by rw [g1.1, e1]) (by rw [g1.2, e2])) ?_
          rintro w' - g3
          rw [e1, e2] at g3
          have := amglue h1 h2 hC hR g2 g3
          exact Tot.pure ⟨this.ok, (pre_succ (fun i => (R i).cl.size) i).symm, this.val⟩
      · rintro ⟨b2, o⟩ - ⟨g1, g2, g3⟩
        replace g2 : o = _ := g2
        refine Tot.cassert (by simp [g2, hR.2]) (Tot.pure ⟨g1, ?_, g3⟩)
        show _ + _ = _
        rw [hcs]
        exact (pre_succ (fun j => (C j).cl.size) j).symm
    · rintro ⟨b2, o⟩ - ⟨g1, g2, g3⟩
      replace g2 : o = _ := g2
      refine Tot.cassert (by simp [g2, hC.2]) (Tot.pure ⟨⟨rfl, rfl⟩, g1, fun r c => ?_⟩)
      rw [g3 r c]
      congr 1
      unfold ohval
      rw [Finset.sum_comm]
      simp only [← Finset.mul_sum, hval_super]
      congr 1
      cases atrans
      · rfl
      · simp only [if_true]; rw [star_sum]; exact Finset.sum_congr rfl fun i _ => (star_sum _ _).symm

/-! ### the parts of a cluster -/

/-- the sons of a cluster (or the cluster itself) are segments of it -/
def KSeg (t : CRef G) : Prop := Segments t (fun i : Fin (max 1 t.nsons) => kid t i.1)

theorem std_segs {t s : CRef G} {m n : Nat} {son : Fin m → Fin n → HV G K} (h : HVOk (.super t s m n son))
    (hs : HVStd (.super t s m n son)) : KSeg t ∧ KSeg s := by
  obtain ⟨hm, hn, ⟨R, C, hrc, hR, hC⟩, -⟩ := h
  obtain ⟨-, e1, e2, h2⟩ := hs
  subst e1 e2
  have e3 : R = fun i => kid t i.1 := by
    funext i; rw [← (hrc i ⟨0, hn⟩).1, (h2 i ⟨0, hn⟩).1]
  have e4 : C = fun i => kid s i.1 := by
    funext i; rw [← (hrc ⟨0, hm⟩ i).2, (h2 ⟨0, hm⟩ i).2.1]
  subst e3 e4
  exact ⟨hR, hC⟩

theorem pre_range {M : Type _} [AddCommMonoid M] {n : Nat} (f : Nat → M) : ∀ {i : Nat}, i ≤ n →
    pre (fun k : Fin n => f k.1) i = ∑ l ∈ Finset.range i, f l := by
  intro i
  induction i with
  | zero => intro _; rw [pre_zero]; simp
  | succ i ih =>
    intro h
    have := pre_succ (fun k : Fin n => f k.1) ⟨i, h⟩
    simp only at this
    rw [this, ih (by omega), Finset.sum_range_succ]

theorem nparts_eq {split : Bool} {t : CRef G} (h : split = true ∨ t.nsons = 0) : nparts split t = max 1 t.nsons := by
  unfold nparts
  rcases h with h | h
  · subst h; by_cases h : 0 < t.nsons
    · rw [if_pos ⟨rfl, h⟩]; omega
    · rw [if_neg (fun h' => h h'.2)]; omega
  · rw [if_neg (fun h' => by omega)]; omega

theorem part_eq {split : Bool} {t : CRef G} (h : split = true ∨ t.nsons = 0) (i : Nat) : part split t i = kid t i := by
  unfold part kid
  rcases h with h | h
  · subst h; rw [if_pos rfl]
  · by_cases h' : split = true
    · rw [if_pos h']
    · rw [if_neg h', dif_neg (by omega)]

theorem poff_eq {split : Bool} {t : CRef G} (h : split = true ∨ t.nsons = 0) {i : Nat} (hi : i ≤ max 1 t.nsons) :
    poff split t i = pre (fun k : Fin (max 1 t.nsons) => (kid t k.1).cl.size) i := by
  unfold poff
  rw [pre_range (fun k => (kid t k).cl.size) hi]
  exact Finset.sum_congr rfl fun l _ => by rw [part_eq h]

theorem new0_val (t s : CRef G) (r c : Nat) : hval (.rk t s (VRk.new0 t.cl.size s.cl.size : VRk K)) r c = 0 := by
  rw [hval_rk]
  by_cases h : r ∈ seg t ∧ c ∈ seg s
  · rw [if_pos h]; simp [rkVal, VRk.new0]
  · rw [if_neg h]

theorem grid_ok {t s : CRef G} (ht : KSeg t) (hs : KSeg s) {son : Fin (max 1 t.nsons) → Fin (max 1 s.nsons) → HV G K}
    (h : ∀ i j, HVOk (son i j) ∧ (son i j).rc = kid t i.1 ∧ (son i j).cc = kid s j.1) : HVOk (.super t s _ _ son) :=
  ⟨by omega, by omega, ⟨_, _, fun i j => (h i j).2, ht, hs⟩, fun i j => (h i j).1⟩

/-- `split_rkmatrix(…, false)`: a grid of zero matrices -/
theorem splitRk_tot {x : VRk K} {t s : CRef G} {a b : Bool} (ht : KSeg t) (hs : KSeg s) (ha : a = true ∨ t.nsons = 0)
    (hb : b = true ∨ s.nsons = 0) : Tot (splitRk x t s a b false) (fun h => ∃ m n, m = max 1 t.nsons ∧ n = max 1 s.nsons ∧
      ∃ son : Fin m → Fin n → HV G K, h = .super t s m n son ∧
        ∀ i j, son i j = .rk (kid t i.1) (kid s j.1) (VRk.new0 (kid t i.1).cl.size (kid s j.1).cl.size)) := by
  have hsum : ∀ {t : CRef G} {a : Bool}, KSeg t → (a = true ∨ t.nsons = 0) → poff a t (nparts a t) = t.cl.size := by
    intro t a ht ha
    rw [nparts_eq ha, poff_eq ha (le_refl _), pre_all]
    exact ht.2
  unfold splitRk
  refine Tot.bind (seqFin_tot (P := fun (j : Fin (nparts b s)) (c : Fin (nparts a t) → HV G K) => ∀ i, c i =
    .rk (kid t i.1) (kid s j.1) (VRk.new0 (kid t i.1).cl.size (kid s j.1).cl.size)) ?_) ?_
  · intro j
    refine Tot.bind (seqFin_tot (P := fun (i : Fin (nparts a t)) (c : HV G K) => c =
      .rk (kid t i.1) (kid s j.1) (VRk.new0 (kid t i.1).cl.size (kid s j.1).cl.size)) ?_) ?_
    · intro i
      simp only [Bool.false_eq_true, if_false, part_eq ha, part_eq hb]
      exact Tot.pure rfl
    · intro c _ hc
      exact Tot.cassert (by simpa using hsum ht ha) (Tot.pure hc)
  · intro c _ hc
    refine Tot.cassert (by simpa using hsum hs hb) (Tot.pure ?_)
    exact ⟨_, _, nparts_eq ha, nparts_eq hb, _, rfl, fun i j => hc j i⟩

theorem splitAm_tot {x : VMat K} {t s : CRef G} {a b : Bool} (ht : KSeg t) (hs : KSeg s) (ha : a = true ∨ t.nsons = 0)
    (hb : b = true ∨ s.nsons = 0) (h1 : x.rows = t.cl.size) (h2 : x.cols = s.cl.size) :
    Tot (splitAm x t s a b) (fun h => ∃ m n, m = max 1 t.nsons ∧ n = max 1 s.nsons ∧
      ∃ son : Fin m → Fin n → HV G K, h = .super t s m n son ∧
        ∀ i j, ∃ w, son i j = .full (kid t i.1) (kid s j.1) w ∧ HVOk (son i j) ∧ ∀ r c, hval (son i j) r c =
          if r ∈ seg (kid t i.1) ∧ c ∈ seg (kid s j.1) then hval (.full t s x) r c else 0) := by
  have hsum : ∀ {t : CRef G} {a : Bool}, KSeg t → (a = true ∨ t.nsons = 0) → poff a t (nparts a t) = t.cl.size := by
    intro t a ht ha
    rw [nparts_eq ha, poff_eq ha (le_refl _), pre_all]
    exact ht.2
  unfold splitAm
  refine Tot.bind (seqFin_tot (P := fun (j : Fin (nparts b s)) (c : Fin (nparts a t) → HV G K) => ∀ i, ∃ w, c i =
      .full (kid t i.1) (kid s j.1) w ∧ HVOk (c i) ∧ ∀ r c', hval (c i) r c' =
          if r ∈ seg (kid t i.1) ∧ c' ∈ seg (kid s j.1) then hval (.full t s x) r c' else 0) ?_) ?_
  · intro j
    refine Tot.bind (seqFin_tot (P := fun (i : Fin (nparts a t)) (c : HV G K) => ∃ w, c =
      .full (kid t i.1) (kid s j.1) w ∧ HVOk c ∧ ∀ r c', hval c r c' =
          if r ∈ seg (kid t i.1) ∧ c' ∈ seg (kid s j.1) then hval (.full t s x) r c' else 0) ?_) ?_
    · intro i
      have hi : i.1 < max 1 t.nsons := i.2.trans_eq (nparts_eq ha)
      have hj : j.1 < max 1 s.nsons := j.2.trans_eq (nparts_eq hb)
      simp only [part_eq ha, part_eq hb, poff_eq ha hi.le, poff_eq hb hj.le]
      refine Tot.bind (amsub_tot h1 h2 ht hs ⟨i.1, hi⟩ ⟨j.1, hj⟩) ?_
      rintro w - ⟨g1, g2⟩
      exact Tot.pure ⟨w, rfl, g1, g2⟩
    · intro c _ hc
      exact Tot.cassert (by simpa using hsum ht ha) (Tot.pure hc)
  · intro c _ hc
    refine Tot.cassert (by simpa using hsum hs hb) (Tot.pure ?_)
    exact ⟨_, _, nparts_eq ha, nparts_eq hb, _, rfl, fun i j => hc j i⟩

end HV
end H2
