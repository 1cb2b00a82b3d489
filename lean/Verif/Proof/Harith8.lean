import Verif.Proof.Harith7

set_option linter.unusedSectionVars false

namespace H2
open Spec
variable {G K : Type} [Field K] [StarRing K]

namespace HV

/-! ### products of subdivided matrices -/

theorem kid_self {t : CRef G} (h : t.nsons = 0) (i : Nat) : kid t i = t := by unfold kid; rw [dif_neg (by omega)]

theorem csonAt_kid {t : CRef G} {i : Nat} (h : i < t.nsons) : csonAt t i = .ok (kid t i) := by
  unfold csonAt kid; rw [dif_pos h, dif_pos h]

theorem kid_same {t : CRef G} : (!(kid t 0).same t) = decide (0 < t.nsons) := by
  unfold kid CRef.same
  by_cases h : 0 < t.nsons
  · rw [dif_pos h]; simp [CRef.son, h]
  · rw [dif_neg h]; simp [h]

section
variable {t s : CRef G} {D : Nat → Nat → Nat → Nat → K} {call : Nat → Nat → Nat → HV G K → R (HV G K)} {M : Nat}

theorem winstep (ht : KSeg t) (hs : KSeg s)
    (hc : ∀ i < max 1 t.nsons, ∀ k < max 1 s.nsons, ∀ z1, HVOk z1 → HVStd z1 → z1.rc = kid t i → z1.cc = kid s k →
      Tot (forUp 0 M (fun j => call i j k) z1) (fun z1' => Upd z1 z1' (D i k)))
    {y : VMat K} (h1 : y.rows = t.cl.size) (h2 : y.cols = s.cl.size) {i k : Nat} (hi : i < max 1 t.nsons)
    (hk : k < max 1 s.nsons) {ti si : CRef G} {o1 o2 : Nat} (e1 : ti = kid t i) (e2 : si = kid s k)
    (e3 : o1 = pre (fun i : Fin (max 1 t.nsons) => (kid t i.1).cl.size) i)
    (e4 : o2 = pre (fun i : Fin (max 1 s.nsons) => (kid s i.1).cl.size) k)
    {β : Type} {f : VMat K → R β} {Q : β → Prop}
    (hf : ∀ w, Upd (.full t s y) (.full t s (y.glue o1 o2 w)) (D i k) → Tot (f w) Q) :
    Tot (do
      let zf1 ← y.sub ti.cl.size o1 si.cl.size o2
      let z1 ← forUp 0 M (fun j => call i j k) (full ti si zf1)
      let w ← getF z1
      f w) Q := by
  subst e1 e2 e3 e4
  refine Tot.bind (amsub_tot h1 h2 ht hs ⟨i, hi⟩ ⟨k, hk⟩) ?_
  rintro w - ⟨g1, g2⟩
  refine Tot.bind (hc i hi k hk _ g1 trivial rfl rfl) ?_
  rintro z1 - hu
  obtain ⟨w', rfl⟩ := shape_full hu.shape
  show Tot (f w') Q
  exact hf w' (amglue (R := fun i : Fin (max 1 t.nsons) => kid t i.1) (C := fun i : Fin (max 1 s.nsons) => kid s i.1)
    (i := ⟨i, hi⟩) (j := ⟨k, hk⟩) h1 h2 ht hs g2 hu)

theorem addmulSuper_tot {T : TruncOps K} (hT : Lossless T) {z : HV G K} (hz : HVOk z) (hzs : HVStd z) (e1 : z.rc = t)
    (e2 : z.cc = s) (ht : KSeg t) (hs : KSeg s) {rsons csons : Nat} {rdiv cdiv : Bool} (hr : rsons = max 1 t.nsons)
    (hcs : csons = max 1 s.nsons) (hrd : rdiv = decide (0 < t.nsons)) (hcd : cdiv = decide (0 < s.nsons))
    (hc : ∀ i < max 1 t.nsons, ∀ k < max 1 s.nsons, ∀ z1, HVOk z1 → HVStd z1 → z1.rc = kid t i → z1.cc = kid s k →
      Tot (forUp 0 M (fun j => call i j k) z1) (fun z1' => Upd z1 z1' (D i k))) :
    Tot (addmulSuper T call rsons M csons rdiv cdiv z) (fun z' => Upd z z' (fun r c =>
      ∑ i : Fin (max 1 t.nsons), ∑ k : Fin (max 1 s.nsons), D i.1 k.1 r c)) := by
  subst hr hcs
  have hra : rdiv = true ∨ t.nsons = 0 := by rw [hrd, decide_eq_true_eq]; omega
  have hca : cdiv = true ∨ s.nsons = 0 := by rw [hcd, decide_eq_true_eq]; omega
  cases z with
  | super zt zs zm zn zson =>
    obtain ⟨rfl, rfl⟩ : zt = t ∧ zs = s := ⟨e1, e2⟩
    obtain ⟨-, rfl, rfl, hkid⟩ := hzs
    simp only [addmulSuper]
    refine Tot.bind (gridloop (M := M) (call := call) (P := fun i k v => Upd (zson i k) v (D i.1 k.1)) zson ?_) ?_
    · intro i k
      exact hc i.1 i.2 k.1 k.2 _ (hz.2.2.2 i k) (hkid i k).2.2 (hkid i k).1 (hkid i k).2.1
    · rintro zson' - hu
      exact Tot.pure (Upd.super hz hu)
  | rk zt zs x =>
    obtain ⟨rfl, rfl⟩ : zt = t ∧ zs = s := ⟨e1, e2⟩
    simp only [addmulSuper]
    refine Tot.bind (splitRk_tot ht hs hra hca) ?_
    rintro h - ⟨m', n', rfl, rfl, sson, rfl, hzz⟩
    simp only
    have hzo : ∀ i j, HVOk (sson i j) := fun i j => by rw [hzz i j]; exact ⟨⟨rfl, rfl⟩, rfl, rfl⟩
    refine Tot.bind (gridloop (M := M) (call := call) (P := fun i k v => Upd (sson i k) v (D i.1 k.1)) sson ?_) ?_
    · intro i k
      exact hc i.1 i.2 k.1 k.2 _ (hzo i k) (by rw [hzz]; trivial) (by rw [hzz]; rfl) (by rw [hzz]; rfl)
    · rintro sson' - hu
      exact merge_upd hT hz (grid_ok ht hs fun i j => ⟨hzo i j, by rw [hzz]; rfl, by rw [hzz]; rfl⟩)
          (fun i j => ⟨_, _, _, hzz i j⟩) (fun i j r c => by rw [hzz, new0_val]) hu
  | full zt zs zf =>
    obtain ⟨rfl, rfl⟩ : zt = t ∧ zs = s := ⟨e1, e2⟩
    simp only [addmulSuper]
    by_cases hcn : 0 < zs.nsons
    · rw [show cdiv = true by rw [hcd]; simpa using hcn]
      by_cases hrn : 0 < zt.nsons
      · rw [show rdiv = true by rw [hrd]; simpa using hrn]
        simp only [Bool.not_true, Bool.false_eq_true, if_false]
        have hm : max 1 zt.nsons = zt.nsons := by omega
        have hn : max 1 zs.nsons = zs.nsons := by omega
        refine Tot.bind (P := fun (st : VMat K × Nat) => st.2 = zs.cl.size ∧ Upd (.full zt zs zf) (.full zt zs st.1)
          (fun r c => ∑ i : Fin (max 1 zt.nsons), ∑ k : Fin (max 1 zs.nsons), D i.1 k.1 r c)) ?_ ?_
        · have := forUp_inv (lo := 0) (hi := max 1 zs.nsons) (s := (zf, 0))
            (body := fun k (st : VMat K × Nat) => do
              let (zf, roff) ← forUp 0 (max 1 zt.nsons) (fun i (st' : VMat K × Nat) => do
                let ti ← csonAt zt i
                let sk ← csonAt zs k
                let zf1 ← st'.1.sub ti.cl.size st'.2 sk.cl.size st.2
                let z1 ← forUp 0 M (fun j z1 => call i j k z1) (full ti sk zf1)
                let zf1 ← getF z1
                pure (st'.1.glue st'.2 st.2 zf1, st'.2 + ti.cl.size)) (st.1, 0)
              cassert (decide (roff = zt.cl.size))
              let sk ← csonAt zs k
              pure (zf, st.2 + sk.cl.size))
            (fun k (st : VMat K × Nat) => st.2 = pre (fun i : Fin (max 1 zs.nsons) => (kid zs i.1).cl.size) k ∧
              Upd (.full zt zs zf) (.full zt zs st.1) (fun r c => pre (fun k : Fin (max 1 zs.nsons) =>
                ∑ i : Fin (max 1 zt.nsons), D i.1 k.1 r c) k)) (Nat.zero_le _) ?_ ?_
          · obtain ⟨st, est, g1, g2⟩ := this
            refine ⟨st, est, by rw [g1, pre_all]; exact hs.2, g2.congr fun r c => ?_⟩
            rw [pre_all, Finset.sum_comm]
          · exact ⟨(pre_zero _).symm, (Upd.refl hz).congr fun r c => by rw [pre_zero]⟩
          · rintro k ⟨y, o⟩ _ hk ⟨g1, g2⟩
            replace g1 : o = _ := g1
            subst g1
            have hinner := forUp_inv (lo := 0) (hi := max 1 zt.nsons) (s := (y, 0))
              (body := fun i (st' : VMat K × Nat) => do
                let ti ← csonAt zt i
                let sk ← csonAt zs k
                let zf1 ← st'.1.sub ti.cl.size st'.2 sk.cl.size (pre (fun i : Fin (max 1 zs.nsons) => (kid zs i.1).cl.size) k)
                let z1 ← forUp 0 M (fun j z1 => call i j k z1) (full ti sk zf1)
                let zf1 ← getF z1
                pure (st'.1.glue st'.2 (pre (fun i : Fin (max 1 zs.nsons) => (kid zs i.1).cl.size) k) zf1, st'.2 + ti.cl.size))
              (fun i (st : VMat K × Nat) => st.2 = pre (fun i : Fin (max 1 zt.nsons) => (kid zt i.1).cl.size) i ∧
                Upd (.full zt zs y) (.full zt zs st.1) (fun r c => pre (fun i : Fin (max 1 zt.nsons) => D i.1 k r c) i))
              (Nat.zero_le _) ?_ ?_
            · refine Tot.bind hinner ?_
              rintro ⟨y', o'⟩ - ⟨k1, k2⟩
              replace k1 : o' = _ := k1
              refine Tot.cassert (by rw [k1, pre_all]; simpa using ht.2) ?_
              rw [csonAt_kid (by omega), ok_bind]
              refine Tot.pure ⟨(pre_succ (fun i : Fin (max 1 zs.nsons) => (kid zs i.1).cl.size) ⟨k, hk⟩).symm, ?_⟩
              refine (g2.trans k2).congr fun r c => ?_
              have := pre_succ (fun k : Fin (max 1 zs.nsons) => ∑ i : Fin (max 1 zt.nsons), D i.1 k.1 r c) ⟨k, hk⟩
              simp only at this
              rw [this, pre_all]
            · exact ⟨(pre_zero _).symm, (Upd.refl g2.ok).congr fun r c => by rw [pre_zero]⟩
            · rintro i ⟨y', o'⟩ _ hi ⟨k1, k2⟩
              replace k1 : o' = _ := k1
              subst k1
              show Tot _ _
              rw [csonAt_kid (by omega), ok_bind, csonAt_kid (by omega), ok_bind]
              refine winstep ht hs hc k2.ok.1 k2.ok.2 hi hk rfl rfl rfl rfl ?_
              intro w hw
              refine Tot.pure ⟨(pre_succ (fun i : Fin (max 1 zt.nsons) => (kid zt i.1).cl.size) ⟨i, hi⟩).symm, ?_⟩
              refine (k2.trans hw).congr fun r c => ?_
              exact (pre_succ (fun i : Fin (max 1 zt.nsons) => D i.1 k r c) ⟨i, hi⟩).symm
        · rintro ⟨y, o⟩ - ⟨g1, g2⟩
          replace g1 : o = _ := g1
          exact Tot.cassert (by simpa using g1) (Tot.pure g2)
      · rw [show rdiv = false by rw [hrd]; simpa using hrn]
        have hr0 : zt.nsons = 0 := by omega
        simp only [Bool.not_true, Bool.false_eq_true, if_false, Bool.not_false, if_true]
        have hm : max 1 zt.nsons = 1 := by omega
        refine Tot.cassert (by simp [hm]) ?_
        refine Tot.bind (P := fun (st : VMat K × Nat) => st.2 = zs.cl.size ∧ Upd (.full zt zs zf) (.full zt zs st.1)
          (fun r c => ∑ i : Fin (max 1 zt.nsons), ∑ k : Fin (max 1 zs.nsons), D i.1 k.1 r c)) ?_ ?_
        · have := forUp_inv (lo := 0) (hi := max 1 zs.nsons) (s := (zf, 0))
            (body := fun k (st : VMat K × Nat) => do
              let sk ← csonAt zs k
              let zf1 ← st.1.sub zt.cl.size 0 sk.cl.size st.2
              let z1 ← forUp 0 M (fun j z1 => call 0 j k z1) (full zt sk zf1)
              let zf1 ← getF z1
              pure (st.1.glue 0 st.2 zf1, st.2 + sk.cl.size))
            (fun k (st : VMat K × Nat) => st.2 = pre (fun i : Fin (max 1 zs.nsons) => (kid zs i.1).cl.size) k ∧
              Upd (.full zt zs zf) (.full zt zs st.1) (fun r c => pre (fun k : Fin (max 1 zs.nsons) =>
                D 0 k.1 r c) k)) (Nat.zero_le _) ?_ ?_
          · obtain ⟨st, est, g1, g2⟩ := this
            refine ⟨st, est, by rw [g1, pre_all]; exact hs.2, g2.congr fun r c => ?_⟩
            rw [pre_all]
            rw [Finset.sum_eq_single (⟨0, by omega⟩ : Fin (max 1 zt.nsons))]
            · intro b _ hb; exact absurd (Fin.ext (by have := b.2; simp only; omega)) hb
            · intro h; exact absurd (Finset.mem_univ _) h
          · exact ⟨(pre_zero _).symm, (Upd.refl hz).congr fun r c => by rw [pre_zero]⟩
          · rintro k ⟨y, o⟩ _ hk ⟨g1, g2⟩
            replace g1 : o = _ := g1
            subst g1
            show Tot _ _
            rw [csonAt_kid (by omega), ok_bind]
            refine winstep ht hs hc g2.ok.1 g2.ok.2 (by omega) hk (kid_self hr0 0).symm rfl (pre_zero _).symm rfl ?_
            intro w hw
            refine Tot.pure ⟨(pre_succ (fun i : Fin (max 1 zs.nsons) => (kid zs i.1).cl.size) ⟨k, hk⟩).symm, ?_⟩
            refine (g2.trans hw).congr fun r c => ?_
            exact (pre_succ (fun k : Fin (max 1 zs.nsons) => D 0 k.1 r c) ⟨k, hk⟩).symm
        · rintro ⟨y, o⟩ - ⟨g1, g2⟩
          replace g1 : o = _ := g1
          exact Tot.cassert (by simpa using g1) (Tot.pure g2)
    · rw [show cdiv = false by rw [hcd]; simpa using hcn]
      have hc0 : zs.nsons = 0 := by omega
      have hn : max 1 zs.nsons = 1 := by omega
      by_cases hrn : 0 < zt.nsons
      · rw [show rdiv = true by rw [hrd]; simpa using hrn]
        simp only [Bool.not_true, Bool.false_eq_true, if_false, Bool.not_false, if_true]
        refine Tot.cassert (by simp [hn]) ?_
        refine Tot.bind (P := fun (st : VMat K × Nat) => st.2 = zt.cl.size ∧ Upd (.full zt zs zf) (.full zt zs st.1)
          (fun r c => ∑ i : Fin (max 1 zt.nsons), ∑ k : Fin (max 1 zs.nsons), D i.1 k.1 r c)) ?_ ?_
        · have := forUp_inv (lo := 0) (hi := max 1 zt.nsons) (s := (zf, 0))
            (body := fun i (st : VMat K × Nat) => do
              let ti ← csonAt zt i
              let zf1 ← st.1.sub ti.cl.size st.2 zs.cl.size 0
              let z1 ← forUp 0 M (fun j z1 => call i j 0 z1) (full ti zs zf1)
              let zf1 ← getF z1
              pure (st.1.glue st.2 0 zf1, st.2 + ti.cl.size))
            (fun k (st : VMat K × Nat) => st.2 = pre (fun i : Fin (max 1 zt.nsons) => (kid zt i.1).cl.size) k ∧
              Upd (.full zt zs zf) (.full zt zs st.1) (fun r c => pre (fun i : Fin (max 1 zt.nsons) =>
                D i.1 0 r c) k)) (Nat.zero_le _) ?_ ?_
          · obtain ⟨st, est, g1, g2⟩ := this
            refine ⟨st, est, by rw [g1, pre_all]; exact ht.2, g2.congr fun r c => ?_⟩
            rw [pre_all]
            refine Finset.sum_congr rfl fun i _ => ?_
            rw [Finset.sum_eq_single (⟨0, by omega⟩ : Fin (max 1 zs.nsons))]
            · intro b _ hb; exact absurd (Fin.ext (by have := b.2; simp only; omega)) hb
            · intro h; exact absurd (Finset.mem_univ _) h
          · exact ⟨(pre_zero _).symm, (Upd.refl hz).congr fun r c => by rw [pre_zero]⟩
          · rintro i ⟨y, o⟩ _ hi ⟨g1, g2⟩
            replace g1 : o = _ := g1
            subst g1
            show Tot _ _
            rw [csonAt_kid (by omega), ok_bind]
            refine winstep ht hs hc g2.ok.1 g2.ok.2 hi (by omega) rfl (kid_self hc0 0).symm rfl (pre_zero _).symm ?_
            intro w hw
            refine Tot.pure ⟨(pre_succ (fun i : Fin (max 1 zt.nsons) => (kid zt i.1).cl.size) ⟨i, hi⟩).symm, ?_⟩
            refine (g2.trans hw).congr fun r c => ?_
            exact (pre_succ (fun i : Fin (max 1 zt.nsons) => D i.1 0 r c) ⟨i, hi⟩).symm
        · rintro ⟨y, o⟩ - ⟨g1, g2⟩
          replace g1 : o = _ := g1
          exact Tot.cassert (by simpa using g1) (Tot.pure g2)
      · rw [show rdiv = false by rw [hrd]; simpa using hrn]
        have hr0 : zt.nsons = 0 := by omega
        have hm : max 1 zt.nsons = 1 := by omega
        simp only [Bool.not_false, if_true]
        refine Tot.cassert (by simp [hn]) (Tot.cassert (by simp [hm]) ?_)
        refine Tot.mono (hc 0 (by omega) 0 (by omega) _ hz hzs (kid_self hr0 0).symm (kid_self hc0 0).symm) ?_
        intro z' hu
        refine hu.congr fun r c => ?_
        rw [Finset.sum_eq_single (⟨0, by omega⟩ : Fin (max 1 zt.nsons)),
          Finset.sum_eq_single (⟨0, by omega⟩ : Fin (max 1 zs.nsons))]
        · intro b _ hb; exact absurd (Fin.ext (by have := b.2; simp only; omega)) hb
        · intro h; exact absurd (Finset.mem_univ _) h
        · intro b _ hb; exact absurd (Fin.ext (by have := b.2; simp only; omega)) hb
        · intro h; exact absurd (Finset.mem_univ _) h
end

/-- the represented matrix in terms of the sons -/
theorem ohval_super (trans : Bool) (t s : CRef G) {m n : Nat} (son : Fin m → Fin n → HV G K) (r c : Nat) :
    ohval trans (.super t s m n son) r c = ∑ i, ∑ j, ohval trans (son i j) r c := by
  unfold ohval
  rw [hval_super, hval_super]
  cases trans
  · rfl
  · simp only [if_true]; rw [star_sum]; exact Finset.sum_congr rfl fun i _ => star_sum _ _

/-- block multiplication -/
theorem block_prod {p q l' : Nat} {t : CRef G} {C : Fin l' → CRef G} (hC : Segments t C)
    {X : Fin p → Fin l' → Nat → Nat → K} {Y : Fin l' → Fin q → Nat → Nat → K}
    (hX : ∀ i j r l, l ∉ seg (C j) → X i j r l = 0) (hY : ∀ j k l c, l ∉ seg (C j) → Y j k l c = 0) (r c : Nat) :
    (∑ i, ∑ k, ∑ j, ∑ l ∈ seg (C j), X i j r l * Y j k l c) =
      ∑ l ∈ seg t, (∑ i, ∑ j, X i j r l) * ∑ j, ∑ k, Y j k l c := by
  rw [sum_hsegs hC]
  have e : ∀ j, ∀ l ∈ seg (C j), (∑ i, ∑ j, X i j r l) * ∑ j, ∑ k, Y j k l c = ∑ i, ∑ k, X i j r l * Y j k l c := by
    intro j l hl
    have e1 : (∑ i, ∑ j, X i j r l) = ∑ i, X i j r l := by
      refine Finset.sum_congr rfl fun i _ => ?_
      refine Finset.sum_eq_single j (fun j' _ hj => hX i j' r l fun h => hj (seg_unique hC h hl)) fun h => ?_
      exact absurd (Finset.mem_univ _) h
    have e2 : (∑ j, ∑ k, Y j k l c) = ∑ k, Y j k l c := by
      refine Finset.sum_eq_single j (fun j' _ hj => Finset.sum_eq_zero fun k _ => hY j' k l c fun h => hj (seg_unique hC h hl)) fun h => ?_
      exact absurd (Finset.mem_univ _) h
    rw [e1, e2, Finset.sum_mul_sum]
  rw [Finset.sum_congr rfl fun j _ => Finset.sum_congr rfl (e j)]
  have : ∀ j, ∑ l ∈ seg (C j), ∑ i, ∑ k, X i j r l * Y j k l c = ∑ i, ∑ k, ∑ l ∈ seg (C j), X i j r l * Y j k l c := by
    intro j
    refine Finset.sum_comm.trans ?_
    refine Finset.sum_congr rfl fun i _ => ?_
    exact Finset.sum_comm
  rw [Finset.sum_congr rfl fun j _ => this j]
  symm
  refine Finset.sum_comm.trans ?_
  refine Finset.sum_congr rfl fun i _ => ?_
  exact Finset.sum_comm

theorem opSons (xt : Bool) {xm xn : Nat} (xs : Fin xm → Fin xn → HV G K) (d : HV G K) (p q : Nat) :
    ∃ X : Fin p → Fin q → HV G K, ∀ (i : Fin p) (j : Fin q)
      (h : (if xt then j.1 else i.1) < xm ∧ (if xt then i.1 else j.1) < xn),
      X i j = xs ⟨if xt then j.1 else i.1, h.1⟩ ⟨if xt then i.1 else j.1, h.2⟩ := by
  refine ⟨fun i j => if h : (if xt then j.1 else i.1) < xm ∧ (if xt then i.1 else j.1) < xn then
    xs ⟨if xt then j.1 else i.1, h.1⟩ ⟨if xt then i.1 else j.1, h.2⟩ else d, fun i j h => ?_⟩
  exact dif_pos h

theorem addmul_tot' {T : TruncOps K} (hT : Lossless T) (alpha : K) (xt yt : Bool) : ∀ {x y z : HV G K},
    HVOk x → HVStd x → HVOk y → HVStd y → HVOk z → HVStd z → z.rc = x.orc xt → z.cc = y.occ yt → x.occ xt = y.orc yt →
    Tot (addmul T alpha xt yt x y z) (fun z' => Upd z z' (prod alpha xt x yt y)) := by
  intro x
  induction x with
  | full xr xc xf =>
    intro y z hx _ hy _ hz _ h1 h2 h3
    rw [addmul]
    refine Tot.cassert (by rw [h1]; exact same_refl _) (Tot.cassert (by rw [h2]; exact same_refl _)
      (Tot.cassert ?_ (addmulXf_tot hT alpha xt yt hx hy hz h1 h2 h3)))
    rw [← h3]; exact same_refl _
  | rk xr xc x =>
    intro y z hx _ hy _ hz _ h1 h2 h3
    rw [addmul]
    refine Tot.cassert (by rw [h1]; exact same_refl _) (Tot.cassert (by rw [h2]; exact same_refl _)
      (Tot.cassert ?_ (addmulXr_tot hT alpha xt yt hx hy hz h1 h2 h3)))
    rw [← h3]; exact same_refl _
  | super xr xc xm xn xs ih =>
    intro y z hx hxs hy hys hz hzs h1 h2 h3
    cases y with
    | full yr yc yf =>
      rw [addmul]
      refine Tot.cassert (by rw [h1]; exact same_refl _) (Tot.cassert (by rw [h2]; exact same_refl _)
        (Tot.cassert (by rw [← h3]; exact same_refl _) ?_))
      exact addmulYf_tot hT alpha xt yt hx hy hz h1 h2 h3
    | rk yr yc y =>
      rw [addmul]
      refine Tot.cassert (by rw [h1]; exact same_refl _) (Tot.cassert (by rw [h2]; exact same_refl _)
        (Tot.cassert (by rw [← h3]; exact same_refl _) ?_))
      exact addmulYr_tot hT alpha xt yt hx hy hz h1 h2 h3
    | super yr yc ym yn ys =>
      rw [addmul]
      refine Tot.cassert (by rw [h1]; exact same_refl _) (Tot.cassert (by rw [h2]; exact same_refl _)
        (Tot.cassert (by rw [← h3]; exact same_refl _) ?_))
      obtain ⟨kx1, kx2⟩ := std_segs hx hxs
      obtain ⟨ky1, ky2⟩ := std_segs hy hys
      obtain ⟨hxm, hxn, -, hxo⟩ := hx
      obtain ⟨hym, hyn, -, hyo⟩ := hy
      obtain ⟨-, xe1, xe2, xk⟩ := hxs
      obtain ⟨-, ye1, ye2, yk⟩ := hys
      -- clusters and sons with respect to the transposition flags
      obtain ⟨t, ht⟩ : ∃ t, t = orc xt (.super xr xc xm xn xs) := ⟨_, rfl⟩
      obtain ⟨u, hu⟩ : ∃ u, u = occ xt (.super xr xc xm xn xs) := ⟨_, rfl⟩
      obtain ⟨s, hs⟩ : ∃ s, s = occ yt (.super yr yc ym yn ys) := ⟨_, rfl⟩
      rw [← ht] at h1
      rw [← hs] at h2
      have h3' : u = orc yt (.super yr yc ym yn ys) := by rw [hu, h3]
      have kt : KSeg t := by rw [ht]; cases xt; exacts [kx1, kx2]
      have ku : KSeg u := by rw [hu]; cases xt; exacts [kx2, kx1]
      have ks : KSeg s := by rw [hs]; cases yt; exacts [ky2, ky1]
      have em : (if xt then xn else xm) = max 1 t.nsons := by rw [ht]; cases xt; exacts [xe1, xe2]
      have eu : (if xt then xm else xn) = max 1 u.nsons := by rw [hu]; cases xt; exacts [xe2, xe1]
      have eu' : (if yt then yn else ym) = max 1 u.nsons := by rw [h3']; cases yt; exacts [ye1, ye2]
      have en : (if yt then ym else yn) = max 1 s.nsons := by rw [hs]; cases yt; exacts [ye2, ye1]
      obtain ⟨X, hX⟩ := opSons xt xs (.full xr xr (.zero 0 0)) (max 1 t.nsons) (max 1 u.nsons)
      obtain ⟨Y, hY⟩ := opSons yt ys (.full xr xr (.zero 0 0)) (max 1 u.nsons) (max 1 s.nsons)
      have bx : ∀ (i : Fin (max 1 t.nsons)) (j : Fin (max 1 u.nsons)),
          (if xt then j.1 else i.1) < xm ∧ (if xt then i.1 else j.1) < xn := by
        intro i j; have := i.2; have := j.2; cases xt <;> simp at em eu ⊢ <;> omega
      have bY : ∀ (j : Fin (max 1 u.nsons)) (k : Fin (max 1 s.nsons)),
          (if yt then k.1 else j.1) < ym ∧ (if yt then j.1 else k.1) < yn := by
        intro j k; have := j.2; have := k.2; cases yt <;> simp at en eu' ⊢ <;> omega
      have sX : ∀ i j, HVOk (X i j) ∧ HVStd (X i j) ∧ (X i j).orc xt = kid t i.1 ∧ (X i j).occ xt = kid u j.1 := by
        intro i j
        rw [hX i j (bx i j)]
        refine ⟨hxo _ _, (xk _ _).2.2, ?_, ?_⟩
        · have : kid t i.1 = kid (orc xt (.super xr xc xm xn xs)) i.1 := congrArg (fun t => kid t i.1) ht
          rw [this]; unfold orc; rw [(xk _ _).1, (xk _ _).2.1]; cases xt <;> rfl
        · have : kid u j.1 = kid (occ xt (.super xr xc xm xn xs)) j.1 := congrArg (fun t => kid t j.1) hu
          rw [this]; unfold occ; rw [(xk _ _).1, (xk _ _).2.1]; cases xt <;> rfl
      have sY : ∀ j k, HVOk (Y j k) ∧ HVStd (Y j k) ∧ (Y j k).orc yt = kid u j.1 ∧ (Y j k).occ yt = kid s k.1 := by
        intro j k
        rw [hY j k (bY j k)]
        refine ⟨hyo _ _, (yk _ _).2.2, ?_, ?_⟩
        · have : kid u j.1 = kid (orc yt (.super yr yc ym yn ys)) j.1 := congrArg (fun t => kid t j.1) h3'
          rw [this]; unfold orc; rw [(yk _ _).1, (yk _ _).2.1]; cases yt <;> rfl
        · have : kid s k.1 = kid (occ yt (.super yr yc ym yn ys)) k.1 := congrArg (fun t => kid t k.1) hs
          rw [this]; unfold occ; rw [(yk _ _).1, (yk _ _).2.1]; cases yt <;> rfl
      refine Tot.cassert (by simp only [decide_eq_true_eq]; rw [eu, eu']) ?_
      rw [dif_pos ⟨⟨hxm, hxn⟩, hym, hyn⟩]
      refine Tot.mono (addmulSuper_tot (t := t) (s := s) (D := fun i k r c => ∑ j : Fin (max 1 u.nsons),
          if h : i < max 1 t.nsons ∧ k < max 1 s.nsons then
          prod alpha xt (X ⟨i, h.1⟩ j) yt (Y j ⟨k, h.2⟩) r c else 0)
        hT hz hzs h1 h2 kt ks em en ?_ ?_ ?_) ?_
      · rw [show ((xs ⟨0, hxm⟩ ⟨0, hxn⟩).orc xt) = kid t 0 by
          rw [ht]; unfold orc; rw [(xk _ _).1, (xk _ _).2.1]; cases xt <;> rfl,
          show (if xt then xc else xr) = t from ht.symm]
        exact kid_same
      · rw [show ((ys ⟨0, hym⟩ ⟨0, hyn⟩).occ yt) = kid s 0 by
          rw [hs]; unfold occ; rw [(yk _ _).1, (yk _ _).2.1]; cases yt <;> rfl,
          show (if yt then yr else yc) = s from hs.symm]
        exact kid_same
      · intro i hi k hk z1 o1 o2 o3 o4
        rw [eu]
        have := forUp_inv (lo := 0) (hi := max 1 u.nsons) (s := z1) (body := fun j z1 =>
            if hx : (if xt then j else i) < xm ∧ (if xt then i else j) < xn then
              if hy : (if yt then k else j) < ym ∧ (if yt then j else k) < yn then
                addmul T alpha xt yt (xs ⟨_, hx.1⟩ ⟨_, hx.2⟩) (ys ⟨_, hy.1⟩ ⟨_, hy.2⟩) z1
              else .error .ub
            else .error .ub)
          (fun j z' => Upd z1 z' (fun r c => pre (fun j : Fin (max 1 u.nsons) =>
            prod alpha xt (X ⟨i, hi⟩ j) yt (Y j ⟨k, hk⟩) r c) j)) (Nat.zero_le _) ?_ ?_
        · obtain ⟨z', e, g⟩ := this
          refine ⟨z', e, g.congr fun r c => ?_⟩
          rw [pre_all]
          refine Finset.sum_congr rfl fun j _ => ?_
          rw [dif_pos ⟨hi, hk⟩]
        · exact (Upd.refl o1).congr fun r c => by rw [pre_zero]
        · intro j z' _ hj g
          show Tot _ _
          have b1 := bx ⟨i, hi⟩ ⟨j, hj⟩
          have b2 := bY ⟨j, hj⟩ ⟨k, hk⟩
          rw [dif_pos b1, dif_pos b2]
          have e1 := hX ⟨i, hi⟩ ⟨j, hj⟩ b1
          have e2 := hY ⟨j, hj⟩ ⟨k, hk⟩ b2
          obtain ⟨p1, p2, p3, p4⟩ := sX ⟨i, hi⟩ ⟨j, hj⟩
          obtain ⟨q1, q2, q3, q4⟩ := sY ⟨j, hj⟩ ⟨k, hk⟩
          rw [e1] at p1 p2 p3 p4
          rw [e2] at q1 q2 q3 q4
          refine Tot.mono (ih _ _ p1 p2 q1 q2 g.ok (g.shape.std o2) ?_ ?_ ?_) ?_
          · rw [g.shape.rc, o3, p3]
          · rw [g.shape.cc, o4, q4]
          · rw [p4, q3]
          · intro z'' hu'
            refine (g.trans hu').congr fun r c => ?_
            have := pre_succ (fun j : Fin (max 1 u.nsons) => prod alpha xt (X ⟨i, hi⟩ j) yt (Y j ⟨k, hk⟩) r c) ⟨j, hj⟩
            simp only at this
            rw [this, e1, e2]
      · intro z' hu'
        refine hu'.congr fun r c => ?_
        have bp := block_prod (p := max 1 t.nsons) (q := max 1 s.nsons) ku
          (X := fun i j r l => ohval xt (X i j) r l) (Y := fun j k l c => ohval yt (Y j k) l c)
          (fun i j r l hl => ohval_out (sX i j).1 (fun h => hl (by rw [← (sX i j).2.2.2]; exact h.2)))
          (fun j k l c hl => ohval_out (sY j k).1 (fun h => hl (by rw [← (sY j k).2.2.1]; exact h.1))) r c
        have ex : ∀ r l, (∑ i, ∑ j, ohval xt (X i j) r l) = ohval xt (.super xr xc xm xn xs) r l := by
          intro r l
          rw [ohval_super]
          cases xt with
          | false =>
            simp only [Bool.false_eq_true, if_false] at em eu
            subst em eu
            exact Finset.sum_congr rfl fun i _ => Finset.sum_congr rfl fun j _ => by rw [hX i j (bx i j)]; rfl
          | true =>
            simp only [if_true] at em eu
            subst em eu
            rw [Finset.sum_comm]
            exact Finset.sum_congr rfl fun i _ => Finset.sum_congr rfl fun j _ => by rw [hX j i (bx j i)]; rfl
        have ey : ∀ l c, (∑ j, ∑ k, ohval yt (Y j k) l c) = ohval yt (.super yr yc ym yn ys) l c := by
          intro l c
          rw [ohval_super]
          cases yt with
          | false =>
            simp only [Bool.false_eq_true, if_false] at en eu'
            subst en eu'
            exact Finset.sum_congr rfl fun i _ => Finset.sum_congr rfl fun j _ => by rw [hY i j (bY i j)]; rfl
          | true =>
            simp only [if_true] at en eu'
            subst en eu'
            rw [Finset.sum_comm]
            exact Finset.sum_congr rfl fun i _ => Finset.sum_congr rfl fun j _ => by rw [hY j i (bY j i)]; rfl
        simp only [ex, ey] at bp
        show _ = alpha * ∑ l ∈ seg (occ xt (.super xr xc xm xn xs)), _
        rw [← hu, ← bp, Finset.mul_sum]
        refine Finset.sum_congr rfl fun i _ => ?_
        rw [Finset.mul_sum]
        refine Finset.sum_congr rfl fun k _ => ?_
        rw [Finset.mul_sum]
        refine Finset.sum_congr rfl fun j _ => ?_
        rw [dif_pos ⟨i.2, k.2⟩]
        unfold prod
        rw [(sX i j).2.2.2]

end HV
end H2
