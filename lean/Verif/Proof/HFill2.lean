import Verif.Proof.HFill
import Verif.Proof.Harith6

/-! Clearing, copying and the identity for H-matrices given by values. -/

set_option linter.unusedSectionVars false

namespace H2
open Spec Dense
variable {G K : Type} [Field K] [StarRing K]

namespace HV

theorem zero_rkOk {a b : Nat} : RkOk (⟨.zero a 0, .zero b 0, 0⟩ : VRk K) := ⟨rfl, rfl⟩

theorem rkVal_zero (a b i j : Nat) : rkVal (⟨.zero a 0, .zero b 0, 0⟩ : VRk K) i j = 0 := by simp [rkVal]

theorem clearAll_cl (h : HV G K) : (clearAll h).rc = h.rc ∧ (clearAll h).cc = h.cc := by cases h <;> exact ⟨rfl, rfl⟩

theorem clearAll_ok : ∀ {h : HV G K}, HVOk h → HVOk (clearAll h) := by
  intro h
  induction h with
  | rk t s r => rintro ⟨_, h2, h3⟩; exact ⟨zero_rkOk, h2, h3⟩
  | full t s f => exact id
  | super t s m n son ih =>
    rintro ⟨h1, h2, ⟨R, C, hRC, hR, hC⟩, hs⟩
    exact ⟨h1, h2, ⟨R, C, fun i j => by rw [(clearAll_cl _).1, (clearAll_cl _).2]; exact hRC i j, hR, hC⟩, fun i j => ih i j (hs i j)⟩

theorem clearAll_val (r c : Nat) : ∀ (h : HV G K), hval (clearAll h) r c = 0 := by
  intro h
  induction h with
  | rk t s x => simp only [clearAll, hval_rk, rkVal_zero]; simp
  | full t s f => simp only [clearAll, hval_full]; simp [VMat.zero]
  | super t s m n son ih => simp only [clearAll, hval_super, ih]; simp

theorem clearAll_shape : ∀ (h : HV G K), SameShape h (clearAll h) := by
  intro h
  induction h with
  | rk t s x => exact ⟨rfl, rfl⟩
  | full t s f => exact ⟨rfl, rfl⟩
  | super t s m n son ih => exact ⟨rfl, rfl, rfl, rfl, fun i j => ih i j⟩

theorem identityH_cl (h : HV G K) : (identityH h).rc = h.rc ∧ (identityH h).cc = h.cc := by cases h <;> exact ⟨rfl, rfl⟩

theorem identityH_ok : ∀ {h : HV G K}, HVOk h → HVOk (identityH h) := by
  intro h
  induction h with
  | rk t s r => rintro ⟨_, h2, h3⟩; exact ⟨zero_rkOk, h2, h3⟩
  | full t s f =>
    rintro ⟨h1, h2⟩
    simp only [identityH]
    split
    · exact ⟨h1, h2⟩
    · exact ⟨h1, h2⟩
  | super t s m n son ih =>
    rintro ⟨h1, h2, ⟨R, C, hRC, hR, hC⟩, hs⟩
    exact ⟨h1, h2, ⟨R, C, fun i j => by rw [(identityH_cl _).1, (identityH_cl _).2]; exact hRC i j, hR, hC⟩, fun i j => ih i j (hs i j)⟩

theorem identityH_val : ∀ {h : HV G K}, HVOk h → DiagDense h → ∀ {r c : Nat}, r ∈ seg h.rc → c ∈ seg h.cc →
    hval (identityH h) r c = if r = c then 1 else 0 := by
  intro h
  induction h with
  | rk t s x =>
    intro _ hd r c hr hc
    simp only [identityH, hval_rk, rkVal_zero, ite_self]
    rw [if_neg]
    rintro rfl
    exact hd r (mem_seg.mp hr) (mem_seg.mp hc)
  | full t s f =>
    intro ho hd r c hr hc
    simp only [identityH, hval_full]
    replace hr : r ∈ seg t := hr
    replace hc : c ∈ seg s := hc
    rw [mem_seg] at hr hc
    rw [if_pos ⟨mem_seg.mpr hr, mem_seg.mpr hc⟩]
    rcases hd with rfl | ⟨hd, hd'⟩
    · rw [same_refl, if_pos rfl]
      have : (r - t.cl.off = c - t.cl.off) ↔ r = c := by omega
      simp only [this]
    · rw [hd, if_neg (by simp), if_neg]
      · rfl
      · rintro rfl
        exact hd' r hr hc
  | super t s m n son ih =>
    rintro ho hd r c hr hc
    obtain ⟨h1, h2, ⟨R, C, hRC, hR, hC⟩, hs⟩ := id ho
    obtain ⟨i, hi⟩ := seg_mem_some hR hr
    obtain ⟨j, hj⟩ := seg_mem_some hC hc
    simp only [identityH]
    rw [hval_son (R := R) (C := C) (fun i j => by rw [(identityH_cl _).1, (identityH_cl _).2]; exact hRC i j) (fun i j => identityH_ok (hs i j)) hR hC hi hj]
    exact ih i j (hs i j) (hd i j) ((hRC i j).1 ▸ hi) ((hRC i j).2 ▸ hj)

theorem diagSquare_eq {h : HV G K} (hd : DiagSquare h) : h.rc = h.cc := by
  cases h with
  | rk => exact hd
  | full => exact hd
  | super => exact hd.1

theorem rkDiag_in : ∀ {h : HV G K}, HVOk h → ∀ {r c : Nat}, RkDiag h r c → r ∈ seg h.rc ∧ c ∈ seg h.cc := by
  intro h
  induction h with
  | full => intro _ r c h; exact h.elim
  | rk t s x => intro _ r c h; exact ⟨mem_seg.mpr h.1, mem_seg.mpr h.2⟩
  | super t s m n son ih =>
    rintro ⟨_, _, ⟨R, C, hRC, hR, hC⟩, hs⟩ r c ⟨i, j, _, h⟩
    obtain ⟨g1, g2⟩ := ih i j (hs i j) h
    rw [(hRC i j).1] at g1
    rw [(hRC i j).2] at g2
    have b1 := HMat.Segments.bounds hR i
    have b2 := HMat.Segments.bounds hC j
    rw [mem_seg] at g1 g2
    refine ⟨mem_seg.mpr ?_, mem_seg.mpr ?_⟩
    · show t.cl.off ≤ r ∧ r < t.cl.off + t.cl.size; omega
    · show s.cl.off ≤ c ∧ c < s.cl.off + s.cl.size; omega

/-- the result of `clear_upper_hmatrix` -/
def UpperCleared (strict : Bool) (h h' : HV G K) : Prop :=
  (h'.rc = h.rc ∧ h'.cc = h.cc ∧ HVOk h' ∧ SameShape h h') ∧ ∀ r ∈ seg h.rc, ∀ c ∈ seg h.cc,
    (r < c ∨ (strict = false ∧ r = c) ∨ RkDiag h r c → hval h' r c = 0) ∧
    (¬ (r < c ∨ (strict = false ∧ r = c) ∨ RkDiag h r c) → hval h' r c = hval h r c)

theorem sameShape_refl : ∀ (h : HV G K), SameShape h h := by
  intro h
  induction h with
  | rk t s x => exact ⟨rfl, rfl⟩
  | full t s f => exact ⟨rfl, rfl⟩
  | super t s m n son ih => exact ⟨rfl, rfl, rfl, rfl, fun i j => ih i j⟩

theorem clearUpperH_tot {strict : Bool} : ∀ {h : HV G K}, HVOk h → DiagSquare h → Tot (clearUpperH strict h) (UpperCleared strict h) := by
  intro h
  induction h with
  | rk t s x =>
    rintro ⟨h1, h2, h3⟩ hd
    refine ⟨_, rfl, ⟨rfl, rfl, ⟨zero_rkOk, h2, h3⟩, rfl, rfl⟩, fun r hr c hc => ⟨fun _ => ?_, fun hn => ?_⟩⟩
    · rw [hval_rk, rkVal_zero, ite_self]
    · exact absurd (Or.inr (Or.inr ⟨mem_seg.mp hr, mem_seg.mp hc⟩)) hn
  | full t s f =>
    rintro ⟨h1, h2⟩ hd
    replace hd : t = s := hd
    subst hd
    simp only [clearUpperH, same_refl]
    refine ⟨_, rfl, ⟨rfl, rfl, ⟨h1, h2⟩, rfl, rfl⟩, fun r hr c hc => ?_⟩
    replace hr : r ∈ seg t := hr
    replace hc : c ∈ seg t := hc
    have hr' := mem_seg.mp hr
    have hc' := mem_seg.mp hc
    simp only [hval_full, if_pos (And.intro hr hc)]
    refine ⟨fun h => if_pos ?_, fun h => if_neg fun h' => h ?_⟩
    · rcases h with h | h | h
      · left; omega
      · right; exact ⟨h.1, by omega⟩
      · exact h.elim
    · rcases h' with h' | h'
      · left; omega
      · right; left; exact ⟨h'.1, by omega⟩
  | super t s m n son ih =>
    rintro ho hd
    obtain ⟨h1, h2, ⟨R, C, hRC, hR, hC⟩, hs⟩ := id ho
    obtain ⟨rfl, rfl, hds⟩ := hd
    have hRC' : ∀ i, R i = C i := fun i => by
      rw [← (hRC i i).1, ← (hRC i i).2]; exact diagSquare_eq (hds i i rfl)
    simp only [clearUpperH]
    refine Tot.bind (seqFin_tot (P := fun (j : Fin (min m m)) => UpperCleared strict (son ⟨j.1, Nat.lt_of_lt_of_le j.2 (Nat.min_le_left _ _)⟩
      ⟨j.1, Nat.lt_of_lt_of_le j.2 (Nat.min_le_right _ _)⟩)) fun j => ih _ _ (hs _ _) (hds _ _ rfl)) ?_
    rintro d - hdd
    refine Tot.pure ?_
    generalize hson : (fun (i j : Fin m) => if i.1 < j.1 then clearAll (son i j) else
      if h : i.1 = j.1 then d ⟨i.1, Nat.lt_min.mpr ⟨i.2, h ▸ j.2⟩⟩ else son i j) = son'
    have hup : ∀ i j, i.1 < j.1 → son' i j = clearAll (son i j) := fun i j h => by rw [← hson]; exact if_pos h
    have hdg : ∀ i j, i = j → UpperCleared strict (son i j) (son' i j) := by
      rintro i j rfl
      have : son' i i = d ⟨i.1, Nat.lt_min.mpr ⟨i.2, i.2⟩⟩ := by rw [← hson]; simp
      rw [this]; exact hdd ⟨i.1, Nat.lt_min.mpr ⟨i.2, i.2⟩⟩
    have hlo : ∀ i j, j.1 < i.1 → son' i j = son i j := fun i j h => by
      rw [← hson]; simp only; rw [if_neg (by omega), dif_neg (by omega)]
    have hall : ∀ i j, (son' i j).rc = R i ∧ (son' i j).cc = C j ∧ HVOk (son' i j) ∧ SameShape (son i j) (son' i j) := by
      intro i j
      rcases lt_trichotomy i.1 j.1 with h | h | h
      · rw [hup i j h, (clearAll_cl _).1, (clearAll_cl _).2]
        exact ⟨(hRC i j).1, (hRC i j).2, clearAll_ok (hs i j), clearAll_shape _⟩
      · obtain ⟨g1, g2, g3, g4⟩ := (hdg i j (Fin.ext h)).1
        exact ⟨g1.trans (hRC i j).1, g2.trans (hRC i j).2, g3, g4⟩
      · rw [hlo i j h]
        exact ⟨(hRC i j).1, (hRC i j).2, hs i j, sameShape_refl _⟩
    have hok' : HVOk (super t t m m son') := ⟨h1, h2, ⟨R, C, fun i j => ⟨(hall i j).1, (hall i j).2.1⟩, hR, hC⟩, fun i j => (hall i j).2.2.1⟩
    refine ⟨⟨rfl, rfl, hok', rfl, rfl, rfl, rfl, fun i j => (hall i j).2.2.2⟩, fun r hr c hc => ?_⟩
    replace hr : r ∈ seg t := hr
    replace hc : c ∈ seg t := hc
    obtain ⟨i, hi⟩ := seg_mem_some hR hr
    obtain ⟨j, hj⟩ := seg_mem_some hC hc
    rw [hval_son (R := R) (C := C) (fun i j => ⟨(hall i j).1, (hall i j).2.1⟩) (fun i j => (hall i j).2.2.1) hR hC hi hj,
      hval_son hRC hs hR hC hi hj]
    have hmon : ∀ {a b : Fin m}, a.1 < b.1 → ∀ {x y : Nat}, x ∈ seg (R a) → y ∈ seg (R b) → x < y := by
      intro a b hab x y hx hy
      rw [mem_seg] at hx hy
      have e1 := segments_end hR a
      have e2 := segments_off hR b
      have e4 := segments_off hR a
      have e3 := pre_mono (fun k => (R k).cl.size) (show a.1 + 1 ≤ b.1 from hab)
      rw [pre_succ] at e3
      omega
    rcases lt_trichotomy i.1 j.1 with h | h | h
    · rw [hup i j h, clearAll_val]
      have : r < c := hmon h hi (hRC' j ▸ hj)
      exact ⟨fun _ => rfl, fun hn => absurd (Or.inl this) hn⟩
    · obtain rfl : i = j := Fin.ext h
      obtain ⟨g1, g2⟩ := (hdg i i rfl).2 r ((hRC i i).1 ▸ hi) c ((hRC i i).2 ▸ hj)
      have hiff : RkDiag (super t t m m son) r c ↔ RkDiag (son i i) r c := by
        constructor
        · rintro ⟨a, b, hab, hh⟩
          obtain ⟨q1, q2⟩ := rkDiag_in (hs a b) hh
          rw [(hRC a b).1] at q1
          rw [(hRC a b).2] at q2
          obtain rfl := seg_unique hR q1 hi
          obtain rfl := seg_unique hC q2 hj
          exact hh
        · intro hh; exact ⟨i, i, rfl, hh⟩
      rw [hiff]
      exact ⟨g1, g2⟩
    · rw [hlo i j h]
      have hlt : c < r := hmon h (hRC' j ▸ hj) hi
      refine ⟨fun hh => ?_, fun _ => rfl⟩
      rcases hh with hh | hh | ⟨a, b, hab, hh⟩
      · omega
      · omega
      · obtain ⟨q1, q2⟩ := rkDiag_in (hs a b) hh
        rw [(hRC a b).1] at q1
        rw [(hRC a b).2] at q2
        obtain rfl := seg_unique hR q1 hi
        obtain rfl := seg_unique hC q2 hj
        omega

theorem copyH_tot : ∀ {src trg : HV G K}, HVOk src → HVOk trg → SameShape src trg → Tot (copyH src trg) fun h' =>
    h'.rc = trg.rc ∧ h'.cc = trg.cc ∧ HVOk h' ∧ ∀ r c, hval h' r c = hval src r c := by
  intro src
  induction src with
  | rk t s x =>
    intro trg h1 h2 h3
    cases trg with
    | rk t' s' y =>
      obtain ⟨rfl, rfl⟩ := h3
      obtain ⟨⟨a1, a2⟩, a3, a4⟩ := id h1
      simp only [copyH, same_refl]
      refine ⟨rk t s x, ?_, rfl, rfl, h1, fun _ _ => rfl⟩
      simp [a1, a2, a3, a4, cassert_true, ok_bind, pure, Except.pure]
    | full => exact h3.elim
    | super => exact h3.elim
  | full t s f =>
    intro trg h1 h2 h3
    cases trg with
    | full t' s' y =>
      obtain ⟨rfl, rfl⟩ := h3
      simp only [copyH, same_refl]
      refine ⟨full t s f, ?_, rfl, rfl, h1, fun _ _ => rfl⟩
      simp [h1.1, h1.2, h2.1, h2.2, cassert_true, ok_bind, pure, Except.pure]
    | rk => exact h3.elim
    | super => exact h3.elim
  | super t s m n son ih =>
    intro trg h1 h2 h3
    cases trg with
    | super t' s' m' n' son' =>
      obtain ⟨rfl, rfl, rfl, rfl, h3⟩ := h3
      obtain ⟨_, _, ⟨R, C, hRC, hR, hC⟩, hs⟩ := id h1
      obtain ⟨b1, b2, ⟨R', C', hRC', hR', hC'⟩, hs'⟩ := id h2
      simp only [copyH, same_refl]
      rw [dif_pos ⟨trivial, trivial⟩, cassert_true rfl, ok_bind, ok_bind]
      refine Tot.bind (seqFin_tot (P := fun j (col : Fin m → HV G K) => ∀ i, (col i).rc = (son' i j).rc ∧ (col i).cc = (son' i j).cc ∧ HVOk (col i) ∧
        ∀ r c, hval (col i) r c = hval (son i j) r c) fun j => seqFin_tot fun i => ih i j (hs i j) (hs' i j) (h3 i j)) ?_
      rintro rows - hrows
      refine Tot.pure ⟨rfl, rfl, ⟨b1, b2, ⟨R', C', fun i j => ?_, hR', hC'⟩, fun i j => (hrows j i).2.2.1⟩, fun r c => ?_⟩
      · rw [(hrows j i).1, (hrows j i).2.1]; exact hRC' i j
      · simp only [hval_super, (hrows _ _).2.2.2]
    | rk => exact h3.elim
    | full => exact h3.elim

end HV
end H2
