import Verif.Spec.Coarsen
import Verif.Proof.Trunc4
import Verif.Proof.Harith4

set_option linter.unusedSectionVars false

namespace H2.HV
open Spec Svd
variable {G 𝕜 : Type} [RCLike 𝕜]

/-! ## One leaf -/

def rkOf : HV G 𝕜 → Nat
  | rk _ _ r => r.k
  | full _ _ f => f.cols
  | super .. => 0
def leafA : HV G 𝕜 → Nat → Nat → 𝕜
  | rk _ _ r => r.A.e
  | full _ _ f => f.e
  | super .. => fun _ _ => 0
def leafB : HV G 𝕜 → Nat → Nat → 𝕜
  | rk _ _ r => r.B.e
  | full _ _ _ => fun i j => if i = j then 1 else 0
  | super .. => fun _ _ => 0

abbrev IsLeaf (h : HV G 𝕜) : Prop := NoSons h

theorem isLeaf_of {h : HV G 𝕜} (ho : HVOk h) (h0 : h.nsons = 0) : IsLeaf h := by
  cases h with
  | rk => trivial
  | full => trivial
  | super t s m n son =>
    have h1 : 0 < m * n := Nat.mul_pos ho.1 ho.2.1
    exact absurd h0 (Nat.pos_iff_ne_zero.mp h1)

theorem leafRank_eq {h : HV G 𝕜} (hl : IsLeaf h) : h.leafRank = .ok (rkOf h) := by cases h <;> first | rfl | exact hl.elim
theorem leafSize_eq (z : Sizeof) {h : HV G 𝕜} (hl : IsLeaf h) : h.leafSize z = .ok (storage z h) := by
  cases h with
  | rk t s r => unfold leafSize sizeRk storage; simp only [Nat.mul_assoc]; rfl
  | full t s f => unfold leafSize sizeAm storage; simp only [Nat.mul_assoc]; rfl
  | super => exact hl.elim

theorem leaf_val {h : HV G 𝕜} (hl : IsLeaf h) (ho : HVOk h) (r c : Nat) : hval h r c =
    if r ∈ seg h.rc ∧ c ∈ seg h.cc then ∑ l ∈ Finset.range (rkOf h), leafA h (r - h.rc.cl.off) l * star (leafB h (c - h.cc.cl.off) l) else 0 := by
  cases h with
  | rk t s x => exact hval_rk t s x r c
  | full t s f =>
    rw [hval_full]
    show _ = if r ∈ seg t ∧ c ∈ seg s then ∑ l ∈ Finset.range f.cols, f.e (r - t.cl.off) l * star (if c - s.cl.off = l then (1 : 𝕜) else 0) else 0
    by_cases hrc : r ∈ seg t ∧ c ∈ seg s
    · rw [if_pos hrc, if_pos hrc]
      have h1 := mem_seg.mp hrc.2
      have h2 : f.cols = s.cl.size := ho.2
      rw [Finset.sum_eq_single_of_mem (c - s.cl.off) (Finset.mem_range.mpr (by omega))]
      · simp
      · intro l _ hne
        rw [if_neg (Ne.symm hne), star_zero, mul_zero]
    · rw [if_neg hrc, if_neg hrc]
  | super => exact hl.elim

theorem putSon_eq {h : HV G 𝕜} (hl : IsLeaf h) (ho : HVOk h) {A B : VMat 𝕜} {ro co k : Nat} (h1 : ro + h.rc.cl.size ≤ A.rows) (h2 : co + h.cc.cl.size ≤ B.rows)
    (h3 : k + rkOf h ≤ A.cols) (h4 : k + rkOf h ≤ B.cols) : putSon h ro co (A, B, k) =
      .ok (A.glue ro k ⟨h.rc.cl.size, rkOf h, leafA h⟩, B.glue co k ⟨h.cc.cl.size, rkOf h, leafB h⟩, k + rkOf h) := by
  unfold putSon
  simp only
  rw [leafRank_eq hl, ok_bind, HV.sub_tot h1 h3, ok_bind, HV.sub_tot h2 h4, ok_bind]
  cases h with
  | rk t s r =>
    show (do
      let T ← VMat.copy false r.A t.cl.size r.k
      let S ← VMat.copy false r.B s.cl.size r.k
      pure (A.glue ro k T, B.glue co k S, k + r.k)) = _
    rw [Tr.copyF ho.2.1 ho.1.1, ok_bind, Tr.copyF ho.2.2 ho.1.2, ok_bind]
    rfl
  | full t s f =>
    show (do
      let T ← VMat.copy false f t.cl.size f.cols
      pure (A.glue ro k T, B.glue co k (VMat.ident s.cl.size f.cols), k + f.cols)) = _
    rw [Tr.copyF ho.1 rfl, ok_bind]
    rfl
  | super => exact hl.elim

/-! ## The joined factors -/

/-- the first `k` columns represent `F`, the others are zero -/
structure JInv (rows cols K : Nat) (F : Nat → Nat → 𝕜) (k : Nat) (st : VMat 𝕜 × VMat 𝕜 × Nat) : Prop where
  k_eq : st.2.2 = k
  ar : st.1.rows = rows
  ac : st.1.cols = K
  br : st.2.1.rows = cols
  bc : st.2.1.cols = K
  az : ∀ p l, k ≤ l → st.1.e p l = 0
  bz : ∀ p l, k ≤ l → st.2.1.e p l = 0
  val : ∀ p < rows, ∀ q < cols, ∑ l ∈ Finset.range k, st.1.e p l * star (st.2.1.e q l) = F p q

theorem putSon_tot {h : HV G 𝕜} (hl : IsLeaf h) (ho : HVOk h) {t s : CRef G} {K k ro co : Nat} {F : Nat → Nat → 𝕜} {st : VMat 𝕜 × VMat 𝕜 × Nat}
    (hi : JInv t.cl.size s.cl.size K F k st) (h1 : ro + h.rc.cl.size ≤ t.cl.size) (h2 : co + h.cc.cl.size ≤ s.cl.size) (hk : k + rkOf h ≤ K)
    (hr : h.rc.cl.off = t.cl.off + ro) (hc : h.cc.cl.off = s.cl.off + co) :
    Tot (putSon h ro co st) (JInv t.cl.size s.cl.size K (fun p q => F p q + hval h (t.cl.off + p) (s.cl.off + q)) (k + rkOf h)) := by
  obtain ⟨A, B, k'⟩ := st
  obtain ⟨rfl, ar, ac, br, bc, az, bz, val⟩ := hi
  simp only at ar ac br bc az bz val h1 h2 hk ⊢
  rw [putSon_eq hl ho (by omega) (by omega) (by omega) (by omega)]
  refine Tot.pure ⟨rfl, ar, ac, br, bc, fun p l hl' => ?_, fun p l hl' => ?_, fun p hp q hq => ?_⟩
  · rw [Tr.glue_e, if_neg (by simp only; omega)]
    exact az p l (by omega)
  · rw [Tr.glue_e, if_neg (by simp only; omega)]
    exact bz p l (by omega)
  · simp only
    rw [Finset.sum_range_add]
    congr 1
    · rw [← val p hp q hq]
      refine Finset.sum_congr rfl fun l hl' => ?_
      have hl' := Finset.mem_range.mp hl'
      rw [Tr.glue_e, if_neg (by simp only; omega), Tr.glue_e, if_neg (by simp only; omega)]
    · rw [leaf_val hl ho]
      by_cases e : t.cl.off + p ∈ seg h.rc ∧ s.cl.off + q ∈ seg h.cc
      · rw [if_pos e]
        obtain ⟨e1, e2⟩ := e
        rw [mem_seg] at e1 e2
        refine Finset.sum_congr rfl fun l hl' => ?_
        have hl' := Finset.mem_range.mp hl'
        rw [Tr.glue_e, if_pos (by simp only; omega), Tr.glue_e, if_pos (by simp only; omega)]
        simp only [Nat.add_sub_cancel_left]
        rw [show t.cl.off + p - h.rc.cl.off = p - ro by omega, show s.cl.off + q - h.cc.cl.off = q - co by omega]
      · rw [if_neg e]
        refine Finset.sum_eq_zero fun l hl' => ?_
        have hl' := Finset.mem_range.mp hl'
        rw [Tr.glue_e, Tr.glue_e]
        by_cases e1 : t.cl.off + p ∈ seg h.rc
        · have e2 : ¬ s.cl.off + q ∈ seg h.cc := fun h => e ⟨e1, h⟩
          rw [mem_seg] at e2
          rw [if_neg (c := (co ≤ q ∧ _) ∧ _) (by simp only; omega), bz q _ (by omega), star_zero, mul_zero]
        · rw [mem_seg] at e1
          rw [if_neg (by simp only; omega), az p _ (by omega), zero_mul]

theorem joinSons_tot (z : Sizeof) {t s : CRef G} {m n : Nat} {son : Fin m → Fin n → HV G 𝕜} (ho : HVOk (super t s m n son)) (hl : ∀ i j, IsLeaf (son i j)) :
    Tot (joinSons z t s m n son) fun r => RkOk r.1 ∧ r.1.A.rows = t.cl.size ∧ r.1.B.rows = s.cl.size ∧ r.2 = storage z (super t s m n son) ∧
      ∀ p < t.cl.size, ∀ q < s.cl.size, rkVal r.1 p q = hval (super t s m n son) (t.cl.off + p) (s.cl.off + q) := by
  obtain ⟨hm, hn, ⟨Rf, Cf, hRC, hR, hC⟩, hs⟩ := ho
  have hR1 : ∀ i, (Rf i).cl.off = t.cl.off + pre (fun k => (Rf k).cl.size) i.1 := hR.1
  have hC1 : ∀ j, (Cf j).cl.off = s.cl.off + pre (fun k => (Cf k).cl.size) j.1 := hC.1
  unfold joinSons
  have e1 : foldFinM n (fun j (st : Nat × Nat) => foldFinM m (fun i (st : Nat × Nat) => do
    let k ← (son i j).leafRank
    let sz ← (son i j).leafSize z
    pure (st.1 + k, st.2 + sz)) st) (0, 0) = .ok (∑ j, ∑ i, rkOf (son i j), ∑ j, ∑ i, storage z (son i j)) := by
    have : Tot (foldFinM n (fun j (st : Nat × Nat) => foldFinM m (fun i (st : Nat × Nat) => do
      let k ← (son i j).leafRank
      let sz ← (son i j).leafSize z
      pure (st.1 + k, st.2 + sz)) st) (0, 0)) fun st => st = (pre (fun j => ∑ i, rkOf (son i j)) n, pre (fun j => ∑ i, storage z (son i j)) n) := by
      refine foldFinM_tot (fun j st => st = (pre (fun j => ∑ i, rkOf (son i j)) j, pre (fun j => ∑ i, storage z (son i j)) j)) (by simp [pre_zero]) ?_
      rintro j st rfl
      refine (foldFinM_tot (fun i st => st = (pre (fun j => ∑ i, rkOf (son i j)) j + pre (fun i => rkOf (son i j)) i, pre (fun j => ∑ i, storage z (son i j)) j + pre (fun i => storage z (son i j)) i))
        (by simp [pre_zero]) ?_).mono ?_
      · rintro i st rfl
        rw [leafRank_eq (hl i j), ok_bind, leafSize_eq z (hl i j), ok_bind]
        refine Tot.pure ?_
        rw [pre_succ, pre_succ, Nat.add_assoc, Nat.add_assoc]
      · rintro st rfl
        rw [pre_succ, pre_succ, pre_all, pre_all]
    obtain ⟨st, e, rfl⟩ := this
    rw [e, pre_all, pre_all]
  rw [e1, ok_bind]
  simp only
  obtain ⟨K, hK⟩ : ∃ K, K = ∑ j, ∑ i, rkOf (son i j) := ⟨_, rfl⟩
  rw [← hK]
  have inner : ∀ (j : Fin n) (st : VMat 𝕜 × VMat 𝕜 × Nat), JInv t.cl.size s.cl.size K (fun p q => pre (fun j => ∑ i, hval (son i j) (t.cl.off + p) (s.cl.off + q)) j)
      (pre (fun j => ∑ i, rkOf (son i j)) j) st →
      Tot (foldFinM m (fun i (p : (VMat 𝕜 × VMat 𝕜 × Nat) × Nat) => do
        let q ← putSon (son i j) p.2 (pre (fun k => (Cf k).cl.size) j.1) p.1
        pure (q, p.2 + (son i j).rc.cl.size)) (st, 0)) fun st' => JInv t.cl.size s.cl.size K (fun p q => pre (fun j => ∑ i, hval (son i j) (t.cl.off + p) (s.cl.off + q)) (j + 1))
          (pre (fun j => ∑ i, rkOf (son i j)) (j + 1)) st'.1 := by
    intro j st hst
    refine (foldFinM_tot (fun i (st : (VMat 𝕜 × VMat 𝕜 × Nat) × Nat) => st.2 = pre (fun k => (Rf k).cl.size) i ∧
      JInv t.cl.size s.cl.size K (fun p q => pre (fun j => ∑ i, hval (son i j) (t.cl.off + p) (s.cl.off + q)) j + pre (fun i => hval (son i j) (t.cl.off + p) (s.cl.off + q)) i)
        (pre (fun j => ∑ i, rkOf (son i j)) j + pre (fun i => rkOf (son i j)) i) st.1) ⟨by rw [pre_zero], ?_⟩ ?_).mono ?_
    · simpa only [pre_zero, add_zero] using hst
    · rintro i ⟨st, ro⟩ ⟨rfl, hi⟩
      simp only at hi ⊢
      have b1 := pre_le (fun k => (Rf k).cl.size) i
      have b2 := pre_le (fun k => (Cf k).cl.size) j
      rw [hR.2] at b1
      rw [hC.2] at b2
      have b3 := pre_le (fun i => rkOf (son i j)) i
      have b4 := pre_le (fun j => ∑ i, rkOf (son i j)) j
      rw [← hK] at b4
      refine Tot.bind (putSon_tot (hl i j) (hs i j) hi (by rw [(hRC i j).1]; exact b1) (by rw [(hRC i j).2]; exact b2) (by simp only at b3 b4; omega) (by rw [(hRC i j).1]; exact hR1 i)
        (by rw [(hRC i j).2]; exact hC1 j)) ?_
      intro st' _ h'
      refine Tot.pure ⟨by rw [pre_succ, (hRC i j).1], ?_⟩
      simpa only [pre_succ, add_assoc] using h'
    · rintro st ⟨-, hi⟩
      simpa only [pre_succ, pre_all] using hi
  refine Tot.bind (P := fun (st : (VMat 𝕜 × VMat 𝕜 × Nat) × Nat) => JInv t.cl.size s.cl.size K (fun p q => pre (fun j => ∑ i, hval (son i j) (t.cl.off + p) (s.cl.off + q)) n)
      (pre (fun j => ∑ i, rkOf (son i j)) n) st.1) ?_ ?_
  · refine (foldFinM_tot (fun j (st : (VMat 𝕜 × VMat 𝕜 × Nat) × Nat) => st.2 = pre (fun k => (Cf k).cl.size) j ∧
      JInv t.cl.size s.cl.size K (fun p q => pre (fun j => ∑ i, hval (son i j) (t.cl.off + p) (s.cl.off + q)) j) (pre (fun j => ∑ i, rkOf (son i j)) j) st.1) ⟨by rw [pre_zero], ?_⟩ ?_).mono fun _ h => h.2
    · simp only [pre_zero]
      exact ⟨rfl, rfl, rfl, rfl, rfl, fun _ _ _ => rfl, fun _ _ _ => rfl, fun _ _ _ _ => by simp⟩
    · rintro j ⟨st, co⟩ ⟨rfl, hst⟩
      refine Tot.bind (inner j st hst) fun st' _ h' => ?_
      rw [dif_pos hm]
      exact Tot.pure ⟨by rw [pre_succ, (hRC _ j).2], h'⟩
  · rintro ⟨⟨A, B, k⟩, co⟩ - hi
    obtain ⟨rfl, ar, ac, br, bc, -, -, val⟩ := hi
    simp only at ar ac br bc val
    rw [pre_all, ← hK] at val
    refine Tot.pure ⟨⟨ac, bc⟩, ar, br, ?_, fun p hp q hq => ?_⟩
    · show ∑ j, ∑ i, storage z (son i j) = _
      rw [storage, Finset.sum_comm]
    · rw [hval_super]
      have := val p hp q hq
      rw [pre_all] at this
      exact this.trans Finset.sum_comm

end H2.HV
