import Verif.Proof.Harith4

set_option linter.unusedSectionVars false

namespace H2
open Spec
variable {G K : Type} [Field K] [StarRing K]

namespace HV

/-! ### `merge_hmatrix_rkmatrix` -/

/-- a low-rank matrix placed at `(ro, co)` -/
def mat (ro co : Nat) (x : VRk K) (r c : Nat) : K :=
  if (ro ≤ r ∧ r < ro + x.A.rows) ∧ co ≤ c ∧ c < co + x.B.rows then rkVal x (r - ro) (c - co) else 0

theorem mat_hval {t s : CRef G} {x : VRk K} (h1 : x.A.rows = t.cl.size) (h2 : x.B.rows = s.cl.size) (r c : Nat) :
    hval (.rk t s x) r c = mat t.cl.off s.cl.off x r c := by
  rw [hval, mat, h1, h2]

theorem copyNew_tot {x : VRk K} (hx : RkOk x) : Tot x.copyNew (fun w => RkOk w ∧ w.A.rows = x.A.rows ∧ w.B.rows = x.B.rows ∧
    ∀ ro co r c, mat ro co w r c = mat ro co x r c) := by
  unfold VRk.copyNew
  rw [copy_tot (atrans := false) (a := x.A) (rows := x.A.rows) rfl (by exact hx.1), ok_bind,
    copy_tot (atrans := false) (a := x.B) (rows := x.B.rows) rfl (by exact hx.2), ok_bind]
  exact Tot.pure ⟨⟨rfl, rfl⟩, rfl, rfl, fun _ _ _ _ => rfl⟩

theorem mergeCol_mat {T : TruncOps K} (hT : Lossless T) {src trg : VRk K} (h1 : RkOk src) (h2 : RkOk trg)
    (h3 : src.B.rows = trg.B.rows) : Tot (T.merge true src trg) (fun w => RkOk w ∧ w.A.rows = trg.A.rows + src.A.rows ∧
      w.B.rows = trg.B.rows ∧ ∀ ro co r c, mat ro co w r c = mat ro co trg r c + mat (ro + trg.A.rows) co src r c) := by
  obtain ⟨w, e, g1, g2, g3, g4⟩ := hT.mergeCol src trg h1 h2 h3
  refine ⟨w, e, g1, g2, g3, fun ro co r c => ?_⟩
  unfold mat
  rw [g2, g3, h3]
  by_cases hin : (ro ≤ r ∧ r < ro + (trg.A.rows + src.A.rows)) ∧ co ≤ c ∧ c < co + trg.B.rows
  · rw [if_pos hin, g4 _ (by omega) _ (by omega)]
    by_cases hr : r - ro < trg.A.rows
    · rw [if_pos hr, if_pos (by omega), if_neg (by omega), add_zero]
    · rw [if_neg hr, if_neg (by omega), if_pos (by omega), zero_add, Nat.sub_sub]
  · rw [if_neg hin, if_neg (by omega), if_neg (by omega), zero_add]

theorem mergeRow_mat {T : TruncOps K} (hT : Lossless T) {src trg : VRk K} (h1 : RkOk src) (h2 : RkOk trg)
    (h3 : src.A.rows = trg.A.rows) : Tot (T.merge false src trg) (fun w => RkOk w ∧ w.A.rows = trg.A.rows ∧
      w.B.rows = trg.B.rows + src.B.rows ∧ ∀ ro co r c, mat ro co w r c = mat ro co trg r c + mat ro (co + trg.B.rows) src r c) := by
  obtain ⟨w, e, g1, g2, g3, g4⟩ := hT.mergeRow src trg h1 h2 h3
  refine ⟨w, e, g1, g2, g3, fun ro co r c => ?_⟩
  unfold mat
  rw [g2, g3, h3]
  by_cases hin : (ro ≤ r ∧ r < ro + trg.A.rows) ∧ co ≤ c ∧ c < co + (trg.B.rows + src.B.rows)
  · rw [if_pos hin, g4 _ (by omega) _ (by omega)]
    by_cases hr : c - co < trg.B.rows
    · rw [if_pos hr, if_pos (by omega), if_neg (by omega), add_zero]
    · rw [if_neg hr, if_neg (by omega), if_pos (by omega), zero_add, Nat.sub_sub]
  · rw [if_neg hin, if_neg (by omega), if_neg (by omega), zero_add]

section
variable {t s : CRef G} {m n : Nat} {son : Fin m → Fin n → HV G K} {R : Fin m → CRef G} {C : Fin n → CRef G}

theorem sonRk_tot (hs : ∀ i j, HVOk (son i j)) (hrk : ∀ i j, ∃ x, son i j = .rk (R i) (C j) x) (i : Fin m) (j : Fin n) :
    Tot (sonRk son i.1 j.1) (fun x => RkOk x ∧ x.A.rows = (R i).cl.size ∧ x.B.rows = (C j).cl.size ∧
      ∀ r c, mat (R i).cl.off (C j).cl.off x r c = hval (son i j) r c) := by
  obtain ⟨x, hx⟩ := hrk i j
  have ho := hs i j
  unfold sonRk
  rw [dif_pos ⟨i.2, j.2⟩]
  show Tot (getRk (son i j)) _
  rw [hx] at ho ⊢
  obtain ⟨o1, o2, o3⟩ := ho
  exact ⟨x, rfl, o1, o2, o3, fun r c => (mat_hval o2 o3 r c).symm⟩

/-- merging the blocks of one block column -/
theorem colmerge_tot {T : TruncOps K} (hT : Lossless T) (hm : 0 < m) (hs : ∀ i j, HVOk (son i j))
    (hrk : ∀ i j, ∃ x, son i j = .rk (R i) (C j) x) (hR : Segments t R) (j : Fin n) :
    Tot (do
      let s1 ← sonRk son 0 j.1
      let r1 ← s1.copyNew
      forUp 1 m (fun i r1 => do
        let s1 ← sonRk son i j.1
        T.merge true s1 r1) r1)
    (fun x => RkOk x ∧ x.A.rows = t.cl.size ∧ x.B.rows = (C j).cl.size ∧
      ∀ r c, mat t.cl.off (C j).cl.off x r c = ∑ i, hval (son i j) r c) := by
  refine Tot.bind (sonRk_tot hs hrk ⟨0, hm⟩ j) ?_
  rintro s1 - ⟨e1, e2, e3, e4⟩
  refine Tot.bind (copyNew_tot e1) ?_
  rintro r1 - ⟨f1, f2, f3, f4⟩
  have := forUp_inv (lo := 1) (hi := m) (s := r1) (body := fun i r1 => do
        let s1 ← sonRk son i j.1
        T.merge true s1 r1) (fun i x => RkOk x ∧ x.A.rows = pre (fun i => (R i).cl.size) i ∧
    x.B.rows = (C j).cl.size ∧ ∀ r c, mat t.cl.off (C j).cl.off x r c = pre (fun i => hval (son i j) r c) i) hm ?_ ?_
  · obtain ⟨x, hx, g1, g2, g3, g4⟩ := this
    refine ⟨x, hx, g1, ?_, g3, fun r c => by rw [g4, pre_all]⟩
    rw [g2, pre_all]; exact hR.2
  · have p1 := pre_succ (fun i => (R i).cl.size) ⟨0, hm⟩
    simp only [pre_zero, zero_add] at p1
    have o := segments_off hR ⟨0, hm⟩
    simp only [pre_zero, add_zero] at o
    refine ⟨f1, by rw [f2, e2]; exact p1.symm, by rw [f3, e3], fun r c => ?_⟩
    have p2 := pre_succ (fun i => hval (son i j) r c) ⟨0, hm⟩
    simp only [pre_zero, zero_add] at p2
    rw [p2, f4, ← e4, o]
  · intro i x h1 h2 ⟨g1, g2, g3, g4⟩
    refine Tot.bind (sonRk_tot hs hrk ⟨i, h2⟩ j) ?_
    rintro s2 - ⟨k1, k2, k3, k4⟩
    refine Tot.mono (mergeCol_mat hT k1 g1 (by rw [k3, g3])) ?_
    rintro w ⟨l1, l2, l3, l4⟩
    have o := segments_off hR ⟨i, h2⟩
    refine ⟨l1, ?_, by rw [l3, g3], fun r c => ?_⟩
    · rw [l2, g2, k2]; exact (pre_succ (fun i => (R i).cl.size) ⟨i, h2⟩).symm
    · have p2 := pre_succ (fun i => hval (son i j) r c) ⟨i, h2⟩
      simp only at p2 o
      rw [p2, l4, g4, g2, ← o, k4]

theorem mergeH_tot {T : TruncOps K} (hT : Lossless T) (ho : HVOk (.super t s m n son))
    (hrk : ∀ i j, ∃ a b x, son i j = .rk a b x) :
    Tot (mergeH T (.super t s m n son)) (fun x => RkOk x ∧ x.A.rows = t.cl.size ∧ x.B.rows = s.cl.size ∧
      ∀ r c, hval (.rk t s x) r c = hval (.super t s m n son) r c) := by
  obtain ⟨hm, hn, ⟨R, C, hrc, hR, hC⟩, hs⟩ := ho
  replace hrk : ∀ i j, ∃ x, son i j = .rk (R i) (C j) x := by
    intro i j
    obtain ⟨a, b, x, e⟩ := hrk i j
    obtain ⟨h1, h2⟩ := hrc i j
    rw [e] at h1 h2
    exact ⟨x, by rw [e, show R i = a from h1.symm, show C j = b from h2.symm]⟩
  simp only [mergeH]
  by_cases h1 : 1 < m
  · rw [if_pos h1]
    by_cases h2 : 1 < n
    · rw [if_pos h2]
      have := forUp_inv (lo := 0) (hi := n) (s := (VRk.new0 t.cl.size 0 : VRk K)) (body := fun j r => do
          let s1 ← sonRk son 0 j
          let r1 ← s1.copyNew
          let r1 ← forUp 1 m (fun i r1 => do
            let s1 ← sonRk son i j
            T.merge true s1 r1) r1
          T.merge false r1 r) (fun j x => RkOk x ∧ x.A.rows = t.cl.size ∧ x.B.rows = pre (fun j => (C j).cl.size) j ∧
          ∀ r c, mat t.cl.off s.cl.off x r c = pre (fun j => ∑ i, hval (son i j) r c) j) (Nat.zero_le _) ?_ ?_
      · obtain ⟨x, hx, g1, g2, g3, g4⟩ := this
        have g3' : x.B.rows = s.cl.size := by rw [g3, pre_all]; exact hC.2
        refine ⟨x, hx, g1, g2, g3', fun r c => ?_⟩
        rw [mat_hval g2 g3', g4, pre_all, hval_super, Finset.sum_comm]
      · refine ⟨⟨rfl, rfl⟩, rfl, by rw [pre_zero]; rfl, fun r c => ?_⟩
        rw [pre_zero]
        unfold mat
        rw [if_neg]
        intro h
        have : (VRk.new0 t.cl.size 0 : VRk K).B.rows = 0 := rfl
        omega
      · intro j x _ hj ⟨g1, g2, g3, g4⟩
        have key := colmerge_tot (T := T) hT hm hs hrk hR ⟨j, hj⟩
        have assoc : (do
          let s1 ← sonRk son 0 j
          let r1 ← s1.copyNew
          let r1 ← forUp 1 m (fun i r1 => do
            let s1 ← sonRk son i j
            T.merge true s1 r1) r1
          T.merge false r1 x) = (do
            let r1 ← (do
              let s1 ← sonRk son 0 j
              let r1 ← s1.copyNew
              forUp 1 m (fun i r1 => do
                let s1 ← sonRk son i j
                T.merge true s1 r1) r1)
            T.merge false r1 x) := by simp only [bind_assoc]
        rw [assoc]
        refine Tot.bind key ?_
        rintro y - ⟨k1, k2, k3, k4⟩
        refine Tot.mono (mergeRow_mat hT k1 g1 (by rw [k2, g2])) ?_
        rintro w ⟨l1, l2, l3, l4⟩
        have o := segments_off hC ⟨j, hj⟩
        simp only at o k3
        refine ⟨l1, by rw [l2, g2], ?_, fun r c => ?_⟩
        · rw [l3, g3, k3]; exact (pre_succ (fun i => (C i).cl.size) ⟨j, hj⟩).symm
        · have p2 := pre_succ (fun j => ∑ i, hval (son i j) r c) ⟨j, hj⟩
          simp only at p2 k4
          rw [p2, l4, g4, g3, ← o, k4]
    · rw [if_neg h2]
      have hn1 : n = 1 := by omega
      subst hn1
      refine Tot.mono (colmerge_tot (T := T) hT hm hs hrk hR ⟨0, hn⟩) ?_
      rintro x ⟨g1, g2, g3, g4⟩
      have o := segments_off hC ⟨0, hn⟩
      simp only [pre_zero, add_zero] at o
      have e := hC.2
      rw [Fin.sum_univ_one] at e
      replace g3 : x.B.rows = s.cl.size := by rw [g3]; exact e
      refine ⟨g1, g2, g3, fun r c => ?_⟩
      rw [mat_hval g2 g3, hval_super, ← o, g4]
      exact Finset.sum_congr rfl fun i _ => by rw [Fin.sum_univ_one]; rfl
  · rw [if_neg h1]
    have hm1 : m = 1 := by omega
    subst hm1
    have e := hR.2
    rw [Fin.sum_univ_one] at e
    have oR := segments_off hR ⟨0, hm⟩
    simp only [pre_zero, add_zero] at oR
    refine Tot.bind (sonRk_tot hs hrk ⟨0, hm⟩ ⟨0, hn⟩) ?_
    rintro s1 - ⟨e1, e2, e3, e4⟩
    refine Tot.bind (copyNew_tot e1) ?_
    rintro r1 - ⟨f1, f2, f3, f4⟩
    have := forUp_inv (lo := 1) (hi := n) (s := r1) (body := fun j r1 => do
          let s1 ← sonRk son 0 j
          T.merge false s1 r1) (fun j x => RkOk x ∧ x.A.rows = t.cl.size ∧ x.B.rows = pre (fun i => (C i).cl.size) j ∧
      ∀ r c, mat t.cl.off s.cl.off x r c = pre (fun j => hval (son ⟨0, hm⟩ j) r c) j) hn ?_ ?_
    · obtain ⟨x, hx, g1, g2, g3, g4⟩ := this
      have g3' : x.B.rows = s.cl.size := by rw [g3, pre_all]; exact hC.2
      refine ⟨x, hx, g1, g2, g3', fun r c => ?_⟩
      rw [mat_hval g2 g3', g4, pre_all, hval_super, Fin.sum_univ_one]; rfl
    · have p1 := pre_succ (fun i => (C i).cl.size) ⟨0, hn⟩
      simp only [pre_zero, zero_add] at p1
      have o := segments_off hC ⟨0, hn⟩
      simp only [pre_zero, add_zero] at o
      refine ⟨f1, by rw [f2, e2]; exact e, by rw [f3, e3]; exact p1.symm, fun r c => ?_⟩
      have p2 := pre_succ (fun j => hval (son ⟨0, hm⟩ j) r c) ⟨0, hn⟩
      simp only [pre_zero, zero_add] at p2
      rw [p2, f4, ← e4, o, oR]
    · intro j x h1 h2 ⟨g1, g2, g3, g4⟩
      refine Tot.bind (sonRk_tot hs hrk ⟨0, hm⟩ ⟨j, h2⟩) ?_
      rintro s2 - ⟨k1, k2, k3, k4⟩
      refine Tot.mono (mergeRow_mat hT k1 g1 (by rw [k2, g2]; exact e)) ?_
      rintro w ⟨l1, l2, l3, l4⟩
      have o := segments_off hC ⟨j, h2⟩
      refine ⟨l1, by rw [l2, g2], ?_, fun r c => ?_⟩
      · rw [l3, g3, k3]; exact (pre_succ (fun i => (C i).cl.size) ⟨j, h2⟩).symm
      · have p2 := pre_succ (fun j => hval (son ⟨0, hm⟩ j) r c) ⟨j, h2⟩
        simp only at p2 o
        rw [p2, l4, g4, g3, ← o, ← k4, oR]
end

/-! ### loops over the sons of the target -/

theorem atFlat_eq {m n : Nat} (son : Fin m → Fin n → HV G K) (i : Fin m) (j : Fin n) (f : HV G K → R (HV G K)) :
    atFlat son (i.1 + j.1 * m) f = (do let v ← f (son i j); pure (setSon son i j v)) := by
  have h1 : (i.1 + j.1 * m) % m = i.1 := by rw [Nat.add_mul_mod_self_right]; exact Nat.mod_eq_of_lt i.2
  have h2 : (i.1 + j.1 * m) / m = j.1 := by
    rw [Nat.add_mul_div_right _ _ i.pos, Nat.div_eq_of_lt i.2, Nat.zero_add]
  unfold atFlat
  rw [dif_pos ⟨by rw [h1]; exact i.2, by rw [h2]; exact j.2⟩]
  simp only [h1, h2]

theorem loopFlat {m n : Nat} (i : Fin m) (k : Fin n) (f : Nat → HV G K → R (HV G K)) {lo hi : Nat}
    (son : Fin m → Fin n → HV G K) :
    forUp lo hi (fun j s => atFlat s (i.1 + k.1 * m) (f j)) son =
      (do let v ← forUp lo hi f (son i k); pure (setSon son i k v)) := by
  unfold forUp
  generalize hi - lo = N
  induction N generalizing lo son with
  | zero =>
    show Except.ok son = Except.ok (setSon son i k (son i k))
    congr 1
    funext i' k'
    unfold setSon
    by_cases h : i' = i ∧ k' = k
    · rw [if_pos h, h.1, h.2]
    · rw [if_neg h]
  | succ N ih =>
    simp only [loopN]
    rw [atFlat_eq, bind_assoc, bind_assoc]
    congr 1
    funext v
    rw [pure_bind, ih, setSon_same]
    congr 1
    funext w
    congr 1
    funext i' k'
    unfold setSon
    by_cases h : i' = i ∧ k' = k
    · rw [if_pos h, if_pos h]
    · rw [if_neg h, if_neg h, if_neg h]

/-- the triple loop of the multiplication -/
theorem gridloop {m n M : Nat} {call : Nat → Nat → Nat → HV G K → R (HV G K)} {P : Fin m → Fin n → HV G K → Prop}
    (son : Fin m → Fin n → HV G K) (h : ∀ i k, Tot (forUp 0 M (fun j => call i.1 j k.1) (son i k)) (P i k)) :
    Tot (forUp 0 n (fun k s => forUp 0 m (fun i s => forUp 0 M (fun j s =>
      atFlat s (i + k * m) (call i j k)) s) s) son) (fun s' => ∀ i k, P i k (s' i k)) := by
  have := forUp_inv (lo := 0) (hi := n) (s := son) (body := fun k s => forUp 0 m (fun i s => forUp 0 M (fun j s =>
      atFlat s (i + k * m) (call i j k)) s) s)
    (fun k s => ∀ i (k' : Fin n), (k'.1 < k → P i k' (s i k')) ∧ (k ≤ k'.1 → s i k' = son i k')) (Nat.zero_le _) ?_ ?_
  · obtain ⟨s', e, g⟩ := this
    exact ⟨s', e, fun i k => (g i k).1 k.2⟩
  · exact fun i k => ⟨fun h => absurd h (Nat.not_lt_zero _), fun _ => rfl⟩
  · intro k s _ hk g
    have := forUp_inv (lo := 0) (hi := m) (s := s) (body := fun i s => forUp 0 M (fun j s =>
        atFlat s (i + k * m) (call i j k)) s)
      (fun i s' => (∀ i' (k' : Fin n), k'.1 ≠ k → s' i' k' = s i' k') ∧ ∀ i' : Fin m,
        (i'.1 < i → P i' ⟨k, hk⟩ (s' i' ⟨k, hk⟩)) ∧ (i ≤ i'.1 → s' i' ⟨k, hk⟩ = s i' ⟨k, hk⟩)) (Nat.zero_le _) ?_ ?_
    · obtain ⟨s', e, g1, g2⟩ := this
      refine ⟨s', e, fun i k' => ⟨fun h => ?_, fun h => ?_⟩⟩
      · by_cases hkk : k'.1 = k
        · have : k' = ⟨k, hk⟩ := Fin.ext hkk
          rw [this]; exact (g2 i).1 i.2
        · rw [g1 i k' hkk]; exact (g i k').1 (by omega)
      · rw [g1 i k' (by omega)]; exact (g i k').2 (by omega)
    · exact ⟨fun _ _ _ => rfl, fun i' => ⟨fun h => absurd h (Nat.not_lt_zero _), fun _ => rfl⟩⟩
    · intro i s' _ hi ⟨g1, g2⟩
      have e := loopFlat (⟨i, hi⟩ : Fin m) (⟨k, hk⟩ : Fin n) (fun j => call i j k) (lo := 0) (hi := M) s'
      simp only at e
      rw [e, (g2 ⟨i, hi⟩).2 (le_refl _), (g ⟨i, hi⟩ ⟨k, hk⟩).2 (le_refl _)]
      refine Tot.bind (h ⟨i, hi⟩ ⟨k, hk⟩) ?_
      rintro v - hv
      refine Tot.pure ⟨fun i' k' hk' => ?_, fun i' => ⟨fun h => ?_, fun h => ?_⟩⟩
      · rw [setSon_ne (fun h => hk' (congrArg Fin.val h.2))]; exact g1 i' k' hk'
      · by_cases hii : i' = ⟨i, hi⟩
        · rw [hii, setSon_same]; exact hv
        · rw [setSon_ne (fun h => hii h.1)]
          refine (g2 i').1 ?_
          have : i'.1 ≠ i := fun h => hii (Fin.ext h)
          omega
      · rw [setSon_ne (fun h' => by have := congrArg Fin.val h'.1; simp only at this; omega)]
        exact (g2 i').2 (by omega)

/-- the double loop of the addition -/
theorem gridloopFin {m n : Nat} {f : Fin m → Fin n → HV G K → R (HV G K)} {P : Fin m → Fin n → HV G K → Prop}
    (son : Fin m → Fin n → HV G K) (h : ∀ i k, Tot (f i k (son i k)) (P i k)) :
    Tot (foldFinM n (fun k s => foldFinM m (fun i s => atFlat s (i.1 + k.1 * m) (f i k)) s) son)
      (fun s' => ∀ i k, P i k (s' i k)) := by
  refine Tot.mono (foldFinM_tot (P := fun k s => ∀ i (k' : Fin n), (k'.1 < k → P i k' (s i k')) ∧
    (k ≤ k'.1 → s i k' = son i k')) ?_ ?_) (fun s' g i k => (g i k).1 k.2)
  · exact fun i k => ⟨fun h => absurd h (Nat.not_lt_zero _), fun _ => rfl⟩
  · intro k s g
    refine Tot.mono (foldFinM_tot (P := fun i s' => (∀ i' (k' : Fin n), k' ≠ k → s' i' k' = s i' k') ∧ ∀ i' : Fin m,
        (i'.1 < i → P i' k (s' i' k)) ∧ (i ≤ i'.1 → s' i' k = s i' k)) ?_ ?_) ?_
    · exact ⟨fun _ _ _ => rfl, fun i' => ⟨fun h => absurd h (Nat.not_lt_zero _), fun _ => rfl⟩⟩
    · rintro i s' ⟨g1, g2⟩
      rw [atFlat_eq, (g2 i).2 (le_refl _), (g i k).2 (le_refl _)]
      refine Tot.bind (h i k) ?_
      rintro v - hv
      refine Tot.pure ⟨fun i' k' hk' => ?_, fun i' => ⟨fun h => ?_, fun h => ?_⟩⟩
      · rw [setSon_ne (fun h => hk' h.2)]; exact g1 i' k' hk'
      · by_cases hii : i' = i
        · rw [hii, setSon_same]; exact hv
        · rw [setSon_ne (fun h => hii h.1)]
          refine (g2 i').1 ?_
          have : i'.1 ≠ i.1 := fun h => hii (Fin.ext h)
          omega
      · rw [setSon_ne (fun h' => by have := congrArg Fin.val h'.1; omega)]
        exact (g2 i').2 (by omega)
    · rintro s' ⟨g1, g2⟩ i k'
      refine ⟨fun h => ?_, fun h => ?_⟩
      · by_cases hkk : k' = k
        · rw [hkk]; exact (g2 i).1 i.2
        · rw [g1 i k' hkk]
          have : k'.1 ≠ k.1 := fun h => hkk (Fin.ext h)
          exact (g i k').1 (by omega)
      · rw [g1 i k' (fun e => by rw [e] at h; omega)]; exact (g i k').2 (by omega)

end HV
end H2
