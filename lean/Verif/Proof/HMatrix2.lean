import Verif.Proof.HMatrixSymm
import Verif.Proof.Block

set_option linter.unusedSectionVars false

namespace H2
open Spec Dense

section
variable {K : Type}

/-- a double loop over blocks with separate memory -/
theorem visit2 {rs cs : Nat} {f : Fin rs → Fin cs → Mem K → R (Mem K)} {C : Fin rs → Fin cs → Nat → Prop}
    {P Q : Fin rs → Fin cs → Mem K → Prop} {m0 : Mem K}
    (hdis : ∀ i j i' j', (i, j) ≠ (i', j') → Disj (C i j) (C i' j'))
    (hP : ∀ i j m m', (∀ c, C i j c → m' c = m c) → P i j m → P i j m')
    (hQ : ∀ i j m m', (∀ c, C i j c → m' c = m c) → Q i j m → Q i j m')
    (h0 : ∀ i j, P i j m0)
    (hb : ∀ i j m, P i j m → Tot (f i j m) fun m' => Q i j m' ∧ Frame (C i j) m m') :
    Tot (foldFinM cs (fun j m => foldFinM rs (fun i m => f i j m) m) m0) fun m' =>
      (∀ i j, Q i j m') ∧ Frame (fun c => ∃ i j, C i j c) m0 m' := by
  refine (foldFinM_tot (fun k (m : Mem K) => (∀ i j, j.1 < k → Q i j m) ∧ (∀ i j, k ≤ j.1 → P i j m) ∧
    Frame (fun c => ∃ i j, C i j c) m0 m) ⟨fun i j h => absurd h (Nat.not_lt_zero _), fun i j _ => h0 i j,
    fun _ _ => rfl⟩ ?_).mono fun m h => ⟨fun i j => h.1 i j j.2, h.2.2⟩
  rintro j m ⟨a1, a2, a3⟩
  refine (foldFinM_tot (fun k (m : Mem K) => (∀ i j', j'.1 < j.1 ∨ (j' = j ∧ i.1 < k) → Q i j' m) ∧
    (∀ i j', (j.1 < j'.1 ∨ (j' = j ∧ k ≤ i.1)) → P i j' m) ∧ Frame (fun c => ∃ i j, C i j c) m0 m)
    ⟨fun i j' h => ?_, fun i j' h => ?_, a3⟩ ?_).mono ?_
  · rcases h with h | h
    · exact a1 i j' h
    · exact absurd h.2 (Nat.not_lt_zero _)
  · rcases h with h | h
    · exact a2 i j' h.le
    · exact a2 i j' (by rw [h.1])
  · rintro i m1 ⟨b1, b2, b3⟩
    refine (hb i j m1 (b2 i j (Or.inr ⟨rfl, le_rfl⟩))).mono fun m2 ⟨c1, c2⟩ => ?_
    have keep : ∀ i' j', (i', j') ≠ (i, j) → ∀ c, C i' j' c → m2 c = m1 c := fun i' j' hne c hc =>
      c2 c (hdis i' j' i j hne c hc)
    refine ⟨fun i' j' h => ?_, fun i' j' h => ?_, fun c hc => ?_⟩
    · by_cases e : (i', j') = (i, j)
      · cases e; exact c1
      · refine hQ i' j' m1 m2 (keep i' j' e) (b1 i' j' ?_)
        rcases h with h | ⟨h, h'⟩
        · exact Or.inl h
        · refine Or.inr ⟨h, ?_⟩
          have : i'.1 ≠ i.1 := fun e' => e (by rw [h, Fin.ext e'])
          omega
    · refine hP i' j' m1 m2 (keep i' j' ?_) (b2 i' j' ?_)
      · rintro e; cases e; rcases h with h | h <;> omega
      · rcases h with h | h
        · exact Or.inl h
        · exact Or.inr ⟨h.1, by omega⟩
    · rw [c2 c fun h => hc ⟨i, j, h⟩]; exact b3 c hc
  · rintro m1 ⟨b1, b2, b3⟩
    refine ⟨fun i j' h => b1 i j' ?_, fun i j' h => b2 i j' (Or.inl (by omega)), b3⟩
    by_cases e : j'.1 < j.1
    · exact Or.inl e
    · exact Or.inr ⟨Fin.ext (by omega), i.2⟩
end

namespace HMat
variable {G : Type} {K : Type} [Field K] [StarRing K]

theorem place_local {h : HMat G} {m m' : Mem K} (ho : HOk h) (hv : HValid m h) (e : ∀ c, HCell h c → m' c = m c) :
    HValid m' h ∧ ∀ r c, place m' h r c = place m h r c :=
  place_frame (S := fun c => ¬ HCell h c) (fun c hc => e c (not_not.mp hc)) ho hv fun _ hc hn => hn hc

theorem scale_tot (alpha : K) : ∀ {h : HMat G} {m : Mem K}, HOk h → HValid m h → HDisj h →
    Tot (scale alpha h m) fun m' => (HValid m' h ∧ ∀ r c, place m' h r c = alpha * place m h r c) ∧
      Frame (HCell h) m m' := by
  intro h
  induction h with
  | rk t s d r =>
    rintro m ⟨h1, h2⟩ hv -
    simp only [scale]
    refine (Rk.scale_tot hv alpha).mono fun m' ⟨g1, g2, g3⟩ => ⟨⟨g1, fun i j => ?_⟩, g2⟩
    rw [place_rk', place_rk']
    by_cases hc : t.cl.off ≤ i ∧ i < t.cl.off + t.cl.size ∧ s.cl.off ≤ j ∧ j < s.cl.off + s.cl.size
    · rw [if_pos hc, if_pos hc, g3 _ (by omega) _ (by omega)]
    · rw [if_neg hc, if_neg hc, mul_zero]
  | full t s d f =>
    rintro m ⟨h1, h2⟩ hv -
    simp only [scale]
    refine (Dense.scale_tot hv alpha).mono fun m' ⟨g1, g2, g3⟩ => ⟨⟨g1, fun i j => ?_⟩, g3⟩
    rw [place_full', place_full']
    by_cases hc : t.cl.off ≤ i ∧ i < t.cl.off + t.cl.size ∧ s.cl.off ≤ j ∧ j < s.cl.off + s.cl.size
    · rw [if_pos hc, if_pos hc, g2 _ (by omega) _ (by omega)]
    · rw [if_neg hc, if_neg hc, mul_zero]
  | super t s d rs cs son ih =>
    rintro m ⟨_, _, _, hs⟩ hv ⟨hd, hds⟩
    simp only [scale]
    refine (visit2 (C := fun i j => HCell (son i j))
      (P := fun i j m1 => HValid m1 (son i j) ∧ ∀ r c, place m1 (son i j) r c = place m (son i j) r c)
      (Q := fun i j m1 => HValid m1 (son i j) ∧ ∀ r c, place m1 (son i j) r c = alpha * place m (son i j) r c)
      hd ?_ ?_ (fun i j => ⟨hv i j, fun _ _ => rfl⟩) ?_).mono ?_
    · rintro i j m1 m2 e ⟨p1, p2⟩
      obtain ⟨q1, q2⟩ := place_local (hs i j) p1 e
      exact ⟨q1, fun r c => by rw [q2, p2]⟩
    · rintro i j m1 m2 e ⟨p1, p2⟩
      obtain ⟨q1, q2⟩ := place_local (hs i j) p1 e
      exact ⟨q1, fun r c => by rw [q2, p2]⟩
    · rintro i j m1 ⟨p1, p2⟩
      refine (ih i j (hs i j) p1 (hds i j)).mono fun m2 ⟨q1, q2⟩ => ⟨⟨q1.1, fun r c => ?_⟩, q2⟩
      rw [q1.2, p2]
    · rintro m' ⟨g1, g2⟩
      refine ⟨⟨fun i j => (g1 i j).1, fun r c => ?_⟩, g2⟩
      simp only [place_super, Finset.mul_sum]
      exact Finset.sum_congr rfl fun j _ => Finset.sum_congr rfl fun i _ => (g1 i j).2 r c

/-! ### conversion to and from block trees -/

theorem rc_update (h : HMat G) : h.update.rc = h.rc := by cases h <;> rfl
theorem cc_update (h : HMat G) : h.update.cc = h.cc := by cases h <;> rfl

theorem rc_buildFromBlock (adr : CRef G → CRef G → Nat × Nat) (k : Nat) (b : Block G) :
    (buildFromBlock adr k b).rc = b.rc ∧ (buildFromBlock adr k b).cc = b.cc := by
  cases b with
  | mk rc cc a d m n son =>
    simp only [buildFromBlock]
    split
    · exact ⟨rfl, rfl⟩
    · split <;> exact ⟨rfl, rfl⟩

theorem toBlock_update (h : HMat G) : toBlock h.update = toBlock h := by cases h <;> simp [update, toBlock]

theorem block_eq_build {rc cc : CRef G} {a : Bool} {d m n : Nat} {son : Fin m → Fin n → Block G}
    (h : BDescExact (.mk rc cc a d m n son)) : Block.build rc cc a m n son = .mk rc cc a d m n son := by
  have h' := (forall_bnodes_mk (P := fun s => s.desc = (bnodes s).length)).mp h
  unfold Block.build
  rw [foldFin2_sum]
  have e := h'.1
  rw [bnodes_length] at e
  have e : d = 1 + ∑ j, ∑ i, (bnodes (son i j)).length := e
  rw [e]
  congr 2
  exact Finset.sum_congr rfl fun j _ => Finset.sum_congr rfl fun i _ => h'.2 i j _ (mem_bnodes_self _)

theorem toBlock_build (adr : CRef G → CRef G → Nat × Nat) (k : Nat) : ∀ {b : Block G}, BDescExact b →
    (∀ s ∈ bnodes b, if s.rsons * s.csons = 0 then s.rsons = 0 ∧ s.csons = 0 else s.a = false) →
    toBlock (buildFromBlock adr k b) = b := by
  intro b
  induction b with
  | mk rc cc a d m n son ih =>
    intro hd hl
    have hl' := forall_bnodes_mk.mp hl
    have hd' : ∀ i j, BDescExact (son i j) := fun i j =>
      (forall_bnodes_mk (P := fun s => s.desc = (bnodes s).length)).mp hd |>.2 i j
    have l0 : if m * n = 0 then m = 0 ∧ n = 0 else a = false := hl'.1
    simp only [buildFromBlock]
    by_cases hmn : m * n = 0
    · rw [if_pos hmn] at l0
      obtain ⟨rfl, rfl⟩ := l0
      have es : son = fun i _ => i.elim0 := by funext i; exact i.elim0
      have el : Block.leaf rc cc a = .mk rc cc a d 0 0 son := by
        rw [← block_eq_build hd]
        unfold Block.leaf
        rw [es]
      rw [if_neg (by simp)]
      cases a
      · simp only [Bool.false_eq_true, if_false, toBlock_update, newFull, toBlock]; exact el
      · simp only [if_true, toBlock_update, newRk, toBlock]; exact el
    · rw [if_neg hmn] at l0
      subst l0
      rw [if_pos hmn, toBlock_update, toBlock]
      have : (fun i j => toBlock (buildFromBlock adr k (son i j))) = son := by
        funext i j; exact ih i j (hd' i j) (hl'.2 i j)
      rw [this]
      exact block_eq_build hd

theorem desc_build (adr : CRef G → CRef G → Nat × Nat) (k : Nat) : ∀ {b : Block G}, BDescExact b →
    (∀ s ∈ bnodes b, s.rsons * s.csons = 0 → s.rsons = 0 ∧ s.csons = 0) →
    (buildFromBlock adr k b).desc = b.desc := by
  intro b
  induction b with
  | mk rc cc a d m n son ih =>
    intro hd hl
    have hl' := forall_bnodes_mk.mp hl
    have hd' : ∀ i j, BDescExact (son i j) := fun i j =>
      (forall_bnodes_mk (P := fun s => s.desc = (bnodes s).length)).mp hd |>.2 i j
    have e : d = (Block.build rc cc a m n son).desc := by rw [block_eq_build hd]; rfl
    simp only [Block.build, Block.desc, foldFin2_sum] at e
    simp only [buildFromBlock, Block.desc]
    by_cases hmn : m * n = 0
    · obtain ⟨rfl, rfl⟩ := hl'.1 hmn
      rw [if_neg (by simp)]
      simp only [Finset.univ_eq_empty, Finset.sum_empty, add_zero] at e
      cases a <;> simp [update, newFull, newRk, desc, e]
    · rw [if_pos hmn]
      simp only [update, desc, foldFin2_sum]
      rw [e]
      congr 1
      exact Finset.sum_congr rfl fun j _ => Finset.sum_congr rfl fun i _ => ih i j (hd' i j) (hl'.2 i j)

theorem segments_sons {t : CRef G} (h : Consistent t.cl) (hn : 0 < t.nsons) : Segments t t.son := by
  have ht := tiles_ref h hn
  have gen : ∀ (ss : List (Cluster G)) (a b : Nat), Tiles a ss b →
      (∀ i : Fin ss.length, ss[i].off = a + ∑ k : Fin ss.length, if k.1 < i.1 then ss[k].size else 0) ∧
      a + ∑ k : Fin ss.length, ss[k].size = b := by
    intro ss
    induction ss with
    | nil => intro a b h; exact ⟨fun i => i.elim0, by simpa [Tiles] using h⟩
    | cons s ss ih =>
      rintro a b ⟨e1, e2, e3⟩
      obtain ⟨i1, i2⟩ := ih _ _ e3
      constructor
      · intro i
        rw [show (∑ k : Fin (s :: ss).length, if k.1 < i.1 then (s :: ss)[k].size else 0) =
          (if 0 < i.1 then s.size else 0) + ∑ k : Fin ss.length, if k.1 + 1 < i.1 then ss[k].size else 0 from
          Fin.sum_univ_succ (n := ss.length) fun k => if k.1 < i.1 then (s :: ss)[k].size else 0]
        match i with
        | ⟨0, _⟩ => simp [e1]
        | ⟨i + 1, h⟩ =>
          have := i1 ⟨i, by simpa using h⟩
          simp only [Fin.getElem_fin, List.getElem_cons_succ, 
            Nat.succ_pos, if_true, Nat.add_lt_add_iff_right] at this ⊢
          rw [this, Nat.add_assoc]
      · rw [show (∑ k : Fin (s :: ss).length, (s :: ss)[k].size) = s.size + ∑ k : Fin ss.length, ss[k].size from
          Fin.sum_univ_succ (n := ss.length) fun k => (s :: ss)[k].size]
        omega
  obtain ⟨g1, g2⟩ := gen _ _ _ ht
  exact ⟨g1, by have : ∑ k : Fin t.nsons, (t.son k).cl.size = ∑ k : Fin t.cl.sons.length, t.cl.sons[k].size := rfl
                omega⟩

theorem segments_self (t : CRef G) : Segments t (fun _ : Fin 1 => t) := by
  constructor
  · intro i; simp
  · simp

theorem hok_update {h : HMat G} (ho : HOk h) : HOk h.update := by cases h <;> exact ho

theorem hok_build (adr : CRef G → CRef G → Nat × Nat) (k : Nat) {rc cc : CRef G} {b : Block G} (h : BlockTree rc cc b)
    (hr : Consistent rc.cl) (hc : Consistent cc.cl) : HOk (buildFromBlock adr k b) := by
  induction h with
  | leaf =>
    simp only [buildFromBlock]
    rw [if_neg (by simp)]
    split
    · exact ⟨rfl, rfl⟩
    · exact ⟨rfl, rfl⟩
  | @both rc cc a d son h1 h2 hs ih =>
    simp only [buildFromBlock]
    rw [if_pos (Nat.mul_ne_zero (by omega) (by omega))]
    refine hok_update ⟨h1, h2, ⟨rc.son, cc.son, fun i j => ?_, segments_sons hr h1, segments_sons hc h2⟩,
      fun i j => ih i j (consistent_son hr i) (consistent_son hc j)⟩
    have := rc_buildFromBlock adr k (son i j)
    have := blockTree_refs (hs i j)
    simp_all
  | @rows rc cc a d son h1 hs ih =>
    simp only [buildFromBlock]
    rw [if_pos (Nat.mul_ne_zero (by omega) (by omega))]
    refine hok_update ⟨h1, by omega, ⟨rc.son, fun _ => cc, fun i j => ?_, segments_sons hr h1, segments_self cc⟩,
      fun i j => ih i j (consistent_son hr i) hc⟩
    have := rc_buildFromBlock adr k (son i j)
    have := blockTree_refs (hs i j)
    simp_all
  | @cols rc cc a d son h1 hs ih =>
    simp only [buildFromBlock]
    rw [if_pos (Nat.mul_ne_zero (by omega) (by omega))]
    refine hok_update ⟨by omega, h1, ⟨fun _ => rc, cc.son, fun i j => ?_, segments_self rc, segments_sons hc h1⟩,
      fun i j => ih i j hr (consistent_son hc j)⟩
    have := rc_buildFromBlock adr k (son i j)
    have := blockTree_refs (hs i j)
    simp_all

theorem hnodes_length_super {t s : CRef G} {d m n : Nat} {son : Fin m → Fin n → HMat G} :
    (hnodes (.super t s d m n son)).length = 1 + ∑ j, ∑ i, (hnodes (son i j)).length := by
  rw [hnodes, List.length_cons, List.length_flatMap, add_comm, Fin.sum_univ_def]
  congr 2
  apply List.map_congr_left
  intro j _
  rw [List.length_flatMap, Fin.sum_univ_def]

theorem hdesc_build (adr : CRef G → CRef G → Nat × Nat) (k : Nat) (b : Block G) : HDescExact (buildFromBlock adr k b) := by
  induction b with
  | mk rc cc a d m n son ih =>
    simp only [buildFromBlock]
    split
    · intro s hs
      simp only [update] at hs
      rw [hnodes, List.mem_cons] at hs
      rcases hs with rfl | hs
      · rw [hnodes_length_super]
        simp only [desc, foldFin2_sum]
        congr 1
        refine Finset.sum_congr rfl fun j _ => Finset.sum_congr rfl fun i _ => ih i j _ ?_
        cases hh : buildFromBlock adr k (son i j) <;> simp [hnodes]
      · simp only [List.mem_flatMap, List.mem_finRange, true_and] at hs
        obtain ⟨j, i, hs⟩ := hs
        exact ih i j s hs
    · split
      · intro s hs
        simp only [update, newRk, hnodes, List.mem_singleton] at hs
        subst hs; rfl
      · intro s hs
        simp only [update, newFull, hnodes, List.mem_singleton] at hs
        subst hs; rfl

/-- a matrix for a nonstrict block tree of a single cluster tree, with no admissible diagonal block, can be used in
`addevalsymm` -/
theorem symmOk_nonstrict (adr : CRef G → CRef G → Nat × Nat) (k : Nat) (admis : Cluster G → Cluster G → Bool)
    (hna : ∀ t, admis t t = false) : ∀ (n : Nat) (t : CRef G), sizeOf t.cl < n →
    SymmOk (buildFromBlock adr k (Block.buildNonstrict admis t t)) := by
  intro n
  induction n with
  | zero => intro t h; omega
  | succ n ih =>
    intro t ht
    rw [Block.buildNonstrict, hna, if_neg (by simp)]
    by_cases h : t.nsons * t.nsons = 0
    · rw [if_pos h]
      simp only [Block.leaf, Block.build, buildFromBlock]
      rw [if_neg (by simp), if_neg (by simp)]
      rfl
    · rw [if_neg h]
      simp only [Block.build, buildFromBlock]
      rw [if_pos h]
      refine ⟨rfl, rfl, rfl, fun i hi => ?_, fun i => ?_⟩
      · rw [(rc_buildFromBlock adr k _).1]
        exact (blockTree_refs (nonstrict_blockTree admis _ _)).1
      · exact ih (t.son i) (lt_of_lt_of_le (CRef.sizeOf_son t i) (by omega))

theorem symmOk_strict (adr : CRef G → CRef G → Nat × Nat) (k : Nat) (admis : Cluster G → Cluster G → Bool)
    (hna : ∀ t, admis t t = false) : ∀ (n : Nat) (t : CRef G), sizeOf t.cl < n →
    SymmOk (buildFromBlock adr k (Block.buildStrict admis t t)) := by
  intro n
  induction n with
  | zero => intro t h; omega
  | succ n ih =>
    intro t ht
    rw [Block.buildStrict, hna, if_neg (by simp)]
    by_cases h : t.nsons = 0
    · rw [if_pos h, if_pos h]
      simp only [Block.leaf, Block.build, buildFromBlock]
      rw [if_neg (by simp), if_neg (by simp)]
      rfl
    · rw [if_neg h, if_neg h]
      simp only [Block.build, buildFromBlock]
      rw [if_pos (Nat.mul_ne_zero h h)]
      refine ⟨rfl, rfl, rfl, fun i hi => ?_, fun i => ?_⟩
      · rw [(rc_buildFromBlock adr k _).1]
        exact (blockTree_refs (strict_blockTree admis _ _)).1
      · exact ih (t.son i) (lt_of_lt_of_le (CRef.sizeOf_son t i) (by omega))

theorem blockTree_zero {rc cc : CRef G} {b : Block G} (h : BlockTree rc cc b) :
    ∀ s ∈ bnodes b, s.rsons * s.csons = 0 → s.rsons = 0 ∧ s.csons = 0 := by
  induction h with
  | leaf => exact forall_bnodes_mk.mpr ⟨fun _ => ⟨rfl, rfl⟩, fun i => i.elim0⟩
  | @both rc cc a d son h1 h2 hs ih =>
    refine forall_bnodes_mk.mpr ⟨fun h => ?_, ih⟩
    have h : rc.nsons * cc.nsons = 0 := h
    rcases Nat.mul_eq_zero.mp h with h | h <;> omega
  | @rows rc cc a d son h1 hs ih =>
    refine forall_bnodes_mk.mpr ⟨fun h => ?_, ih⟩
    have h : rc.nsons * 1 = 0 := h
    omega
  | @cols rc cc a d son h1 hs ih =>
    refine forall_bnodes_mk.mpr ⟨fun h => ?_, ih⟩
    have h : 1 * cc.nsons = 0 := h
    omega

theorem toBlock_a : ∀ h : HMat G, ∀ s ∈ bnodes (toBlock h), 0 < s.rsons → s.a = false := by
  intro h
  induction h with
  | rk t s d r =>
    simp only [toBlock, Block.leaf, Block.build]
    exact forall_bnodes_mk.mpr ⟨fun h => absurd h (by simp [Block.rsons]), fun i => i.elim0⟩
  | full t s d f =>
    simp only [toBlock, Block.leaf, Block.build]
    exact forall_bnodes_mk.mpr ⟨fun _ => rfl, fun i => i.elim0⟩
  | super t s d m n son ih =>
    simp only [toBlock, Block.build]
    exact forall_bnodes_mk.mpr ⟨fun _ => rfl, ih⟩

end HMat
end H2
