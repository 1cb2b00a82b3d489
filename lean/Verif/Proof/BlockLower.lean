import Verif.Proof.Block

set_option linter.unusedSectionVars false

namespace H2
open Spec
variable {K : Type _}

theorem lowerSons_ok {rc cc : CRef K} {diag : Fin rc.nsons → Fin cc.nsons → R (Block K)}
    {below : Fin rc.nsons → Fin cc.nsons → Block K} {son : Fin rc.nsons → Fin cc.nsons → Block K}
    (h : Block.lowerSons rc cc diag below = .ok son) :
    (0 < cc.nsons → cc.nsons ≤ rc.nsons) ∧
    ∀ i j, (i.1 < j.1 → son i j = Block.leaf (rc.son i) (cc.son j) true) ∧
      (i.1 = j.1 → diag i j = .ok (son i j)) ∧ (j.1 < i.1 → son i j = below i j) := by
  unfold Block.lowerSons at h
  rw [bind_ok] at h
  obtain ⟨cols, hc, h⟩ := h
  rw [pure_ok] at h
  subst h
  rw [seqFin_ok] at hc
  constructor
  · intro h0
    have := hc ⟨cc.nsons - 1, by omega⟩
    by_contra hlt
    rw [if_pos (by simp only; omega)] at this
    cases this
  · intro i j
    have hj := hc j
    rw [if_neg (by intro hle; rw [if_pos hle] at hj; cases hj), seqFin_ok] at hj
    have := hj i
    refine ⟨fun h => ?_, fun h => ?_, fun h => ?_⟩
    · rw [if_pos h] at this; exact (Except.ok.inj this).symm
    · rw [if_neg (by omega), if_pos h] at this; exact this
    · rw [if_neg (by omega), if_neg (by omega)] at this; exact (Except.ok.inj this).symm

theorem lowerSons_tot {rc cc : CRef K} {diag : Fin rc.nsons → Fin cc.nsons → R (Block K)}
    {below : Fin rc.nsons → Fin cc.nsons → Block K} (hle : cc.nsons ≤ rc.nsons)
    (hd : ∀ i j, i.1 = j.1 → Tot (diag i j) (fun _ => True)) :
    Tot (Block.lowerSons rc cc diag below) (fun _ => True) := by
  unfold Block.lowerSons
  refine Tot.bind (P := fun _ => True) ?_ (fun _ _ _ => ⟨_, rfl, trivial⟩)
  refine Tot.mono (seqFin_tot (P := fun _ _ => True) fun j => ?_) (fun _ _ => trivial)
  rw [if_neg (by have := j.2; omega)]
  refine Tot.mono (seqFin_tot (P := fun _ _ => True) fun i => ?_) (fun _ _ => trivial)
  split
  · exact ⟨_, rfl, trivial⟩
  · split
    · rename_i h; exact hd i j h
    · exact ⟨_, rfl, trivial⟩

/-- a property that passes from the three kinds of sons to the lower triangular block -/
theorem nonstrictLower_ind {admis : Cluster K → Cluster K → Bool} {rc cc : CRef K} {b : Block K}
    (h : Block.buildNonstrictLower admis rc cc = .ok b) :
    (b = Block.leaf rc cc true ∧ admis rc.cl cc.cl = true) ∨
    (b = Block.leaf rc cc false ∧ admis rc.cl cc.cl = false ∧ (rc.cl.sons = [] ∨ cc.cl.sons = [])) ∨
    (admis rc.cl cc.cl = false ∧ 0 < rc.nsons ∧ 0 < cc.nsons ∧ cc.nsons ≤ rc.nsons ∧
      ∃ son, b = Block.build rc cc false rc.nsons cc.nsons son ∧
      ∀ i j, (i.1 < j.1 → son i j = Block.leaf (rc.son i) (cc.son j) true) ∧
        (i.1 = j.1 → Block.buildNonstrictLower admis (rc.son i) (cc.son j) = .ok (son i j)) ∧
        (j.1 < i.1 → son i j = Block.buildNonstrict admis (rc.son i) (cc.son j))) := by
  rw [Block.buildNonstrictLower] at h
  split at h
  · rename_i ha; cases h; exact .inl ⟨rfl, ha⟩
  · rename_i ha
    simp only [Bool.not_eq_true] at ha
    split at h
    · rename_i h0
      cases h
      rw [Nat.mul_eq_zero, nsons_zero, nsons_zero] at h0
      exact .inr (.inl ⟨rfl, ha, h0⟩)
    · rename_i h0
      rw [bind_ok] at h
      obtain ⟨son, hs, h⟩ := h
      rw [pure_ok] at h
      obtain ⟨h1, h2⟩ := lowerSons_ok hs
      rw [Nat.mul_eq_zero, not_or] at h0
      exact .inr (.inr ⟨ha, by omega, by omega, h1 (by omega), son, h.symm, h2⟩)

theorem strictLower_ind {admis : Cluster K → Cluster K → Bool} {rc cc : CRef K} {b : Block K}
    (h : Block.buildStrictLower admis rc cc = .ok b) :
    (b = Block.buildStrict admis rc cc ∧ (admis rc.cl cc.cl = true ∨ rc.cl.sons = [] ∨ cc.cl.sons = [])) ∨
    (admis rc.cl cc.cl = false ∧ 0 < rc.nsons ∧ 0 < cc.nsons ∧ cc.nsons ≤ rc.nsons ∧
      ∃ son, b = Block.build rc cc false rc.nsons cc.nsons son ∧
      ∀ i j, (i.1 < j.1 → son i j = Block.leaf (rc.son i) (cc.son j) true) ∧
        (i.1 = j.1 → Block.buildStrictLower admis (rc.son i) (cc.son j) = .ok (son i j)) ∧
        (j.1 < i.1 → son i j = Block.buildStrict admis (rc.son i) (cc.son j))) := by
  rw [Block.buildStrictLower] at h
  rw [Block.buildStrict]
  split at h
  · rename_i ha; cases h; rw [if_pos ha]; exact .inl ⟨rfl, .inl ha⟩
  · rename_i ha
    rw [if_neg ha]
    simp only [Bool.not_eq_true] at ha
    split at h
    · rename_i h0
      rw [if_pos h0]
      have h0' := nsons_zero.1 h0
      split at h
      · rename_i h1; cases h; rw [if_pos h1]; exact .inl ⟨rfl, .inr (.inl h0')⟩
      · rename_i h1; cases h; rw [if_neg h1]; exact .inl ⟨rfl, .inr (.inl h0')⟩
    · rename_i h0
      rw [if_neg h0]
      split at h
      · rename_i h1; cases h; rw [if_pos h1]; exact .inl ⟨rfl, .inr (.inr (nsons_zero.1 h1))⟩
      · rename_i h1
        rw [bind_ok] at h
        obtain ⟨son, hs, h⟩ := h
        rw [pure_ok] at h
        obtain ⟨h2, h3⟩ := lowerSons_ok hs
        exact .inr ⟨ha, by omega, by omega, h2 (by omega), son, h.symm, h3⟩

theorem nonstrictLower_blockTree (admis : Cluster K → Cluster K → Bool) (rc cc : CRef K) (b : Block K)
    (h : Block.buildNonstrictLower admis rc cc = .ok b) : BlockTree rc cc b ∧ BDescExact b := by
  rcases nonstrictLower_ind h with ⟨rfl, _⟩ | ⟨rfl, _⟩ | ⟨_, h1, h2, _, son, rfl, hs⟩
  · exact ⟨leaf_blockTree .., bdescExact_leaf _ _ _⟩
  · exact ⟨leaf_blockTree .., bdescExact_leaf _ _ _⟩
  · have key : ∀ i j, BlockTree (rc.son i) (cc.son j) (son i j) ∧ BDescExact (son i j) := by
      intro i j
      rcases lt_trichotomy i.1 j.1 with hl | he | hg
      · rw [(hs i j).1 hl]; exact ⟨leaf_blockTree .., bdescExact_leaf _ _ _⟩
      · exact nonstrictLower_blockTree admis (rc.son i) (cc.son j) _ ((hs i j).2.1 he)
      · rw [(hs i j).2.2 hg]; exact ⟨nonstrict_blockTree .., nonstrict_desc _ _ _⟩
    exact ⟨.both h1 h2 (fun i j => (key i j).1), bdescExact_build (fun i j => (key i j).2)⟩
termination_by sizeOf rc.cl
decreasing_by exact CRef.sizeOf_son _ _

theorem strictLower_blockTree (admis : Cluster K → Cluster K → Bool) (rc cc : CRef K) (b : Block K)
    (h : Block.buildStrictLower admis rc cc = .ok b) : BlockTree rc cc b ∧ BDescExact b := by
  rcases strictLower_ind h with ⟨rfl, _⟩ | ⟨_, h1, h2, _, son, rfl, hs⟩
  · exact ⟨strict_blockTree .., strict_desc _ _ _⟩
  · have key : ∀ i j, BlockTree (rc.son i) (cc.son j) (son i j) ∧ BDescExact (son i j) := by
      intro i j
      rcases lt_trichotomy i.1 j.1 with hl | he | hg
      · rw [(hs i j).1 hl]; exact ⟨leaf_blockTree .., bdescExact_leaf _ _ _⟩
      · exact strictLower_blockTree admis (rc.son i) (cc.son j) _ ((hs i j).2.1 he)
      · rw [(hs i j).2.2 hg]; exact ⟨strict_blockTree .., strict_desc _ _ _⟩
    exact ⟨.both h1 h2 (fun i j => (key i j).1), bdescExact_build (fun i j => (key i j).2)⟩
termination_by sizeOf rc.cl
decreasing_by exact CRef.sizeOf_son _ _

theorem diagFits_self (t : Cluster K) : DiagFits t t := by
  induction t using Cluster.ind with
  | h i ss ih => exact .step le_rfl (fun k h1 _ => ih _ (List.getElem_mem h1))

theorem diagFits_cases {rc cc : CRef K} (h : DiagFits rc.cl cc.cl) (h1 : rc.nsons ≠ 0) (h2 : cc.nsons ≠ 0) :
    cc.nsons ≤ rc.nsons ∧ ∀ i j, i.1 = j.1 → DiagFits (rc.son i).cl (cc.son j).cl := by
  rw [Ne, nsons_zero] at h1 h2
  obtain ⟨p, t⟩ := rc
  obtain ⟨q, u⟩ := cc
  simp only at h h1 h2
  cases h with
  | stop h => exact absurd h (by tauto)
  | step ha hb =>
    refine ⟨ha, fun i j hij => ?_⟩
    obtain ⟨i, hi⟩ := i
    obtain ⟨j, hj⟩ := j
    simp only at hij
    subst hij
    exact hb i hi hj

theorem nonstrictLower_tot (admis : Cluster K → Cluster K → Bool) (rc cc : CRef K)
    (h : DiagFits rc.cl cc.cl) : Tot (Block.buildNonstrictLower admis rc cc) (fun _ => True) := by
  rw [Block.buildNonstrictLower]
  split
  · exact ⟨_, rfl, trivial⟩
  · split
    · exact ⟨_, rfl, trivial⟩
    · rename_i h0
      rw [Nat.mul_eq_zero, not_or] at h0
      obtain ⟨h1, h2⟩ := diagFits_cases h h0.1 h0.2
      exact Tot.bind (lowerSons_tot h1 (fun i j hij =>
        nonstrictLower_tot admis (rc.son i) (cc.son j) (h2 i j hij))) (fun _ _ _ => ⟨_, rfl, trivial⟩)
termination_by sizeOf rc.cl
decreasing_by exact CRef.sizeOf_son _ _

theorem strictLower_tot (admis : Cluster K → Cluster K → Bool) (rc cc : CRef K)
    (h : DiagFits rc.cl cc.cl) : Tot (Block.buildStrictLower admis rc cc) (fun _ => True) := by
  rw [Block.buildStrictLower]
  split
  · exact ⟨_, rfl, trivial⟩
  · split
    · split
      · exact ⟨_, rfl, trivial⟩
      · exact ⟨_, rfl, trivial⟩
    · rename_i h0
      split
      · exact ⟨_, rfl, trivial⟩
      · rename_i h0'
        obtain ⟨h1, h2⟩ := diagFits_cases h h0 h0'
        exact Tot.bind (lowerSons_tot h1 (fun i j hij =>
          strictLower_tot admis (rc.son i) (cc.son j) (h2 i j hij))) (fun _ _ _ => ⟨_, rfl, trivial⟩)
termination_by sizeOf rc.cl
decreasing_by exact CRef.sizeOf_son _ _

/-- the out-of-bounds access -/
theorem lowerSons_ub {rc cc : CRef K} {diag : Fin rc.nsons → Fin cc.nsons → R (Block K)}
    {below : Fin rc.nsons → Fin cc.nsons → Block K} (hlt : rc.nsons < cc.nsons) (son) :
    Block.lowerSons rc cc diag below ≠ .ok son := by
  intro h
  have := (lowerSons_ok h).1 (by omega)
  omega

/-! ### above the diagonal -/

theorem son_size {t : CRef K} (h : Consistent t.cl) (i : Fin t.nsons) :
    0 < (t.son i).cl.size ∧ t.cl.off ≤ (t.son i).cl.off ∧
      (t.son i).cl.off + (t.son i).cl.size ≤ t.cl.off + t.cl.size := by
  have hn : 0 < t.nsons := lt_of_le_of_lt (Nat.zero_le _) i.2
  have ht := tiles_ref h hn
  have h1 := tiles_within _ _ _ ht (t.son i).cl (List.getElem_mem i.2)
  have h2 := tiles_pos _ _ _ ht (t.son i).cl (List.getElem_mem i.2)
  omega

theorem tiles_order : ∀ (ss : List (Cluster K)) (a b : Nat), Tiles a ss b → ∀ i j (hi : i < ss.length)
    (hj : j < ss.length), i < j → ss[i].off + ss[i].size ≤ ss[j].off
  | [], _, _, _, i, _, hi, _, _ => by simp at hi
  | s :: ss, a, b, ⟨e1, e2, e3⟩, i, j, hi, hj, hij => by
    obtain ⟨j, rfl⟩ : ∃ k, j = k + 1 := ⟨j - 1, by omega⟩
    cases i with
    | zero =>
      have := tiles_within _ _ _ e3 (ss[j]'(by simpa using hj)) (List.getElem_mem _)
      simp only [List.getElem_cons_zero, List.getElem_cons_succ]
      omega
    | succ i =>
      simp only [List.getElem_cons_succ]
      exact tiles_order ss _ _ e3 i j (by simpa using hi) (by simpa using hj) (by omega)

theorem son_order {t : CRef K} (h : Consistent t.cl) (i j : Fin t.nsons) (hij : i.1 < j.1) :
    (t.son i).cl.off + (t.son i).cl.size ≤ (t.son j).cl.off :=
  tiles_order _ _ _ (tiles_ref h (lt_of_le_of_lt (Nat.zero_le _) i.2)) i.1 j.1 i.2 j.2 hij

/-- blocks of a block tree stay inside -/
theorem blockTree_within {rc cc : CRef K} {b : Block K} (h : BlockTree rc cc b) (hr : Consistent rc.cl)
    (hc : Consistent cc.cl) (hrp : 0 < rc.cl.size) (hcp : 0 < cc.cl.size) : ∀ s ∈ bnodes b,
    (rc.cl.off ≤ s.rc.cl.off ∧ s.rc.cl.off + s.rc.cl.size ≤ rc.cl.off + rc.cl.size ∧ 0 < s.rc.cl.size) ∧
    (cc.cl.off ≤ s.cc.cl.off ∧ s.cc.cl.off + s.cc.cl.size ≤ cc.cl.off + cc.cl.size ∧ 0 < s.cc.cl.size) := by
  induction h with
  | leaf =>
    rw [forall_bnodes_mk]
    exact ⟨⟨⟨le_rfl, le_rfl, hrp⟩, le_rfl, le_rfl, hcp⟩, fun i => i.elim0⟩
  | @both rc cc a d son h1 h2 hs ih =>
    rw [forall_bnodes_mk]
    refine ⟨⟨⟨le_rfl, le_rfl, hrp⟩, le_rfl, le_rfl, hcp⟩, fun i j s hsn => ?_⟩
    have e1 := son_size hr i
    have e2 := son_size hc j
    have := ih i j (consistent_son hr i) (consistent_son hc j) e1.1 e2.1 s hsn
    omega
  | @rows rc cc a d son h1 hs ih =>
    rw [forall_bnodes_mk]
    refine ⟨⟨⟨le_rfl, le_rfl, hrp⟩, le_rfl, le_rfl, hcp⟩, fun i j s hsn => ?_⟩
    have e1 := son_size hr i
    have := ih i j (consistent_son hr i) hc e1.1 hcp s hsn
    omega
  | @cols rc cc a d son h1 hs ih =>
    rw [forall_bnodes_mk]
    refine ⟨⟨⟨le_rfl, le_rfl, hrp⟩, le_rfl, le_rfl, hcp⟩, fun i j s hsn => ?_⟩
    have e2 := son_size hc j
    have := ih i j hr (consistent_son hc j) hrp e2.1 s hsn
    omega

theorem lowerLabel_below {P : Block K → Prop} {rc cc : CRef K} {b : Block K} (h : BlockTree rc cc b)
    (hr : Consistent rc.cl) (hc : Consistent cc.cl) (hrp : 0 < rc.cl.size) (hcp : 0 < cc.cl.size)
    (hlt : cc.cl.off + cc.cl.size ≤ rc.cl.off) (hP : ∀ s ∈ bnodes b, P s) :
    ∀ s ∈ bnodes b, LowerLabel P s := by
  intro s hs
  have := blockTree_within h hr hc hrp hcp s hs
  refine ⟨fun ha => ?_, fun _ => hP s hs⟩
  unfold Above at ha
  omega

theorem same_son {rc cc : CRef K} (he : rc.cl = cc.cl) (i : Fin rc.nsons) (j : Fin cc.nsons) (hij : i.1 = j.1) :
    (rc.son i).cl = (cc.son j).cl := by
  obtain ⟨p, t⟩ := rc
  obtain ⟨q, u⟩ := cc
  simp only at he
  subst he
  have : i = j := Fin.ext hij
  subst this; rfl

theorem son_order' {rc cc : CRef K} (he : rc.cl = cc.cl) (hr : Consistent rc.cl) (i : Fin rc.nsons)
    (j : Fin cc.nsons) :
    (i.1 < j.1 → (rc.son i).cl.off + (rc.son i).cl.size ≤ (cc.son j).cl.off) ∧
    (j.1 < i.1 → (cc.son j).cl.off + (cc.son j).cl.size ≤ (rc.son i).cl.off) := by
  obtain ⟨p, t⟩ := rc
  obtain ⟨q, u⟩ := cc
  simp only at he
  subst he
  exact ⟨son_order (t := ⟨p, t⟩) hr i j, son_order (t := ⟨p, t⟩) hr j i⟩

theorem leaf_above {P : Block K → Prop} {rc cc : CRef K} (h : rc.cl.off + rc.cl.size ≤ cc.cl.off) :
    ∀ s ∈ bnodes (Block.leaf rc cc true), LowerLabel P s := by
  unfold Block.leaf Block.build
  rw [forall_bnodes_mk]
  exact ⟨⟨fun _ => ⟨rfl, rfl⟩, fun hn => absurd h hn⟩, fun i => i.elim0⟩

theorem diag_not_above {b : Block K} (he : b.rc.cl = b.cc.cl) (hp : 0 < b.cc.cl.size) : ¬ Above b := by
  unfold Above; rw [he]; omega

theorem nonstrictLower_label (admis : Cluster K → Cluster K → Bool) (rc cc : CRef K) (b : Block K)
    (he : rc.cl = cc.cl) (hr : Consistent rc.cl) (hp : 0 < rc.cl.size)
    (h : Block.buildNonstrictLower admis rc cc = .ok b) :
    ∀ s ∈ bnodes b, LowerLabel (NonstrictLabel admis) s := by
  have hnot : ∀ {a d m n} {son : Fin m → Fin n → Block K}, ¬ Above (Block.mk rc cc a d m n son) :=
    fun {_ _ _ _ _} => diag_not_above he (show 0 < cc.cl.size by rw [← he]; exact hp)
  rcases nonstrictLower_ind h with ⟨rfl, ha⟩ | ⟨rfl, ha, hz⟩ | ⟨ha, h1, h2, _, son, rfl, hs⟩
  · unfold Block.leaf Block.build
    rw [forall_bnodes_mk]
    exact ⟨⟨fun h => absurd h hnot, fun _ => ⟨ha.symm, by simp [Block.rsons, Block.csons, Block.a]⟩⟩,
      fun i => i.elim0⟩
  · unfold Block.leaf Block.build
    rw [forall_bnodes_mk]
    exact ⟨⟨fun h => absurd h hnot, fun _ => ⟨ha.symm,
      by simp [Block.rsons, Block.csons, Block.a, Block.rc, Block.cc, hz]⟩⟩, fun i => i.elim0⟩
  · unfold Block.build
    rw [forall_bnodes_mk]
    have hmn : rc.nsons * cc.nsons ≠ 0 := Nat.mul_ne_zero (by omega) (by omega)
    refine ⟨⟨fun h => absurd h hnot, fun _ => ⟨ha.symm, ?_⟩⟩, fun i j => ?_⟩
    · have e1 : rc.cl.sons ≠ [] := fun e => by rw [← nsons_zero] at e; omega
      have e2 : cc.cl.sons ≠ [] := fun e => by rw [← nsons_zero] at e; omega
      simp only [Block.rsons, Block.csons, Block.a, Block.rc, Block.cc]
      simp [hmn, e1, e2]
    · have s1 := son_size hr i
      have s2 := son_size (he ▸ hr) j
      rcases lt_trichotomy i.1 j.1 with hl | hd | hg
      · rw [(hs i j).1 hl]; exact leaf_above ((son_order' he hr i j).1 hl)
      · exact nonstrictLower_label admis (rc.son i) (cc.son j) _ (same_son he i j hd) (consistent_son hr i) s1.1
          ((hs i j).2.1 hd)
      · rw [(hs i j).2.2 hg]
        exact lowerLabel_below (nonstrict_blockTree ..) (consistent_son hr i) (consistent_son (he ▸ hr) j)
          s1.1 s2.1 ((son_order' he hr i j).2 hg) (nonstrict_label _ _ _)
termination_by sizeOf rc.cl
decreasing_by exact CRef.sizeOf_son _ _

theorem strictLower_label (admis : Cluster K → Cluster K → Bool) (rc cc : CRef K) (b : Block K)
    (he : rc.cl = cc.cl) (hr : Consistent rc.cl) (hp : 0 < rc.cl.size)
    (h : Block.buildStrictLower admis rc cc = .ok b) :
    ∀ s ∈ bnodes b, LowerLabel (StrictLabel admis) s := by
  have hnot : ∀ {a d m n} {son : Fin m → Fin n → Block K}, ¬ Above (Block.mk rc cc a d m n son) :=
    fun {_ _ _ _ _} => diag_not_above he (show 0 < cc.cl.size by rw [← he]; exact hp)
  rcases strictLower_ind h with ⟨rfl, hst⟩ | ⟨ha, h1, h2, _, son, rfl, hs⟩
  · -- a leaf, since the clusters are equal
    have hlab := strict_label admis rc cc
    have hleaf : bnodes (Block.buildStrict admis rc cc) = [Block.buildStrict admis rc cc] := by
      rw [Block.buildStrict]
      have hl : ∀ a, bnodes (Block.leaf rc cc a) = [Block.leaf rc cc a] := by
        intro a; unfold Block.leaf Block.build; simp [bnodes]
      split
      · exact hl _
      · rename_i hna
        have hz : rc.nsons = 0 ∧ cc.nsons = 0 := by
          rcases hst with h | h | h
          · exact absurd h hna
          · exact ⟨nsons_zero.2 h, nsons_zero.2 (he ▸ h)⟩
          · exact ⟨nsons_zero.2 (he ▸ h), nsons_zero.2 h⟩
        rw [if_pos hz.1, if_pos hz.2]; exact hl _
    have hrefs := blockTree_refs (strict_blockTree admis rc cc)
    intro s hs
    refine ⟨fun h => ?_, fun _ => hlab s hs⟩
    rw [hleaf, List.mem_singleton] at hs
    subst hs
    exact absurd h (diag_not_above (by rw [hrefs.1, hrefs.2]; exact he) (by rw [hrefs.2, ← he]; exact hp))
  · unfold Block.build
    rw [forall_bnodes_mk]
    have hmn : rc.nsons * cc.nsons ≠ 0 := Nat.mul_ne_zero (by omega) (by omega)
    refine ⟨⟨fun h => absurd h hnot, fun _ => ⟨ha.symm, ?_⟩⟩, fun i j => ?_⟩
    · have e1 : rc.cl.sons ≠ [] := fun e => by rw [← nsons_zero] at e; omega
      simp only [Block.rsons, Block.csons, Block.a, Block.rc, Block.cc]
      simp [hmn, e1]
    · have s1 := son_size hr i
      have s2 := son_size (he ▸ hr) j
      rcases lt_trichotomy i.1 j.1 with hl | hd | hg
      · rw [(hs i j).1 hl]; exact leaf_above ((son_order' he hr i j).1 hl)
      · exact strictLower_label admis (rc.son i) (cc.son j) _ (same_son he i j hd) (consistent_son hr i) s1.1
          ((hs i j).2.1 hd)
      · rw [(hs i j).2.2 hg]
        exact lowerLabel_below (strict_blockTree ..) (consistent_son hr i) (consistent_son (he ▸ hr) j)
          s1.1 s2.1 ((son_order' he hr i j).2 hg) (strict_label _ _ _)
termination_by sizeOf rc.cl
decreasing_by exact CRef.sizeOf_son _ _

end H2
