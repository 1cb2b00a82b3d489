import Verif.Spec.Block
import Verif.Proof.Cluster
import Mathlib.Algebra.BigOperators.Fin
import Mathlib.Algebra.Order.BigOperators.Group.Finset

set_option linter.unusedSectionVars false

namespace H2
open Spec
variable {K : Type _}

theorem mem_bnodes_self (b : Block K) : b ∈ bnodes b := by cases b; rw [bnodes]; exact List.mem_cons_self

theorem forall_bnodes_mk {P : Block K → Prop} {rc cc : CRef K} {a : Bool} {d m n : Nat}
    {son : Fin m → Fin n → Block K} :
    (∀ s ∈ bnodes (.mk rc cc a d m n son), P s) ↔
      P (.mk rc cc a d m n son) ∧ ∀ i j, ∀ s ∈ bnodes (son i j), P s := by
  rw [bnodes]
  simp only [List.mem_cons, List.mem_flatMap, List.mem_finRange, true_and, forall_eq_or_imp,
    forall_exists_index]
  exact and_congr Iff.rfl ⟨fun h i j s hs => h s j i hs, fun h s j i hs => h i j s hs⟩

theorem foldFin2_sum (m n : Nat) (f : Fin m → Fin n → Nat) (s : Nat) :
    foldFin n (fun j d => foldFin m (fun i d => d + f i j) d) s = s + ∑ j, ∑ i, f i j := by
  rw [← foldFin_sum]
  apply foldFin_congr
  intro j s
  rw [foldFin_sum]

theorem bnodes_length (rc cc : CRef K) (a : Bool) (d m n : Nat) (son : Fin m → Fin n → Block K) :
    (bnodes (.mk rc cc a d m n son)).length = 1 + ∑ j, ∑ i, (bnodes (son i j)).length := by
  rw [bnodes, List.length_cons, List.length_flatMap, add_comm, Fin.sum_univ_def]
  congr 2
  apply List.map_congr_left
  intro j _
  rw [List.length_flatMap, Fin.sum_univ_def]

theorem bdescExact_build {rc cc : CRef K} {a : Bool} {m n : Nat} {son : Fin m → Fin n → Block K}
    (h : ∀ i j, BDescExact (son i j)) : BDescExact (Block.build rc cc a m n son) := by
  unfold BDescExact Block.build
  rw [forall_bnodes_mk]
  refine ⟨?_, h⟩
  rw [bnodes_length, Block.desc, foldFin2_sum]
  congr 1
  refine Finset.sum_congr rfl fun j _ => Finset.sum_congr rfl fun i _ => ?_
  exact h i j _ (mem_bnodes_self _)

theorem bdescExact_leaf (rc cc : CRef K) (a : Bool) : BDescExact (Block.leaf rc cc a) :=
  bdescExact_build (fun i => i.elim0)

/-! ### consistency of references -/

theorem consistent_son {t : CRef K} (h : Consistent t.cl) (i : Fin t.nsons) : Consistent (t.son i).cl := by
  obtain ⟨p, t⟩ := t
  cases t with
  | mk c ss => exact (consistent_mk.1 h).2 _ (List.getElem_mem i.2)

theorem tiles_get : ∀ (ss : List (Cluster K)) (a b : Nat), Tiles a ss b → ∀ r, a ≤ r → r < b →
    ∃ i : Fin ss.length, (ss[i].off ≤ r ∧ r < ss[i].off + ss[i].size) ∧
      ∀ k : Fin ss.length, ss[k].off ≤ r ∧ r < ss[k].off + ss[k].size → k = i
  | [], a, b, h, r, h1, h2 => by simp only [Tiles] at h; omega
  | s :: ss, a, b, ⟨e1, e2, e3⟩, r, h1, h2 => by
    have hge : ∀ (ss : List (Cluster K)) (a b : Nat), Tiles a ss b → ∀ s ∈ ss, a ≤ s.off := by
      intro ss
      induction ss with
      | nil => intro a b _ s hs; cases hs
      | cons c cs ih =>
        intro a b ht s hs
        rcases List.mem_cons.1 hs with rfl | h'
        · exact le_of_eq ht.1.symm
        · have := ih _ _ ht.2.2 s h'; omega
    by_cases hr : r < a + s.size
    · refine ⟨⟨0, by simp⟩, by simp; omega, ?_⟩
      rintro ⟨k, hk⟩ hkr
      cases k with
      | zero => rfl
      | succ k =>
        exfalso
        have := hge ss _ _ e3 (ss[k]'(by simpa using hk)) (List.getElem_mem _)
        simp at hkr
        omega
    · obtain ⟨i, h3, h4⟩ := tiles_get ss _ _ e3 r (by omega) h2
      refine ⟨⟨i.1 + 1, by simp⟩, by simpa using h3, ?_⟩
      rintro ⟨k, hk⟩ hkr
      cases k with
      | zero => exfalso; simp at hkr; omega
      | succ k =>
        have := h4 ⟨k, by simpa using hk⟩ (by simpa using hkr)
        apply Fin.ext
        have := congrArg Fin.val this
        simpa using this

theorem tiles_within : ∀ (ss : List (Cluster K)) (a b : Nat), Tiles a ss b → ∀ s ∈ ss,
    a ≤ s.off ∧ s.off + s.size ≤ b
  | [], _, _, _, s, hs => by cases hs
  | c :: cs, a, b, ⟨e1, e2, e3⟩, s, hs => by
    have hl := tiles_le _ _ _ e3
    rcases List.mem_cons.1 hs with rfl | h'
    · omega
    · have := tiles_within _ _ _ e3 s h'; omega

/-- position `r` belongs to cluster `t` -/
def InC (t : CRef K) (r : Nat) : Prop := t.cl.off ≤ r ∧ r < t.cl.off + t.cl.size

theorem tiles_ref {t : CRef K} (h : Consistent t.cl) (hn : 0 < t.nsons) :
    Tiles t.cl.off t.cl.sons (t.cl.off + t.cl.size) := by
  apply h t.cl (mem_nodes_self _)
  intro e
  simp [CRef.nsons, e] at hn

theorem inC_son {t : CRef K} (h : Consistent t.cl) (i : Fin t.nsons) {r : Nat} (hr : InC (t.son i) r) :
    InC t r := by
  have hn : 0 < t.nsons := lt_of_le_of_lt (Nat.zero_le _) i.2
  have := tiles_within _ _ _ (tiles_ref h hn) (t.son i).cl (List.getElem_mem i.2)
  unfold InC at *
  omega

theorem inC_unique {t : CRef K} (h : Consistent t.cl) (hn : 0 < t.nsons) {r : Nat} (hr : InC t r) :
    ∃ i, InC (t.son i) r ∧ ∀ k, InC (t.son k) r → k = i :=
  tiles_get _ _ _ (tiles_ref h hn) r hr.1 hr.2

theorem covers_iff {b : Block K} {rc cc : CRef K} (h1 : b.rc = rc) (h2 : b.cc = cc) (r c : Nat) :
    Covers b r c ↔ InC rc r ∧ InC cc c := by
  subst h1 h2
  unfold Covers InC
  tauto

theorem blockTree_refs {rc cc : CRef K} {b : Block K} (h : BlockTree rc cc b) : b.rc = rc ∧ b.cc = cc := by
  cases h <;> exact ⟨rfl, rfl⟩

/-! ### leaves tile -/

theorem countP_node {m n : Nat} {son : Fin m → Fin n → Block K} (p : Block K → Bool) (i0 : Fin m) (j0 : Fin n)
    (h1 : (bleaves (son i0 j0)).countP p = 1)
    (h0 : ∀ i j, ¬ (i = i0 ∧ j = j0) → (bleaves (son i j)).countP p = 0) {rc cc : CRef K} {a : Bool} {d : Nat} :
    (bleaves (.mk rc cc a d m n son)).countP p = 1 := by
  have hm : m * n ≠ 0 := by
    have := i0.2; have := j0.2
    exact Nat.mul_ne_zero (by omega) (by omega)
  rw [bleaves, if_neg hm, List.countP_flatMap]
  have e : (List.finRange n).map (List.countP p ∘ fun j => (List.finRange m).flatMap fun i => bleaves (son i j)) =
      (List.finRange n).map fun j => ∑ i, (bleaves (son i j)).countP p := by
    apply List.map_congr_left
    intro j _
    simp only [Function.comp, List.countP_flatMap]
    rw [Fin.sum_univ_def]; rfl
  rw [e, ← Fin.sum_univ_def, Finset.sum_eq_single j0, Finset.sum_eq_single i0, h1]
  · intro i _ hi; exact h0 i j0 (fun h => hi h.1)
  · intro h; exact absurd (Finset.mem_univ _) h
  · intro j _ hj; exact Finset.sum_eq_zero fun i _ => h0 i j (fun h => hj h.2)
  · intro h; exact absurd (Finset.mem_univ _) h

theorem mem_bleaves_node {m n : Nat} {son : Fin m → Fin n → Block K} {rc cc : CRef K} {a : Bool} {d : Nat}
    {s : Block K} (h : s ∈ bleaves (.mk rc cc a d m n son)) (hmn : m * n ≠ 0) :
    ∃ i j, s ∈ bleaves (son i j) := by
  rw [bleaves, if_neg hmn] at h
  simp only [List.mem_flatMap, List.mem_finRange, true_and] at h
  obtain ⟨j, i, h⟩ := h
  exact ⟨i, j, h⟩

theorem blockTree_tile {rc cc : CRef K} {b : Block K} (h : BlockTree rc cc b) (hr : Consistent rc.cl)
    (hc : Consistent cc.cl) : LeavesTile b := by
  induction h with
  | leaf =>
    constructor
    · intro s hs; simp [bleaves] at hs; subst hs; exact fun _ _ h => h
    · intro r c h
      simp only [bleaves, Nat.mul_zero, if_true]
      rw [List.countP_singleton, if_pos (decide_eq_true h)]
  | @both rc cc a d son h1 h2 hs ih =>
    have hmn : rc.nsons * cc.nsons ≠ 0 := Nat.mul_ne_zero (by omega) (by omega)
    have hsub : ∀ i j, ∀ s ∈ bleaves (son i j), ∀ r c, Covers s r c → InC (rc.son i) r ∧ InC (cc.son j) c := by
      intro i j s hs' r c hcov
      have := (ih i j (consistent_son hr i) (consistent_son hc j)).1 s hs' r c hcov
      obtain ⟨e1, e2⟩ := blockTree_refs (hs i j)
      exact (covers_iff e1 e2 r c).1 this
    constructor
    · intro s hs' r c hcov
      obtain ⟨i, j, hm⟩ := mem_bleaves_node hs' hmn
      have := hsub i j s hm r c hcov
      exact (covers_iff rfl rfl r c).2 ⟨inC_son hr i this.1, inC_son hc j this.2⟩
    · intro r c hcov
      obtain ⟨hir, hic⟩ := (covers_iff rfl rfl r c).1 hcov
      obtain ⟨i0, hi0, ui⟩ := inC_unique hr h1 hir
      obtain ⟨j0, hj0, uj⟩ := inC_unique hc h2 hic
      apply countP_node _ i0 j0
      · obtain ⟨e1, e2⟩ := blockTree_refs (hs i0 j0)
        exact (ih i0 j0 (consistent_son hr i0) (consistent_son hc j0)).2 r c
          ((covers_iff e1 e2 r c).2 ⟨hi0, hj0⟩)
      · intro i j hne
        rw [List.countP_eq_zero]
        intro s hs' hcv
        have := hsub i j s hs' r c (of_decide_eq_true hcv)
        exact hne ⟨ui i this.1, uj j this.2⟩
  | @rows rc cc a d son h1 hs ih =>
    have hmn : rc.nsons * 1 ≠ 0 := by omega
    have hsub : ∀ i j, ∀ s ∈ bleaves (son i j), ∀ r c, Covers s r c → InC (rc.son i) r ∧ InC cc c := by
      intro i j s hs' r c hcov
      have := (ih i j (consistent_son hr i) hc).1 s hs' r c hcov
      obtain ⟨e1, e2⟩ := blockTree_refs (hs i j)
      exact (covers_iff e1 e2 r c).1 this
    constructor
    · intro s hs' r c hcov
      obtain ⟨i, j, hm⟩ := mem_bleaves_node hs' hmn
      have := hsub i j s hm r c hcov
      exact (covers_iff rfl rfl r c).2 ⟨inC_son hr i this.1, this.2⟩
    · intro r c hcov
      obtain ⟨hir, hic⟩ := (covers_iff rfl rfl r c).1 hcov
      obtain ⟨i0, hi0, ui⟩ := inC_unique hr h1 hir
      apply countP_node _ i0 0
      · obtain ⟨e1, e2⟩ := blockTree_refs (hs i0 0)
        exact (ih i0 0 (consistent_son hr i0) hc).2 r c ((covers_iff e1 e2 r c).2 ⟨hi0, hic⟩)
      · intro i j hne
        rw [List.countP_eq_zero]
        intro s hs' hcv
        have := hsub i j s hs' r c (of_decide_eq_true hcv)
        exact hne ⟨ui i this.1, Subsingleton.elim _ _⟩
  | @cols rc cc a d son h1 hs ih =>
    have hmn : 1 * cc.nsons ≠ 0 := by omega
    have hsub : ∀ i j, ∀ s ∈ bleaves (son i j), ∀ r c, Covers s r c → InC rc r ∧ InC (cc.son j) c := by
      intro i j s hs' r c hcov
      have := (ih i j hr (consistent_son hc j)).1 s hs' r c hcov
      obtain ⟨e1, e2⟩ := blockTree_refs (hs i j)
      exact (covers_iff e1 e2 r c).1 this
    constructor
    · intro s hs' r c hcov
      obtain ⟨i, j, hm⟩ := mem_bleaves_node hs' hmn
      have := hsub i j s hm r c hcov
      exact (covers_iff rfl rfl r c).2 ⟨this.1, inC_son hc j this.2⟩
    · intro r c hcov
      obtain ⟨hir, hic⟩ := (covers_iff rfl rfl r c).1 hcov
      obtain ⟨j0, hj0, uj⟩ := inC_unique hc h1 hic
      apply countP_node _ 0 j0
      · obtain ⟨e1, e2⟩ := blockTree_refs (hs 0 j0)
        exact (ih 0 j0 hr (consistent_son hc j0)).2 r c ((covers_iff e1 e2 r c).2 ⟨hir, hj0⟩)
      · intro i j hne
        rw [List.countP_eq_zero]
        intro s hs' hcv
        have := hsub i j s hs' r c (of_decide_eq_true hcv)
        exact hne ⟨Subsingleton.elim _ _, uj j this.2⟩

/-! ### builders -/

theorem leaf_blockTree (rc cc : CRef K) (a : Bool) : BlockTree rc cc (Block.leaf rc cc a) := .leaf

theorem nonstrict_blockTree (admis : Cluster K → Cluster K → Bool) (rc cc : CRef K) :
    BlockTree rc cc (Block.buildNonstrict admis rc cc) := by
  rw [Block.buildNonstrict]
  split
  · exact leaf_blockTree ..
  · split
    · exact leaf_blockTree ..
    · rename_i h
      have h1 : rc.nsons ≠ 0 := fun e => h (by rw [e, Nat.zero_mul])
      have h2 : cc.nsons ≠ 0 := fun e => h (by rw [e, Nat.mul_zero])
      exact .both (by omega) (by omega) (fun i j => nonstrict_blockTree admis (rc.son i) (cc.son j))
termination_by sizeOf rc.cl
decreasing_by exact CRef.sizeOf_son _ _

theorem strict_blockTree (admis : Cluster K → Cluster K → Bool) (rc cc : CRef K) :
    BlockTree rc cc (Block.buildStrict admis rc cc) := by
  rw [Block.buildStrict]
  split
  · exact leaf_blockTree ..
  · split
    · split
      · exact leaf_blockTree ..
      · exact .cols (by omega) (fun i j => strict_blockTree admis rc (cc.son j))
    · split
      · exact .rows (by omega) (fun i j => strict_blockTree admis (rc.son i) cc)
      · exact .both (by omega) (by omega) (fun i j => strict_blockTree admis (rc.son i) (cc.son j))
termination_by sizeOf rc.cl + sizeOf cc.cl
decreasing_by
  all_goals first
    | (have := CRef.sizeOf_son cc j; omega)
    | (have := CRef.sizeOf_son rc i; omega)
    | (have := CRef.sizeOf_son cc j; have := CRef.sizeOf_son rc i; omega)

theorem nonstrict_desc (admis : Cluster K → Cluster K → Bool) (rc cc : CRef K) :
    BDescExact (Block.buildNonstrict admis rc cc) := by
  rw [Block.buildNonstrict]
  split
  · exact bdescExact_leaf _ _ _
  · split
    · exact bdescExact_leaf _ _ _
    · exact bdescExact_build (fun i j => nonstrict_desc admis (rc.son i) (cc.son j))
termination_by sizeOf rc.cl
decreasing_by exact CRef.sizeOf_son _ _

theorem strict_desc (admis : Cluster K → Cluster K → Bool) (rc cc : CRef K) :
    BDescExact (Block.buildStrict admis rc cc) := by
  rw [Block.buildStrict]
  split
  · exact bdescExact_leaf _ _ _
  · split
    · split
      · exact bdescExact_leaf _ _ _
      · exact bdescExact_build (fun i j => strict_desc admis rc (cc.son j))
    · split
      · exact bdescExact_build (fun i j => strict_desc admis (rc.son i) cc)
      · exact bdescExact_build (fun i j => strict_desc admis (rc.son i) (cc.son j))
termination_by sizeOf rc.cl + sizeOf cc.cl
decreasing_by
  all_goals first
    | (have := CRef.sizeOf_son cc j; omega)
    | (have := CRef.sizeOf_son rc i; omega)
    | (have := CRef.sizeOf_son cc j; have := CRef.sizeOf_son rc i; omega)

theorem nsons_zero {t : CRef K} : t.nsons = 0 ↔ t.cl.sons = [] := List.length_eq_zero_iff

theorem nonstrict_label (admis : Cluster K → Cluster K → Bool) (rc cc : CRef K) :
    ∀ s ∈ bnodes (Block.buildNonstrict admis rc cc), NonstrictLabel admis s := by
  rw [Block.buildNonstrict]
  split
  · rename_i h
    unfold Block.leaf Block.build
    rw [forall_bnodes_mk]
    exact ⟨⟨h.symm, by simp [Block.rsons, Block.csons, Block.a]⟩, fun i => i.elim0⟩
  · rename_i h
    simp only [Bool.not_eq_true] at h
    split
    · rename_i h0
      unfold Block.leaf Block.build
      rw [forall_bnodes_mk]
      refine ⟨⟨h.symm, ?_⟩, fun i => i.elim0⟩
      rw [Nat.mul_eq_zero, nsons_zero, nsons_zero] at h0
      simp [Block.rsons, Block.csons, Block.a, Block.rc, Block.cc, h0]
    · rename_i h0
      unfold Block.build
      rw [forall_bnodes_mk]
      refine ⟨⟨h.symm, ?_⟩, fun i j => nonstrict_label admis (rc.son i) (cc.son j)⟩
      have h0' := h0
      rw [Nat.mul_eq_zero, nsons_zero, nsons_zero] at h0'
      simp only [Block.rsons, Block.csons, Block.a, Block.rc, Block.cc]
      simp [h0]
      exact not_or.1 h0'
termination_by sizeOf rc.cl
decreasing_by exact CRef.sizeOf_son _ _

theorem strict_label (admis : Cluster K → Cluster K → Bool) (rc cc : CRef K) :
    ∀ s ∈ bnodes (Block.buildStrict admis rc cc), StrictLabel admis s := by
  rw [Block.buildStrict]
  split
  · rename_i h
    unfold Block.leaf Block.build
    rw [forall_bnodes_mk]
    exact ⟨⟨h.symm, by simp [Block.rsons, Block.csons, Block.a]⟩, fun i => i.elim0⟩
  · rename_i h
    simp only [Bool.not_eq_true] at h
    split
    · rename_i h0
      split
      · rename_i h1
        unfold Block.leaf Block.build
        rw [forall_bnodes_mk]
        refine ⟨⟨h.symm, ?_⟩, fun i => i.elim0⟩
        rw [nsons_zero] at h0 h1
        simp [Block.rsons, Block.csons, Block.a, Block.rc, Block.cc, h0, h1]
      · rename_i h1
        unfold Block.build
        rw [forall_bnodes_mk]
        refine ⟨⟨h.symm, ?_⟩, fun i j => strict_label admis rc (cc.son j)⟩
        have h1' := h1
        rw [nsons_zero] at h1'
        simp [Block.rsons, Block.csons, Block.a, Block.rc, Block.cc, h1, h1']
    · rename_i h0
      have h0' := h0
      rw [nsons_zero] at h0'
      split
      · rename_i h1
        unfold Block.build
        rw [forall_bnodes_mk]
        refine ⟨⟨h.symm, ?_⟩, fun i j => strict_label admis (rc.son i) cc⟩
        simp [Block.rsons, Block.csons, Block.a, Block.rc, Block.cc, h0, h0']
      · rename_i h1
        unfold Block.build
        rw [forall_bnodes_mk]
        refine ⟨⟨h.symm, ?_⟩, fun i j => strict_label admis (rc.son i) (cc.son j)⟩
        simp [Block.rsons, Block.csons, Block.a, Block.rc, Block.cc, h0, h1, h0']
termination_by sizeOf rc.cl + sizeOf cc.cl
decreasing_by
  all_goals first
    | (have := CRef.sizeOf_son cc j; omega)
    | (have := CRef.sizeOf_son rc i; omega)
    | (have := CRef.sizeOf_son cc j; have := CRef.sizeOf_son rc i; omega)

end H2
